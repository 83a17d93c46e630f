import Verif.Wire.Lemmas4
/-!
# C47-C49: wire formats, hostile bytes, octet strings
-/
namespace Fastroll.Wire
open Fastroll.Codec
open Spec (Codes)

/-! ## Example values -/

def ex32 (b : UInt8) : Bytes := List.replicate 32 b
/-- The tiny network: 6 validators, 5 votes per verdict, 2 cores, 12 slots. -/
def exP : Params := ⟨6, 5, 2, 12, 16⟩
def exCtx : RefineCtx := ⟨ex32 1, ex32 2, ex32 3, ex32 4, 9, [ex32 5, ex32 6]⟩
def exDigest : WorkDigest := ⟨7, ex32 8, ex32 9, 1000, .output [1, 200, 3], ⟨300, 1, 2, 70000, 3⟩⟩
def exReport : WorkReport :=
  ⟨⟨ex32 10, 500, ex32 11, ex32 12, 3⟩, exCtx, 1, ex32 13, 42, [0xFF, 0], [(ex32 14, ex32 15)],
    [exDigest, { exDigest with result := .error .badExports }]⟩
def exGuarantee : GuaranteeXt := ⟨exReport, 8, [⟨0, List.replicate 64 1⟩, ⟨3, List.replicate 64 2⟩]⟩
def exXt : Extrinsics :=
  ⟨[⟨1, List.replicate 784 5⟩], [⟨12, [0xFE, 1]⟩], [exGuarantee],
    [⟨ex32 16, [true, false], 4, List.replicate 64 3⟩],
    ⟨[⟨ex32 17, 2, List.replicate 5 ⟨true, 1, List.replicate 64 4⟩⟩],
     [⟨ex32 18, ex32 19, List.replicate 64 5⟩], [⟨ex32 20, false, ex32 21, List.replicate 64 6⟩]⟩⟩
def exHeader (x : Bytes) : Header :=
  ⟨ex32 22, ex32 23, x, 77, some ⟨ex32 24, ex32 25, List.replicate 6 ⟨ex32 26, ex32 27⟩⟩,
    some (List.replicate 12 ⟨ex32 28, 1⟩), 3, List.replicate 96 7, [ex32 29], List.replicate 96 8⟩
def exBlock : Block := ⟨exHeader (ex32 30), exXt⟩

theorem exCtx_ok : Spec.CtxOk exCtx :=
  ⟨by decide, by decide, by decide, by decide, by decide, by decide, by unfold Spec.Increasing; decide +kernel, by decide +kernel⟩

theorem exDigest_ok : Spec.DigestOk exDigest :=
  ⟨by decide, by decide, by decide, by decide, show [1, 200, 3].length < 2 ^ 63 by decide,
    ⟨by decide, by decide, by decide, by decide, by decide⟩⟩

theorem exReport_ok : Spec.ReportOk exP exReport :=
  ⟨⟨by decide, by decide, by decide, by decide, by decide⟩, exCtx_ok, by decide, by decide, by decide, by decide,
    by decide, by unfold Spec.Increasing; decide +kernel, by decide +kernel, by decide, by decide, by
      intro d hd
      simp only [exReport, List.mem_cons, List.not_mem_nil, or_false] at hd
      rcases hd with rfl | rfl
      · exact exDigest_ok
      · exact ⟨by decide, by decide, by decide, by decide, trivial, exDigest_ok.stats⟩⟩

theorem exXt_ok : Spec.XtOk exP exXt := by
  refine ⟨by unfold Spec.Fits; decide, ?_, by unfold Spec.Fits; decide, ?_, by decide, by decide, ?_, by decide, by decide, ?_, ?_⟩
  · intro t ht
    simp only [exXt, List.mem_singleton] at ht
    subst ht
    exact ⟨by decide, List.length_replicate ..⟩
  · intro t ht
    simp only [exXt, List.mem_singleton] at ht
    subst ht
    exact ⟨by decide, by decide⟩
  · intro t ht
    simp only [exXt, List.mem_singleton] at ht
    subst ht
    refine ⟨exReport_ok, by decide, by unfold Spec.Fits; decide, ?_⟩
    intro c hc
    simp only [exGuarantee, List.mem_cons, List.not_mem_nil, or_false] at hc
    rcases hc with rfl | rfl <;> exact ⟨by decide, by simp⟩
  · intro t ht
    simp only [exXt, List.mem_singleton] at ht
    subst ht
    exact ⟨by decide, by decide, by decide, by simp⟩
  · refine ⟨by unfold Spec.Fits; decide, ?_, by unfold Spec.Fits; decide, ?_, by unfold Spec.Fits; decide, ?_⟩
    · intro t ht
      simp only [exXt, List.mem_singleton] at ht
      subst ht
      refine ⟨by decide, by decide, by simp [exP], ?_⟩
      intro j hj
      obtain ⟨_, rfl⟩ := List.mem_replicate.mp hj
      exact ⟨by decide, by simp⟩
    · intro t ht
      simp only [exXt, List.mem_singleton] at ht
      subst ht
      exact ⟨by decide, by decide, by simp⟩
    · intro t ht
      simp only [exXt, List.mem_singleton] at ht
      subst ht
      exact ⟨by decide, by decide, by simp⟩

theorem exHeader_ok (x : Bytes) (hx : x.length = 32) : Spec.HeaderOk exP (exHeader x) := by
  refine ⟨by simp [exHeader, ex32], by simp [exHeader, ex32], hx, by simp [exHeader], ?_, ?_, by simp [exHeader],
    by simp [exHeader], by simp [exHeader, Spec.Fits], by simp [exHeader, ex32], by simp [exHeader]⟩
  · intro m hm
    simp only [exHeader, Option.some.injEq] at hm
    subst hm
    refine ⟨by simp [ex32], by simp [ex32], by simp [exP], ?_⟩
    intro k hk
    obtain ⟨_, rfl⟩ := List.mem_replicate.mp hk
    exact ⟨by simp [ex32], by simp [ex32]⟩
  · intro w hw
    simp only [exHeader, Option.some.injEq] at hw
    subst hw
    refine ⟨by simp [exP], ?_⟩
    intro k hk
    obtain ⟨_, rfl⟩ := List.mem_replicate.mp hk
    exact ⟨by simp [ex32], by decide⟩

theorem exBlock_ok : Spec.BlockOk exP exBlock := ⟨exHeader_ok _ (by simp [ex32]), exXt_ok⟩

/-! ## C47: the wire formats -/

/-- **C47**: a block is written as the paper lays it out, header first and the five
extrinsic parts after it, and reading it back gives the block and whatever followed. -/
theorem C47_block (P : Params) : Codes (Block.enc P) (Block.dec P) (Spec.BlockOk P) (Spec.block P) :=
  block_codes P

example : Block.enc exP exBlock = .ok (Spec.block exP exBlock) ∧
    Block.dec exP (Spec.block exP exBlock ++ [1, 2]) = .ok (exBlock, [1, 2]) :=
  ⟨(C47_block exP exBlock exBlock_ok).1, (C47_block exP exBlock exBlock_ok).2 _⟩

/-- **C47**: work reports. -/
theorem C47_report (P : Params) :
    Codes WorkReport.enc (WorkReport.dec P) (Spec.ReportOk P) Spec.report := report_codes P

example : WorkReport.dec exP (Spec.report exReport) = .ok (exReport, []) := by
  have := (C47_report exP exReport exReport_ok).2 []
  rwa [List.append_nil] at this

/-- **C47**, for packages whose import indices are below `2^15`, as in the paper; the code's
type also admits larger ones (`C47_import_index_aliases`). -/
theorem C47_package_partial (P : Params) :
    Codes WorkPackage.enc (WorkPackage.dec P) (Spec.PackageOk P) Spec.package := package_codes P

def exItem : WorkItem :=
  ⟨7, ex32 1, 5000, 2 ^ 40, 4, [0x80, 0x90], [⟨.segmentRoot (ex32 2), 3⟩, ⟨.packageHash (ex32 3), 32767⟩], [⟨ex32 4, 99⟩]⟩
def exPackage : WorkPackage := ⟨1, ex32 5, exCtx, [1], [2, 255], [exItem]⟩

theorem exPackage_ok : Spec.PackageOk exP exPackage := by
  refine ⟨by decide, by decide, exCtx_ok, by decide, by decide, by decide, by decide, ?_⟩
  intro w hw
  simp only [exPackage, List.mem_singleton] at hw
  subst hw
  refine ⟨by decide, by decide, by decide, by decide, by decide, by decide, by unfold Spec.Fits; decide, ?_,
    by unfold Spec.Fits; decide, ?_⟩
  · intro i hi
    simp only [exItem, List.mem_cons, List.not_mem_nil, or_false] at hi
    rcases hi with rfl | rfl <;> exact ⟨by decide, by decide⟩
  · intro i hi
    simp only [exItem, List.mem_singleton] at hi
    subst hi
    exact ⟨by decide, by decide⟩

example : WorkPackage.dec exP (Spec.package exPackage ++ [9]) = .ok (exPackage, [9]) :=
  (C47_package_partial exP exPackage exPackage_ok).2 [9]

/-- **C47** fails for the remaining indices of the type: a segment-root import with index
`2^15 + i` is written exactly as a package-hash import with index `i`, and read back as it. -/
theorem C47_import_index_aliases (h : Bytes) (i : Nat) (hh : h.length = 32) (hi : i < 2 ^ 15) (rest : Bytes) :
    ImportInfo.enc ⟨.segmentRoot h, 2 ^ 15 + i⟩ = ImportInfo.enc ⟨.packageHash h, i⟩ ∧
    ∃ bs, ImportInfo.enc ⟨.segmentRoot h, 2 ^ 15 + i⟩ = .ok bs ∧
      ImportInfo.dec (bs ++ rest) = .ok (⟨.packageHash h, i⟩, rest) := by
  have hok : Spec.ImportOk ⟨.packageHash h, i⟩ := ⟨hh, hi⟩
  have e : ImportInfo.enc ⟨.segmentRoot h, 2 ^ 15 + i⟩ = ImportInfo.enc ⟨.packageHash h, i⟩ := by
    simp only [ImportInfo.enc, ImportInfo.parts]
    rw [Nat.mod_eq_of_lt (show i + 2 ^ 15 < 2 ^ 16 by omega), Nat.add_comm]
  obtain ⟨h1, h2⟩ := import_codes _ hok
  exact ⟨e, _, e.trans h1, h2 rest⟩

example : ImportInfo.dec (ex32 1 ++ [5, 128]) = .ok (⟨.packageHash (ex32 1), 5⟩, []) := by decide +kernel

/-- **C47**: the header hash binds the header: two headers with the same hash are the same,
or their serializations are two different strings with the same hash. -/
theorem C47_header_binds (P : Params) (H : Bytes → Bytes) (h h' : Header) (hok : Spec.HeaderOk P h)
    (hok' : Spec.HeaderOk P h') (x : Bytes) (e : Header.hash H h = .ok x) (e' : Header.hash H h' = .ok x) :
    h = h' ∨ Spec.header h ≠ Spec.header h' ∧ H (Spec.header h) = H (Spec.header h') := by
  have f := (header_codes P h hok).1
  have f' := (header_codes P h' hok').1
  simp only [Header.hash, hashOf, f, f'] at e e'
  by_cases hs : Spec.header h = Spec.header h'
  · exact .inl (codes_inj' (header_codes P) hok hok' hs)
  · right
    injection e with e
    injection e' with e'
    exact ⟨hs, e.trans e'.symm⟩

/-- **C47**: the header hash binds the whole block. Two valid blocks whose headers carry the
hash of their own extrinsics, and whose header hashes agree, are the same block, or two of
the strings hashed for them differ and have the same hash. -/
theorem C47_block_binds (P : Params) (H : Bytes → Bytes) (hH : ∀ x, (H x).length = 32) (b b' : Block)
    (hok : Spec.BlockOk P b) (hok' : Spec.BlockOk P b')
    (hx : Extrinsics.hash P H b.xt = .ok b.header.xtHash) (hx' : Extrinsics.hash P H b'.xt = .ok b'.header.xtHash)
    (x : Bytes) (e : Header.hash H b.header = .ok x) (e' : Header.hash H b'.header = .ok x) :
    b = b' ∨ ∃ y ∈ Spec.hashed P H b, ∃ z ∈ Spec.hashed P H b', y ≠ z ∧ H y = H z := by
  rcases C47_header_binds P H _ _ hok.header hok'.header x e e' with he | ⟨hne, hc⟩
  · rw [xt_hash hok.xt] at hx
    rw [xt_hash hok'.xt] at hx'
    injection hx with hx
    injection hx' with hx'
    rcases xtHash_binds hH hok.xt hok'.xt (by rw [hx, hx', he]) with hxt | hcol
    · left
      obtain ⟨a, c⟩ := b
      obtain ⟨a', c'⟩ := b'
      simp only at he hxt
      rw [he, hxt]
    · exact .inr hcol
  · right
    exact ⟨Spec.header b.header, by simp [Spec.hashed], Spec.header b'.header, by simp [Spec.hashed], hne, hc⟩

/-- A toy hash of 32 bytes. -/
def exH (b : Bytes) : Bytes := List.replicate 32 (b.foldl (fun a x => a * 31 + x + 1) 7)
def exBlock2 : Block := ⟨exHeader (Spec.xtHash exP exH exXt), exXt⟩

example : Extrinsics.hash exP exH exBlock2.xt = .ok exBlock2.header.xtHash ∧
    Header.hash exH exBlock2.header = .ok (exH (Spec.header exBlock2.header)) := by
  have hx : (Spec.xtHash exP exH exXt).length = 32 := by simp [Spec.xtHash, exH]
  refine ⟨xt_hash exXt_ok, ?_⟩
  have := (header_codes exP _ (exHeader_ok _ hx)).1
  simp [Header.hash, hashOf, exBlock2, this]

/-- **C47** fails for canonicity of sets: the decoder accepts unsorted and repeated entries,
so different byte strings decode to the same work context. -/
theorem C47_set_decoding_not_canonical (a b : Bytes) (ha : a.length = 32) (hb : b.length = 32)
    (hlt : bytesLt a b = true) (rest : Bytes) :
    setDec bytesLt (arrDec 32) ([2] ++ a ++ b ++ rest) = .ok ([a, b], rest) ∧
    setDec bytesLt (arrDec 32) ([2] ++ b ++ a ++ rest) = .ok ([a, b], rest) ∧
    setDec bytesLt (arrDec 32) ([3] ++ b ++ a ++ b ++ rest) = .ok ([a, b], rest) := by
  have hba : bytesLt b a = false := by
    cases h : bytesLt b a with
    | false => rfl
    | true => have := bytesLt_asymm _ _ hlt; rw [h] at this; cases this
  have irr : ∀ x, bytesLt x x = false := by
    intro x
    cases h : bytesLt x x with
    | false => rfl
    | true => have := bytesLt_asymm _ _ h; rw [h] at this; cases this
  have d : ∀ (x r : Bytes), x.length = 32 → arrDec 32 (x ++ r) = .ok (x, r) := fun x r hx => (arr_codes 32 x hx).2 r
  have i2 : ∀ r, intDecode 64 (2 :: r) = .ok (2, r) := fun r => (nat_codes 64 (by decide) 2 (by decide)).2 r
  have i3 : ∀ r, intDecode 64 (3 :: r) = .ok (3, r) := fun r => (nat_codes 64 (by decide) 3 (by decide)).2 r
  simp only [List.append_assoc, List.cons_append, List.nil_append, setDec, bind_ok (i2 _), bind_ok (i3 _), setDecLoop,
    bind_ok (d _ _ ha), bind_ok (d _ _ hb), setInsert, hlt, hba, irr]
  simp [setInsert, hlt, hba, irr]

example : RefineCtx.dec (ex32 1 ++ ex32 2 ++ ex32 3 ++ ex32 4 ++ [9, 0, 0, 0] ++ [3] ++ ex32 6 ++ ex32 5 ++ ex32 6) =
    .ok (exCtx, []) := by decide +kernel

/-! ## C48: hostile bytes -/

/-- **C48**: a vector decoder aborts the node exactly when the announced length exceeds the
address space, or when it gets as far as an element decoder that aborts. -/
theorem C48_vec_panics_iff {α : Type} (sz : Nat) (d : Dec α) (inp : Bytes) :
    vecDec sz d inp = .error .panic ↔ ∃ n r, intDecode 64 inp = .ok (n, r) ∧
      (2 ^ 63 ≤ n * sz ∨ n * sz < 2 ^ 63 ∧ seqDec d n r = .error .panic) := by
  have hs := (safe_int true_tails 64 inp trivial).1
  unfold vecDec
  cases e : intDecode 64 inp with
  | error x =>
    rw [bind_error e]
    constructor
    · intro h; exact absurd (by rw [e]; injection h with h; rw [h]) hs
    · rintro ⟨n, r, h, _⟩; cases h
  | ok p =>
    obtain ⟨n, r⟩ := p
    rw [bind_ok e]
    by_cases hm : n * sz < 2 ^ 63
    · rw [bind_ok (reserve_ok hm r)]
      constructor
      · intro h; exact ⟨n, r, rfl, .inr ⟨hm, h⟩⟩
      · rintro ⟨n', r', h, h'⟩
        cases h
        rcases h' with h' | h'
        · omega
        · exact h'.2
    · have : reserve sz n r = .error .panic := by
        unfold reserve maxAlloc
        rw [if_neg (by omega)]
        rfl
      rw [bind_error this]
      exact ⟨fun _ => ⟨n, r, rfl, .inl (by omega)⟩, fun _ => rfl⟩

theorem vec_panics {α : Type} {sz : Nat} {d : Dec α} {n : Nat} (hn : n < 2 ^ 64) (h : 2 ^ 63 ≤ n * sz) (rest : Bytes) :
    vecDec sz d (Spec.nat n ++ rest) = .error .panic :=
  (C48_vec_panics_iff sz d _).mpr ⟨n, rest, (nat_codes 64 (by decide) n hn).2 rest, .inl h⟩

/-- **C48** fails: whatever the header and whatever follows, a block announcing at least
`2^63 / 785` tickets makes the block decoder panic. -/
theorem C48_block_decoder_panics (P : Params) (h : Header) (hok : Spec.HeaderOk P h) (n : Nat) (hn : n < 2 ^ 64)
    (hbig : 2 ^ 63 ≤ n * 785) (rest : Bytes) :
    Block.dec P (Spec.header h ++ (Spec.nat n ++ rest)) = .error .panic := by
  unfold Block.dec
  rw [bind_ok ((header_codes P h hok).2 _)]
  unfold Extrinsics.dec
  rw [bind_error (e := .panic)]
  rw [bind_error (vec_panics hn hbig rest)]

example : Block.dec exP (Spec.header (exHeader (ex32 0)) ++ (Spec.nat (2 ^ 63) ++ [])) = .error .panic :=
  C48_block_decoder_panics exP _ (exHeader_ok _ (by simp [ex32])) (2 ^ 63) (by decide) (by decide) []

/-- **C48** fails for headers alone: the offenders mark. Everything before it is arbitrary. -/
theorem C48_header_decoder_panics (P : Params) (a b c v : Bytes) (s i n : Nat) (ha : a.length = 32) (hb : b.length = 32)
    (hc : c.length = 32) (hs : s < 2 ^ 32) (hi : i < 2 ^ 16) (hv : v.length = 96) (hn : n < 2 ^ 64)
    (hbig : 2 ^ 58 ≤ n) (rest : Bytes) :
    Header.dec P (a ++ (b ++ (c ++ (paperFixed 4 s ++ ([0] ++ ([0] ++ (paperFixed 2 i ++ (v ++ (Spec.nat n ++ rest))))))))) =
      .error .panic := by
  have f3 := fixed_codes 32 4 (by decide) (by decide) s hs
  have f4 := fixed_codes 16 2 (by decide) (by decide) i hi
  have o1 : ∀ {α : Type} (d : Dec α) (r : Bytes), optDec d ([0] ++ r) = .ok (none, r) := fun d r => rfl
  unfold Header.dec
  have g : ∀ (n : Nat) (x r : Bytes), x.length = n → arrDec n (x ++ r) = .ok (x, r) := fun n x r hx => (arr_codes n x hx).2 r
  rw [bind_ok (g 32 a _ ha), bind_ok (g 32 b _ hb), bind_ok (g 32 c _ hc),
    bind_ok (f3.2 _), bind_ok (o1 _ _), bind_ok (o1 _ _), bind_ok (f4.2 _), bind_ok (g 96 v _ hv),
    bind_error (vec_panics hn (by omega) rest)]

/-- **C48** fails for stored service code: a metadata length of `2^63` or more makes every
node that loads the code panic. -/
theorem C48_service_code_panics (n : Nat) (hn : n < 2 ^ 64) (hbig : 2 ^ 63 ≤ n) (rest : Bytes) :
    accountCodeDec (Spec.nat n ++ rest) = .error .panic := by
  unfold accountCodeDec vecU8Dec
  rw [bind_error (vec_panics hn (by omega) rest)]

example : accountCodeDec [255, 0, 0, 0, 0, 0, 0, 0, 128] = .error .panic := by decide +kernel

/-- **C48**, for inputs without the bytes `0xFE` and `0xFF`: decoding a block, a work package
or a work report never panics, whatever the bytes. The remaining inputs are those of
the three theorems above and their like. -/
theorem C48_no_panic_partial (P : Params) (inp : Bytes) (h : ∀ b ∈ inp, b.toNat < 254) :
    Block.dec P inp ≠ .error .panic ∧ WorkPackage.dec P inp ≠ .error .panic ∧
    WorkReport.dec P inp ≠ .error .panic :=
  ⟨(safe_block P inp h).1, (safe_package P inp h).1, (safe_report P inp h).1⟩

example : Block.dec exP (List.replicate 300 253) ≠ .error .panic :=
  (C48_no_panic_partial exP _ (by intro b hb; obtain ⟨_, rfl⟩ := List.mem_replicate.mp hb; decide)).1

/-- **C48**: types whose collections are bounded by the protocol or sets never panic, on any
bytes: work contexts, tickets, assurances, judgments, verdicts, culprits, faults,
credentials, epoch markers. -/
theorem C48_bounded_types_no_panic (P : Params) (inp : Bytes) :
    RefineCtx.dec inp ≠ .error .panic ∧ TicketXt.dec inp ≠ .error .panic ∧
    AssuranceXt.dec P inp ≠ .error .panic ∧ Verdict.dec P inp ≠ .error .panic ∧
    Culprit.dec inp ≠ .error .panic ∧ Fault.dec inp ≠ .error .panic ∧
    Credential.dec inp ≠ .error .panic ∧ EpochMarker.dec P inp ≠ .error .panic ∧
    AvailSpecs.dec inp ≠ .error .panic ∧ ImportInfo.dec inp ≠ .error .panic :=
  have t := true_tails
  ⟨(safe_ctx t inp trivial).1, (safe_ticketXt t inp trivial).1, (safe_assurance t P inp trivial).1,
    (safe_verdict t P inp trivial).1, (safe_culprit t inp trivial).1, (safe_fault t inp trivial).1,
    (safe_credential t inp trivial).1, (safe_marker t P inp trivial).1, (safe_specs t inp trivial).1,
    (safe_import t inp trivial).1⟩

example : RefineCtx.dec (List.replicate 132 0 ++ [255, 255, 255, 255, 255, 255, 255, 255, 255]) = .error .input := by
  decide +kernel

/-! ## C49: octet strings are raw bytes -/

structure OperandOk (o : Operand) : Prop where
  packageHash : o.packageHash.length = 32
  segmentRoot : o.segmentRoot.length = 32
  authorizer : o.authorizer.length = 32
  payloadHash : o.payloadHash.length = 32
  gas : o.gas < 2 ^ 64
  result : Spec.ResultOk o.result
  trace : o.trace.length < 2 ^ 63

/-- **C49** holds for an accumulation operand exactly when its authorization trace has no
byte from 128 on: otherwise what services are given is not the paper's serialization. -/
theorem C49_operand_iff (o : Operand) (h : OperandOk o) :
    Operand.enc o = .ok (Spec.operand o) ↔ ∀ x ∈ o.trace, x.toNat < 128 := by
  have f0 := (arr_codes 32 _ h.packageHash).1
  have f1 := (arr_codes 32 _ h.segmentRoot).1
  have f2 := (arr_codes 32 _ h.authorizer).1
  have f3 := (arr_codes 32 _ h.payloadHash).1
  have f4 := (nat_codes 64 (by decide) _ h.gas).1
  have f5 := (result_codes _ h.result).1
  obtain ⟨bs, e1, e2⟩ := byteSeq_len o.trace
  have hn := (nat_codes 64 (by decide) o.trace.length (show o.trace.length < 2 ^ 64 by have := h.trace; omega)).1
  have ev : vecU8Enc o.trace = .ok (Spec.nat o.trace.length ++ bs) := by simp [vecU8Enc, vecEnc, hn, e1]
  rw [← vecU8Enc_iff o.trace h.trace, ev]
  simp only [Operand.enc, cat, f0, f1, f2, f3, f4, f5, ev, Spec.operand]
  simp

def exOperand (t : Bytes) : Operand := ⟨ex32 1, ex32 2, ex32 3, ex32 4, 500, .error .big, t⟩

theorem exOperand_ok (t : Bytes) (ht : t.length < 2 ^ 63) : OperandOk (exOperand t) :=
  ⟨by simp [exOperand, ex32], by simp [exOperand, ex32], by simp [exOperand, ex32], by simp [exOperand, ex32],
    by simp [exOperand], trivial, ht⟩

example : Operand.enc (exOperand [1, 127]) = .ok (Spec.operand (exOperand [1, 127])) :=
  (C49_operand_iff _ (exOperand_ok _ (by decide))).mpr (by decide)
example : ¬ Operand.enc (exOperand [0x80]) = .ok (Spec.operand (exOperand [0x80])) :=
  fun h => absurd ((C49_operand_iff _ (exOperand_ok _ (by decide))).mp h) (by decide)

/-- **C49**, for metadata without bytes from 128 on: the metadata and code of a service code
preimage are recovered. -/
theorem C49_service_code_partial (m c : Bytes) (hm : m.length < 2 ^ 63) (h : ∀ x ∈ m, x.toNat < 128) :
    accountCodeDec (Spec.serviceCode m c) = .ok ((m, c), []) := by
  have hn := (nat_codes 64 (by decide) m.length (show m.length < 2 ^ 64 by omega)).2 (m ++ c)
  unfold accountCodeDec vecU8Dec vecDec Spec.serviceCode Spec.blob
  rw [List.append_assoc]
  have e : ((intDecode 64).bind fun n => (reserve 1 n).bind fun _ =>
      seqDec ((intDecode 8).bind fun n => Dec.pure (UInt8.ofNat n)) n) (Spec.nat m.length ++ (m ++ c)) = .ok (m, c) := by
    rw [bind_ok hn, bind_ok (reserve_ok (by omega) _), byteSeqDec_small m c h]
  rw [bind_ok e]

example : accountCodeDec (Spec.serviceCode [1, 2] [0xFF, 3]) = .ok (([1, 2], [0xFF, 3]), []) := by decide +kernel

/-- **C49** fails beyond that: with metadata `[0x80]` the first byte of the code is taken for
metadata, so the code that runs is not the code that was published. -/
theorem C49_service_code_shifted (x : UInt8) (c : Bytes) :
    accountCodeDec (Spec.serviceCode [0x80] (x :: c)) = .ok (([x], c), []) := by
  have e : Spec.serviceCode [0x80] (x :: c) = 1 :: 0x80 :: x :: c := rfl
  have h1 := (nat_codes 64 (by decide) 1 (by decide)).2 (0x80 :: x :: c)
  have h2 : intDecode 8 (0x80 :: x :: c) = .ok (x.toNat, c) := by
    have hx := x.toNat_lt
    have : ∀ y : Fin 256, intDecode 8 (0x80 :: UInt8.ofNat y.val :: []) = .ok (y.val, []) := by decide +kernel
    have := this ⟨x.toNat, hx⟩
    simp only [UInt8.ofNat_toNat] at this
    exact ((intDecode_stable 8 _ _ _ this).2 c)
  rw [e]
  have e2 : vecU8Dec (1 :: 0x80 :: x :: c) = .ok ([x], c) := by
    unfold vecU8Dec vecDec
    rw [bind_ok (show intDecode 64 (1 :: 0x80 :: x :: c) = .ok (1, 0x80 :: x :: c) from h1),
      bind_ok (reserve_ok (by decide) _)]
    unfold seqDec seqDec
    rw [bind_ok (show ((intDecode 8).bind fun n => Dec.pure (UInt8.ofNat n)) (0x80 :: x :: c) = .ok (x, c) by
      rw [bind_ok h2]; simp)]
    rfl
  unfold accountCodeDec
  rw [bind_ok e2]

end Fastroll.Wire
