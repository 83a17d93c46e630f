import Verif.Net.GossipLemmas3
import Verif.Net.PropsFuzz

/-!
# C67: announcing and requesting blocks

Between two nodes: what is announced is asked for, what is asked for is sent, what is sent is delivered to the importer,
as long as every message arrives in one piece of at most 1024 octets; and what happens otherwise.
-/
namespace Fastroll.Net
open Fastroll.Codec Fastroll.Wire
open Fastroll.Wire.Spec (BlockOk HeaderOk MarkerOk)
open Spec

/-! ## Examples -/

theorem exH_len (b : Bytes) : (exH b).length = 32 := by simp [exH]

def gSmall : Block := ⟨exGenesis, noExtrinsics⟩
def gHash : Bytes := exH (Wire.Spec.header exGenesis)
def gStore : Store := Store.after exH [.genesis exGenesis]

theorem gSmall_ok : BlockOk exP gSmall :=
  ⟨exGenesis_ok, by constructor <;> first | (constructor <;> simp [gSmall, noExtrinsics, Wire.Spec.Fits]) | simp [gSmall, noExtrinsics, Wire.Spec.Fits]⟩

/-! ## Kinds of streams -/

/-- **C67**: the octets that open a stream are the numbers of the protocol, and every kind has its own. -/
theorem C67_kinds (x : UInt8) :
    ((∃ k, StreamKind.ofOctet x = some k) ↔ x.toNat ∈ streamNumbers) ∧ (StreamKind.ofOctet x = some .up ↔ x = 0) ∧
    ∀ k, StreamKind.ofOctet x = some (.ce k) ↔ x.toNat = k.num := by
  have key : ∀ x : Fin 256, ((StreamKind.ofOctet (UInt8.ofNat x)).isSome = true ↔ x.val ∈ streamNumbers) ∧
      (StreamKind.ofOctet (UInt8.ofNat x) = some .up ↔ x = 0) := by decide +kernel
  have key2 : ∀ x : Fin 256, (StreamKind.ofOctet (UInt8.ofNat x)).all (fun | .ce k => k.num == x.val | .up => true) = true := by
    decide +kernel
  have key3 : ∀ k : CeKind, k.num < 256 ∧ StreamKind.ofOctet (UInt8.ofNat k.num) = some (.ce k) := by
    intro k; cases k <;> decide
  have hx : UInt8.ofNat (⟨x.toNat, x.toNat_lt⟩ : Fin 256).val = x := by simp
  have k1 := key ⟨x.toNat, x.toNat_lt⟩
  have k2 := key2 ⟨x.toNat, x.toNat_lt⟩
  rw [hx] at k1 k2
  refine ⟨by rw [← Option.isSome_iff_exists]; exact k1.1, ?_, fun k => ⟨fun h => ?_, fun h => ?_⟩⟩
  · rw [k1.2]
    constructor
    · intro h
      have := congrArg Fin.val h
      exact UInt8.toNat_inj.1 this
    · rintro rfl; rfl
  · rw [h] at k2
    exact (by simpa using k2 : k.num = x.toNat).symm
  · have := (key3 k).2
    rw [← h] at this
    simpa using this

example : StreamKind.ofOctet 143 = some (.ce .preimageRequest) ∧ StreamKind.ofOctet 130 = none ∧ StreamKind.ofOctet 1 = none := by
  decide

/-! ## Announcements -/

/-- **C67** (partial: only when every announcement arrives alone and whole): the blocks announced in pieces of at most
1024 octets are all asked for, in order. -/
theorem C67_announcements_partial (H : Bytes → Bytes) (P : Params) (hs : List Header) (hh : ∀ h ∈ hs, HeaderOk P h)
    (h32 : ∀ h ∈ hs, (H (Wire.Spec.header h)).length = 32) (cs : List Bytes)
    (hc : cs.filter (fun c => !c.isEmpty) = hs.map (announced H)) (hl : ∀ h ∈ hs, (announced H h).length ≤ 1024) :
    (∀ h ∈ hs, announcement H h = .ok (announced H h)) ∧
    listen P cs = ⟨hs.map fun h => H (Wire.Spec.header h), false⟩ := by
  refine ⟨fun h hm => announcement_enc H (hh h hm), ?_⟩
  induction cs generalizing hs with
  | nil =>
    cases hs with
    | nil => exact listen_nil P rfl
    | cons h hs => simp at hc
  | cons c cs ih =>
    by_cases e : c = []
    · subst e
      rw [listen_empty]
      exact ih hs hh h32 (by simpa using hc) hl
    · rw [List.filter_cons_of_pos (by simpa using e)] at hc
      cases hs with
      | nil => simp at hc
      | cons h hs =>
        simp only [List.map_cons, List.cons.injEq] at hc
        obtain ⟨rfl, hc⟩ := hc
        have d := announcement_dec H (hh h (by simp)) (h32 h (by simp)) []
        rw [List.append_nil] at d
        rw [listen_hear P (readChunk_cons e (hl h (by simp))) d,
          ih hs (fun h hm => hh h (by simp [hm])) (fun h hm => h32 h (by simp [hm])) hc (fun h hm => hl h (by simp [hm]))]
        rfl

/-- Two announcements of the same block and a stray empty piece. -/
example : listen exP [announced exH exGenesis, [], announced exH exGenesis] = ⟨[gHash, gHash], false⟩ :=
  (C67_announcements_partial exH exP [exGenesis, exGenesis] (by simp [exGenesis_ok]) (fun _ _ => exH_len _) _ (by decide +kernel)
    (by decide +kernel)).2

/-- **C67**: of announcements that arrive together in a piece only the first is asked for. -/
theorem C67_coalesced (H : Bytes → Bytes) (P : Params) (h : Header) (hh : HeaderOk P h) (h32 : (H (Wire.Spec.header h)).length = 32)
    (more : Bytes) (hl : (announced H h ++ more).length ≤ 1024) (cs : List Bytes) :
    listen P ((announced H h ++ more) :: cs) = ⟨H (Wire.Spec.header h) :: (listen P cs).hashes, (listen P cs).panicked⟩ := by
  have d := announcement_dec H hh h32 more
  have e : announced H h ++ more ≠ [] := by
    intro e
    have := announcement_dec H hh h32 []
    rw [List.append_nil, (List.append_eq_nil_iff.1 e).1] at this
    simp [announcementDec, Header.dec, arrDec, readBytes, Dec.bind] at this
  exact listen_hear P (readChunk_cons e hl) d

/-- A second block announced in the same piece is lost. -/
example : listen exP [announced exH exGenesis ++ announced exH { exGenesis with slot := 1 }] = ⟨[gHash], false⟩ :=
  C67_coalesced exH exP exGenesis exGenesis_ok (exH_len _) _ (by decide +kernel) []

/-- **C67**: the beginning of an announcement is passed over: nothing is asked for on its account.  With `p` the first
1024 octets this is what happens to every longer announcement. -/
theorem C67_cut (H : Bytes → Bytes) (P : Params) (h : Header) (hh : HeaderOk P h) (h32 : (H (Wire.Spec.header h)).length = 32)
    (p s : Bytes) (e : p ++ s = announced H h) (hp : p ≠ []) (hs : s ≠ []) (hl : p.length ≤ 1024) (cs : List Bytes) :
    listen P (p :: cs) = listen P cs ∧ (p.length = 1024 → listen P ((p ++ s) :: cs) = listen P (s :: cs)) := by
  have d := announcement_dec H hh h32 []
  rw [List.append_nil, ← e] at d
  obtain ⟨x, hx, hn⟩ := firm_cut (firm_announcement P) hs d
  refine ⟨listen_skip P (readChunk_cons hp hl) hx hn, fun h24 => ?_⟩
  have hsl : s.length ≠ 0 := fun h0 => hs (List.eq_nil_of_length_eq_zero h0)
  have r : readChunk chunkSize ((p ++ s) :: cs) = some (p, s :: cs) := by
    rw [readChunk_long (by simp [hp]) (by rw [List.length_append]; show 1024 < _; omega)]
    rw [List.take_append_of_le_length (by show 1024 ≤ _; omega), List.take_of_length_le (by show _ ≤ 1024; omega),
      List.drop_append_of_le_length (by show 1024 ≤ _; omega), List.drop_of_length_le (by show _ ≤ 1024; omega), List.nil_append]
  exact listen_skip P r hx hn

example : listen exP [(announced exH exGenesis).take 200, (announced exH exGenesis).drop 200] = ⟨[], false⟩ := by
  rw [(C67_cut exH exP exGenesis exGenesis_ok (exH_len _) _ ((announced exH exGenesis).drop 200) (List.take_append_drop ..)
    (by decide +kernel) (by decide +kernel) (by decide +kernel) _).1]
  decide +kernel

/-- **C67**: with ten validators or more the announcement of the first block of an epoch is longer than a piece can be. -/
theorem C67_epoch_announcement_long (H : Bytes → Bytes) (P : Params) (h : Header) (m : EpochMarker) (hh : HeaderOk P h)
    (h32 : (H (Wire.Spec.header h)).length = 32) (hm : h.epochMarker = some m) (hv : 10 ≤ P.validators) :
    1024 < (announced H h).length := by
  have m1 := hh.epochMarker m hm
  have hk : ∀ (ks : List EpochKey), (∀ k ∈ ks, Wire.Spec.EpochKeyOk k) → (Wire.Spec.seq Wire.Spec.epochKey ks).length = 64 * ks.length := by
    intro ks
    induction ks with
    | nil => intro _; rfl
    | cons k ks ih =>
      intro hs
      have k1 := hs k (by simp)
      have := ih fun k hk => hs k (by simp [hk])
      simp only [Wire.Spec.seq, List.flatMap_cons, List.length_append, Wire.Spec.epochKey, List.length_cons, k1.bandersnatch, k1.ed25519] at this ⊢
      omega
  have e1 : (Wire.Spec.marker m).length = 64 + 64 * P.validators := by
    simp only [Wire.Spec.marker, List.length_append, m1.entropy, m1.ticketsEntropy, hk _ m1.keys, m1.count]
  have pl : ∀ l x, (paperFixed l x).length = l := paperFixed_length
  simp only [announced, Wire.Spec.header, Wire.Spec.unsealed, List.length_append, hh.parent, hh.stateRoot, hh.xtHash, pl, hm,
    Wire.Spec.opt, List.length_cons, e1, hh.vrf, hh.sealSig] at h32 ⊢
  have e2 : ∀ x, 1 ≤ (Wire.Spec.nat x).length := by
    intro x
    unfold Wire.Spec.nat
    split <;> simp
  have e3 := e2 h.slot
  have e4 : 1 ≤ (Wire.Spec.opt (Wire.Spec.seq Wire.Spec.ticket) h.winners).length := by cases h.winners <;> simp [Wire.Spec.opt]
  have e5 : 1 ≤ (Wire.Spec.var id h.offenders).length := by
    have := e2 h.offenders.length
    simp only [Wire.Spec.var, List.length_append]; omega
  omega

/-- The full network has 1023 validators. -/
example (h : Header) (m : EpochMarker) (P : Params) (hP : P.validators = 1023) (hh : HeaderOk P h) (hm : h.epochMarker = some m) :
    1024 < (announced exH h).length :=
  C67_epoch_announcement_long exH P h m hh (exH_len _) hm (by omega)
example : ∃ (P : Params) (h : Header) (m : EpochMarker), P.validators = 1023 ∧ HeaderOk P h ∧ h.epochMarker = some m := by
  refine ⟨⟨1023, 683, 341, 600, 16⟩, { exGenesis with epochMarker := some ⟨zero32, zero32, List.replicate 1023 ⟨zero32, zero32⟩⟩ }, _, rfl, ?_, rfl⟩
  constructor
  case epochMarker =>
    intro m hm
    injection hm with hm
    subst hm
    exact ⟨by simp [zero32], by simp [zero32], List.length_replicate, fun k hk => by
      rw [List.eq_of_mem_replicate hk]; exact ⟨by simp [zero32], by simp [zero32]⟩⟩
  all_goals simp [exGenesis, Fork.defaultHeader, Chain.zeroHash, Wire.Spec.Fits]

/-! ## Requests -/

/-- **C67** (partial: only one block, and only a request that arrives whole): the node answers the request for a block it
holds with exactly that block, drops the stream for one it does not hold, and panics for every other number or
direction. -/
theorem C67_answer_partial (P : Params) (S : Store) (k : Bytes) (asc : Bool) (n : Nat) (hk : k.length = 32) (hn : n < 2 ^ 32)
    (cs : List Bytes) (hc : InOnePiece (asked k asc n) cs) (front : List Bytes)
    (hf : front = [128] :: cs ∨ front = [128 :: asked k asc n]) :
    Request.sent ⟨k, asc, n⟩ = .ok (128 :: asked k asc n) ∧
    (asc = true ∨ n ≠ 1 → handleStream P S front = .panic) ∧
    (asc = false → n = 1 → S.block k = none → handleStream P S front = .nothing) ∧
    ∀ b, asc = false → n = 1 → S.block k = some b → BlockOk P b → handleStream P S front = .sent (Wire.Spec.block P b) := by
  have key : handleStream P S front = respondTo P S ⟨k, asc, n⟩ := by
    have d := request_dec asc hk hn []
    rw [List.append_nil] at d
    rcases hf with rfl | rfl
    · obtain ⟨cs', h1, -⟩ := readChunk_one (max := chunkSize) hc.1 rfl hc
      have h1' : readChunk chunkSize ([] :: cs) = some (asked k asc n, cs') := by rw [readChunk_empty, h1]
      have : handleStream P S ([128] :: cs) = respond P S .blockRequest ([] :: cs) := rfl
      rw [this]
      simp only [respond, h1', d]
    · have hne : asked k asc n ≠ [] := by
        intro e
        rw [e] at d
        simp [Request.dec, arrDec, readBytes, Dec.bind] at d
      have : handleStream P S [128 :: asked k asc n] = respond P S .blockRequest [asked k asc n] := rfl
      rw [this]
      simp only [respond, readChunk_cons (max := chunkSize) hne hc.1, d]
  refine ⟨?_, ?_, ?_, ?_⟩
  · simp only [Request.sent, request_enc asc hk hn, CeKind.num]; rfl
  · intro h
    rw [key, respondTo, if_neg]
    rintro ⟨h1, h2⟩
    rcases h with h | h
    · rw [h] at h1; simp at h1
    · exact h h2
  · intro h1 h2 h3
    rw [key, respondTo, if_pos ⟨h1, h2⟩]
    simp only [h3]
  · intro b h1 h2 h3 h4
    rw [key, respondTo, if_pos ⟨h1, h2⟩]
    simp only [h3, blocksEnc_one h4]

/-- The genesis block of a new node, asked for in two ways, and a request for two blocks. -/
example : handleStream exP gStore [[128], asked gHash false 1] = .sent (Wire.Spec.block exP gSmall) ∧
    handleStream exP gStore [128 :: asked gHash false 1] = .sent (Wire.Spec.block exP gSmall) ∧
    handleStream exP gStore [[128], asked gHash false 2] = .panic := by
  have hk : gHash.length = 32 := exH_len _
  have hc : ∀ n : Fin 3, InOnePiece (asked gHash false n) [asked gHash false n] := fun n =>
    ⟨by revert n; decide +kernel, by revert n; decide +kernel⟩
  have hb : gStore.block gHash = some gSmall := by decide +kernel
  exact ⟨(C67_answer_partial exP gStore gHash false 1 hk (by decide) _ (hc 1) _ (.inl rfl)).2.2.2 gSmall rfl rfl hb gSmall_ok,
    (C67_answer_partial exP gStore gHash false 1 hk (by decide) _ (hc 1) _ (.inr rfl)).2.2.2 gSmall rfl rfl hb gSmall_ok,
    (C67_answer_partial exP gStore gHash false 2 hk (by decide) _ (hc 2) _ (.inl rfl)).2.1 (.inr (by decide))⟩

/-- **C67**: a request that arrives in more than one piece is dropped. -/
theorem C67_request_cut (P : Params) (S : Store) (k : Bytes) (asc : Bool) (n : Nat) (hk : k.length = 32) (hn : n < 2 ^ 32)
    (p s : Bytes) (e : p ++ s = asked k asc n) (hp : p ≠ []) (hs : s ≠ []) (hl : p.length ≤ 1024) (cs : List Bytes) :
    handleStream P S ([128] :: p :: cs) = .nothing := by
  have d := request_dec asc hk hn []
  rw [List.append_nil, ← e] at d
  obtain ⟨x, hx, hnp⟩ := firm_cut firm_request hs d
  have : handleStream P S ([128] :: p :: cs) = respond P S .blockRequest ([] :: p :: cs) := rfl
  rw [this]
  simp only [respond, readChunk_empty, readChunk_cons (max := chunkSize) hp hl, hx]

example : handleStream exP gStore [[128], gHash, [0, 1]] = .nothing :=
  C67_request_cut exP gStore gHash false 1 (exH_len _) (by decide) gHash [0, 1] (by decide +kernel) (by decide +kernel) (by decide)
    (by decide +kernel) _

/-- **C67**: on a connection accepted from the peer a panicking stream does no harm to the others; on a connection this
node opened all streams after it stay without an answer. -/
theorem C67_panic_stops (P : Params) (S : Store) (ss ts : List (List Bytes)) (s : List Bytes)
    (h0 : ∀ s ∈ ss, handleStream P S s ≠ .panic) (h : handleStream P S s = .panic) :
    acceptorLoop P S (ss ++ s :: ts) = acceptorLoop P S ss ++ .panic :: acceptorLoop P S ts ∧
    initiatorLoop P S (ss ++ s :: ts) = acceptorLoop P S ss ++ .panic :: ts.map fun _ => .nothing := by
  refine ⟨by simp [acceptorLoop, h], ?_⟩
  induction ss with
  | nil => simp [initiatorLoop, acceptorLoop, h]
  | cons r ss ih =>
    have ih := ih fun s hs => h0 s (by simp [hs])
    have hr := h0 r (by simp)
    cases e : handleStream P S r with
    | panic => exact absurd e hr
    | _ => simp only [List.cons_append, initiatorLoop, e, ih, acceptorLoop, List.map_cons]

/-- A peer that asks for a state (CE 129) gets no more blocks. -/
example : initiatorLoop exP gStore [[[128], asked gHash false 1], [[129], [0]], [[128], asked gHash false 1]] =
    [handleStream exP gStore [[128], asked gHash false 1], .panic, .nothing] ∧
    handleStream exP gStore [[128], asked gHash false 1] ≠ .panic := by
  have hne : handleStream exP gStore [[128], asked gHash false 1] ≠ .panic := by decide +kernel
  exact ⟨(C67_panic_stops exP gStore [[[128], asked gHash false 1]] _ [[129], [0]] (by simp [hne]) rfl).2, hne⟩

/-! ## Responses -/

/-- **C67** (partial: blocks that need more than one piece are lost): a block sent in answer to a request is delivered
exactly if it arrives in one piece of at most 1024 octets; otherwise the task panics. -/
theorem C67_delivery_partial (P : Params) (b : Block) (hb : BlockOk P b) (cs : List Bytes) (h : cs.flatten = Wire.Spec.block P b) :
    (InOnePiece (Wire.Spec.block P b) cs ∧ fetched P cs = .block b) ∨ (¬ InOnePiece (Wire.Spec.block P b) cs ∧ fetched P cs = .panic) := by
  have d := (block_codes P b hb).2 []
  rw [List.append_nil] at d
  have hne : Wire.Spec.block P b ≠ [] := by
    intro e
    rw [e, block_nil] at d
    simp at d
  cases e : readChunk chunkSize cs with
  | none => exact absurd ((readChunk_none e) ▸ h).symm hne
  | some v =>
    obtain ⟨o, cs'⟩ := v
    obtain ⟨h1, h2, h3⟩ := readChunk_some (by decide) e
    by_cases hi : InOnePiece (Wire.Spec.block P b) cs
    · obtain ⟨cs'', h4, h5⟩ := readChunk_one (max := chunkSize) hi.1 rfl hi
      exact .inl ⟨hi, fetched_one P h4 d⟩
    · refine .inr ⟨hi, ?_⟩
      have hrest : cs'.flatten ≠ [] := by
        intro hr
        rw [hr, List.append_nil, h] at h3
        subst h3
        apply hi
        refine ⟨h2, ?_⟩
        have go : ∀ cs : List Bytes, cs.flatten = Wire.Spec.block P b → ∀ cs', readChunk chunkSize cs = some (Wire.Spec.block P b, cs') →
            cs.filter (fun c => !c.isEmpty) = [Wire.Spec.block P b] := by
          intro cs
          induction cs with
          | nil => intro _ cs' h; simp [readChunk] at h
          | cons c cs ih =>
            intro hfl cs' he
            by_cases hc : c = []
            · subst hc
              rw [readChunk_empty] at he
              simpa using ih (by simpa using hfl) cs' he
            · by_cases hl : c.length ≤ chunkSize
              · rw [readChunk_cons hc hl] at he
                injection he with he
                injection he with he1 he2
                subst he1
                have : cs.flatten = [] := by
                  have := congrArg List.length hfl
                  rw [List.flatten_cons, List.length_append] at this
                  exact List.eq_nil_of_length_eq_zero (by omega)
                rw [List.filter_cons_of_pos (by simpa using hc)]
                congr 1
                rw [List.filter_eq_nil_iff]
                intro x hx
                have := List.flatten_eq_nil_iff.1 this x hx
                simp [this]
              · rw [readChunk_long hc (by omega)] at he
                injection he with he
                injection he with he1 he2
                have l1 := congrArg List.length he1
                have l2 := congrArg List.length hfl
                rw [List.length_take] at l1
                rw [List.flatten_cons, List.length_append] at l2
                omega
        exact go cs h cs' e
      rw [← h, ← h3] at d
      obtain ⟨x, hx, -⟩ := firm_cut (firm_block P) hrest d
      exact fetched_bad P e hx

example : fetched exP [[], Wire.Spec.block exP gSmall] = .block gSmall ∧
    fetched exP [(Wire.Spec.block exP gSmall).take 300, (Wire.Spec.block exP gSmall).drop 300] = .panic := by
  constructor
  · rcases C67_delivery_partial exP gSmall gSmall_ok [[], Wire.Spec.block exP gSmall] (by simp) with h | h
    · exact h.2
    · exact absurd ⟨by decide +kernel, by decide +kernel⟩ h.1
  · rcases C67_delivery_partial exP gSmall gSmall_ok [(Wire.Spec.block exP gSmall).take 300, (Wire.Spec.block exP gSmall).drop 300]
      (by simp) with h | h
    · exact absurd h.1.2 (by decide +kernel)
    · exact h.2

/-- **C67**: a block of more than 1024 octets never gets to the importer, however it arrives. -/
theorem C67_large_lost (P : Params) (b : Block) (hb : BlockOk P b) (hl : 1024 < (Wire.Spec.block P b).length) (cs : List Bytes)
    (h : cs.flatten = Wire.Spec.block P b) : fetched P cs = .panic := by
  rcases C67_delivery_partial P b hb cs h with h | h
  · have := h.1.1; omega
  · exact h.2

/-- A block with one ticket and a few other extrinsics. -/
example (cs : List Bytes) (h : cs.flatten = Wire.Spec.block exP exBlock) : fetched exP cs = .panic :=
  C67_large_lost exP exBlock exBlock_ok (by decide +kernel) cs h

/-- **C67** (partial: all three messages arrive in one piece): a block that a node holds and announces comes to the
importer of its peer. -/
theorem C67_propagation_partial (H : Bytes → Bytes) (P : Params) (S : Store) (b : Block) (hb : BlockOk P b)
    (h32 : (H (Wire.Spec.header b.header)).length = 32) (hS : S.block (H (Wire.Spec.header b.header)) = some b)
    (c1 c2 c3 : List Bytes) (h1 : InOnePiece (announced H b.header) c1)
    (h2 : InOnePiece (asked (H (Wire.Spec.header b.header)) false 1) c2) (h3 : InOnePiece (Wire.Spec.block P b) c3) :
    announcement H b.header = .ok (announced H b.header) ∧
    ∃ k, listen P c1 = ⟨[k], false⟩ ∧ (requestFor k).sent = .ok (128 :: asked k false 1) ∧
      handleStream P S ([128] :: c2) = .sent (Wire.Spec.block P b) ∧ fetched P c3 = .block b := by
  have a := C67_announcements_partial H P [b.header] (by simp [hb.header]) (by simp [h32]) c1 h1.2 (by simpa using h1.1)
  have q := C67_answer_partial P S _ false 1 h32 (by decide) c2 h2 _ (.inl rfl)
  refine ⟨a.1 _ (by simp), _, a.2, q.1, q.2.2.2 b rfl rfl hS hb, ?_⟩
  have d := (block_codes P b hb).2 []
  rw [List.append_nil] at d
  obtain ⟨cs', h4, -⟩ := readChunk_one (max := chunkSize) h3.1 rfl h3
  exact fetched_one P h4 d

example : ∃ k, listen exP [announced exH exGenesis] = ⟨[k], false⟩ ∧ (requestFor k).sent = .ok (128 :: asked k false 1) ∧
    handleStream exP gStore ([128] :: [asked gHash false 1]) = .sent (Wire.Spec.block exP gSmall) ∧
    fetched exP [Wire.Spec.block exP gSmall] = .block gSmall :=
  (C67_propagation_partial exH exP gStore gSmall gSmall_ok (exH_len _) (by decide +kernel) _ _ _ ⟨by decide +kernel, by decide +kernel⟩
    ⟨by decide +kernel, by decide +kernel⟩ ⟨by decide +kernel, by decide +kernel⟩).2

/-! ## What a node can serve -/

/-- **C67**: after any history of authoring and importing, a block served for a hash has that header hash, and its
extrinsics have the hash in its header or are the empty ones stored at genesis for the zero hash. -/
theorem C67_served (H : Bytes → Bytes) (P : Params) (es : List Event)
    (he : ∀ h x, .authorExtrinsics h x ∈ es → Extrinsics.hash P H x = .ok h.xtHash) (k : Bytes) (b : Block)
    (h : (Store.after H es).block k = some b) :
    Header.hash H b.header = .ok k ∧
    (Extrinsics.hash P H b.xt = .ok b.header.xtHash ∨ b.header.xtHash = List.replicate 32 0 ∧ b.xt = ⟨[], [], [], [], ⟨[], [], []⟩⟩) := by
  obtain ⟨h1, h2⟩ := block_some h
  refine ⟨after_header H es k _ h1, ?_⟩
  rcases after_xt H es _ _ h2 with ⟨h3, h4, -⟩ | ⟨h', h3, h4⟩
  · exact .inr ⟨h3, h4⟩
  · exact .inl (by rw [he h' _ h3, h4])

example : gStore.block gHash = some gSmall ∧ Header.hash exH gSmall.header = .ok gHash := by
  have h : gStore.block gHash = some gSmall := by decide +kernel
  exact ⟨h, (C67_served exH exP [.genesis exGenesis] (by simp) gHash gSmall h).1⟩

/-- **C67**: between the announcement of an authored block and the end of its state transition the block is not served,
unless another block with the same extrinsics was authored before; and a node that only imports serves no block
with extrinsics. -/
theorem C67_not_served (H : Bytes → Bytes) (es : List Event) (k : Bytes) :
    (∀ h, Header.hash H h = .ok k → h.xtHash ≠ List.replicate 32 0 → (∀ h' x, .authorExtrinsics h' x ∈ es → h'.xtHash ≠ h.xtHash) →
      (Store.after H (es ++ [.authorHeader h])).block k = none) ∧
    ((∀ h x, .authorExtrinsics h x ∉ es) → ∀ b, (Store.after H es).block k = some b → b.header.xtHash = List.replicate 32 0) := by
  constructor
  · intro h hk hz hx
    cases e : (Store.after H (es ++ [.authorHeader h])).block k with
    | none => rfl
    | some b =>
      exfalso
      obtain ⟨h1, h2⟩ := block_some e
      have hb : b.header = h := by
        rw [after_snoc] at h1
        simp only [Store.step, Store.putHeader, hk, if_pos] at h1
        exact (Option.some.inj h1).symm
      rw [hb] at h2
      rcases after_xt H _ _ _ h2 with ⟨h3, -, -⟩ | ⟨h', h3, h4⟩
      · exact hz h3
      · simp only [List.mem_append, List.mem_singleton] at h3
        rcases h3 with h3 | h3
        · exact hx h' _ h3 h4.symm
        · cases h3
  · intro hx b hb
    obtain ⟨h1, h2⟩ := block_some hb
    rcases after_xt H es _ _ h2 with ⟨h3, -, -⟩ | ⟨h', h3, h4⟩
    · exact h3
    · exact absurd h3 (hx h' _)

/-- The block of slot 1 after genesis: announced but not yet served; served at the end. -/
def gNext : Header := { exGenesis with slot := 1, xtHash := List.replicate 32 5 }
example : (Store.after exH [.genesis exGenesis, .authorHeader gNext]).block (exH (Wire.Spec.header gNext)) = none ∧
    (Store.after exH [.genesis exGenesis, .authorHeader gNext, .authorExtrinsics gNext noExtrinsics]).block (exH (Wire.Spec.header gNext)) =
      some ⟨gNext, noExtrinsics⟩ := by
  constructor
  · exact (C67_not_served exH [.genesis exGenesis] _).1 gNext (by decide +kernel) (by decide) (by simp)
  · decide +kernel
example (b : Block) (k : Bytes) (h : (Store.after exH [.genesis exGenesis, .imported exBlock]).block k = some b) :
    b.header.xtHash = List.replicate 32 0 :=
  (C67_not_served exH [.genesis exGenesis, .imported exBlock] k).2 (by simp) b h

/-! ## Who connects to whom -/

/-- **C67**: of two nodes with distinct keys exactly one opens the connection at first: the one with the smaller key if
the last octets are both below 128 or both not, else the one with the larger key. -/
theorem C67_initiator (a b : Bytes) (ha : a.length = 32) (hb : b.length = 32) (hab : a ≠ b) (x y : Bytes × Nat) :
    (connectsFirst a false ⟨b, x⟩ = true ↔ connectsFirst b false ⟨a, y⟩ = false) ∧
    (connectsFirst a false ⟨b, x⟩ = true ↔ ((High a ↔ High b) ↔ Before a b)) := by
  have hA := high_iff ha
  have hB := high_iff hb
  have hL := before_iff (a := a) (b := b) (by omega)
  have hba : b ≠ a := fun e => hab e.symm
  have e1 : connectsFirst a false ⟨b, x⟩ = xor (xor (decide (127 < (a.getD 31 0).toNat)) (decide (127 < (b.getD 31 0).toNat))) (bytesLt a b) := by
    simp only [connectsFirst, preferredInitiator, Bool.not_false, Bool.true_and, hab, ne_eq, not_false_eq_true, decide_true]
    cases xor (xor (decide (127 < (a.getD 31 0).toNat)) (decide (127 < (b.getD 31 0).toNat))) (bytesLt a b) <;> simp [hab]
  have e2 : connectsFirst b false ⟨a, y⟩ = xor (xor (decide (127 < (b.getD 31 0).toNat)) (decide (127 < (a.getD 31 0).toNat))) (bytesLt b a) := by
    simp only [connectsFirst, preferredInitiator, Bool.not_false, Bool.true_and, hba, ne_eq, not_false_eq_true, decide_true]
    cases xor (xor (decide (127 < (b.getD 31 0).toNat)) (decide (127 < (a.getD 31 0).toNat))) (bytesLt b a) <;> simp [hba]
  have hsw : bytesLt b a = !bytesLt a b := by
    cases e : bytesLt a b with
    | true => simpa using bytesLt_asymm a b e
    | false => simpa using Comp.bytesLt_total a b e hab
  rw [e1, e2, hsw, ← hA, ← hB, ← hL]
  generalize bytesLt a b = l
  by_cases p : 127 < (a.getD 31 0).toNat <;> by_cases q : 127 < (b.getD 31 0).toNat <;> cases l <;>
    simp only [p, q, decide_true, decide_false] <;> decide

/-- **C67**: with the later attempts both sides open a connection to a peer that is not connected; no attempt goes to a
node with one's own key or to a peer that is connected, and whoever connects at first would also do so later. -/
theorem C67_later (a : Bytes) (c : Bool) (p : Peer) :
    (connectsLater a c p = true ↔ c = false ∧ p.key ≠ a) ∧ (connectsFirst a c p = true → c = false ∧ p.key ≠ a) ∧
    (∀ b x y, a.length = 32 → b.length = 32 → a ≠ b → connectsFirst a false ⟨b, x⟩ = false →
      connectsFirst b false ⟨a, y⟩ = true ∧ connectsLater a false ⟨b, x⟩ = true ∧ connectsLater b false ⟨a, y⟩ = true) := by
  refine ⟨?_, ?_, ?_⟩
  · unfold connectsLater
    cases c
    · simp only [Bool.not_false, Bool.true_and, decide_eq_true_eq, true_and]
      exact ⟨fun h e => h e.symm, fun h e => h e.symm⟩
    · simp
  · unfold connectsFirst
    cases c
    · simp only [Bool.not_false, Bool.true_and, Bool.and_eq_true, decide_eq_true_eq]
      rintro ⟨h, _⟩; exact ⟨trivial, fun e => h e.symm⟩
    · simp
  · intro b x y ha hb hab h
    have h1 := (C67_initiator a b ha hb hab x y).1
    refine ⟨?_, by simp [connectsLater, hab], by simp [connectsLater, Ne.symm hab]⟩
    cases e : connectsFirst b false ⟨a, y⟩ with
    | true => rfl
    | false => rw [h1.2 e] at h; cases h

example : connectsLater (List.replicate 31 0 ++ [127]) false ⟨List.replicate 31 0 ++ [128], ([], 0)⟩ = true ∧
    connectsLater (List.replicate 31 0 ++ [127]) true ⟨List.replicate 31 0 ++ [128], ([], 0)⟩ = false ∧
    connectsLater (List.replicate 31 0 ++ [127]) false ⟨List.replicate 31 0 ++ [127], ([], 0)⟩ = false := by decide

/-- A key with a high last octet and one without. -/
example : connectsFirst (List.replicate 31 0 ++ [128]) false ⟨List.replicate 31 0 ++ [127], ([], 0)⟩ = true ∧
    connectsFirst (List.replicate 31 0 ++ [127]) false ⟨List.replicate 31 0 ++ [128], ([], 0)⟩ = false := by
  have h := (C67_initiator (List.replicate 31 0 ++ [128]) (List.replicate 31 0 ++ [127]) rfl rfl (by decide) ([], 0) ([], 0)).1
  exact ⟨by decide, h.1 (by decide)⟩

/-- **C67**: the table of peers has exactly one entry for every address of a validator of the three sets other than the
node's own and the zero address: the last validator with it, in the order previous, current, next epoch. -/
theorem C67_peers (me : Bytes × Nat) (past active staging : List (Bytes × Bytes))
    (h : ∀ v ∈ past ++ active ++ staging, v.2.length = 128) :
    (peerTable me past active staging).Pairwise (fun p q => p.addr ≠ q.addr) ∧
    ∀ p, p ∈ peerTable me past active staging ↔
      p.addr ≠ me ∧ p.addr ≠ (List.replicate 16 0, 0) ∧ LastWith (past ++ active ++ staging) p.key p.addr := by
  obtain ⟨h1, h2⟩ := fold_peers (peersOf past ++ peersOf active ++ peersOf staging) [] .nil
  refine ⟨h1.filter _, fun p => ?_⟩
  have e : peersOf past ++ peersOf active ++ peersOf staging = peersOf (past ++ active ++ staging) := by
    rw [peersOf_append, peersOf_append]
  simp only [peerTable, List.mem_filter, h2, Bool.and_eq_true, decide_eq_true_eq]
  rw [e, lastWith_iff h]
  simp only [List.not_mem_nil, false_and, or_false]
  exact ⟨fun ⟨h1, h2, h3⟩ => ⟨h2, h3, h1⟩, fun ⟨h1, h2, h3⟩ => ⟨h3, h1, h2⟩⟩

/-- The metadata of a validator at `::1` and this port. -/
def gMeta (port : UInt8) : Bytes := List.replicate 15 0 ++ 1 :: port :: 156 :: List.replicate 110 0
/-- Two validators that changed places, a key without an address, and the node itself on port 40000. -/
example : peerTable (List.replicate 15 0 ++ [1], 40000) [([1], gMeta 65), ([2], gMeta 66)] [([3], gMeta 64), ([2], gMeta 65)]
    [([4], List.replicate 128 0)] = [⟨[2], (List.replicate 15 0 ++ [1], 40002)⟩, ⟨[2], (List.replicate 15 0 ++ [1], 40001)⟩] := by
  decide +kernel
example : LastWith ([([1], gMeta 65), ([2], gMeta 66)] ++ [([3], gMeta 64), ([2], gMeta 65)] ++ []) [2] (List.replicate 15 0 ++ [1], 40001) :=
  (((C67_peers (List.replicate 15 0 ++ [1], 40000) [([1], gMeta 65), ([2], gMeta 66)] [([3], gMeta 64), ([2], gMeta 65)] []
    (by decide +kernel)).2 ⟨[2], (List.replicate 15 0 ++ [1], 40001)⟩).1 (by decide +kernel)).2.2

end Fastroll.Net
