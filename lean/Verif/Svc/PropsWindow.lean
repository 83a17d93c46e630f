import Verif.Svc.LemmasRun
import Verif.Pvm.MemLemmas2
import Verif.Codec.Lemmas

/-!
# C41: the window of data a host call writes

`fetch`, `lookup`, `read` and `info` write a window of some datum to memory. The window is specified
octet by octet, without the clamping arithmetic of the code.
-/
namespace Fastroll.Svc
open Fastroll.Pvm

/-- `w` is the part of `data` from offset `off`, at most `len` octets, as far as there is any. -/
def IsWindow (data : Bytes) (off len : Nat) (w : Bytes) : Prop :=
  w.length = min len (data.length - off) ∧ ∀ i, i < w.length → w[i]? = data[off + i]?

theorem window_clamped (data : Bytes) (off len : Nat) :
    IsWindow data off len ((data.drop (min off data.length)).take (min len (data.length - min off data.length))) := by
  constructor
  · rw [List.length_take, List.length_drop]; omega
  · intro i hi
    rw [List.length_take, List.length_drop] at hi
    rw [List.getElem?_take, if_pos (by omega), List.getElem?_drop]
    congr 1; omega

theorem window_unique {data w w' : Bytes} {off len : Nat} (h : IsWindow data off len w) (h' : IsWindow data off len w') : w = w' := by
  apply List.ext_getElem?
  intro i
  by_cases c : i < w.length
  · rw [h.2 i c, h'.2 i (by rw [h'.1, ← h.1]; exact c)]
  · rw [List.getElem?_eq_none (by omega), List.getElem?_eq_none (by rw [h'.1, ← h.1]; omega)]

/-- **The write.** Serving `data` either panics, writing nothing, because the destination is not an address
or not all writable; or it returns the full length of the data and changes exactly the octets of the
destination to the requested window. (Writable pages start above the zone, C14.) -/
theorem C41_window_written (vm : VM) (data : Bytes) (buf off len : Nat) (h : vm.mem.WF)
    (hz : ∀ x, x < vm.mem.zone → vm.mem.abs.perm x ≠ .readWrite) :
    ∃ w, IsWindow data (VM.n vm off) (VM.n vm len) w ∧
    ((serve vm data buf off len = hpanic ∧
        (2 ^ 32 ≤ VM.n vm buf ∨ ∃ x, VM.n vm buf ≤ x ∧ x < VM.n vm buf + w.length ∧ vm.mem.abs.perm x ≠ .readWrite)) ∨
     (VM.n vm buf < 2 ^ 32 ∧ (∀ x, VM.n vm buf ≤ x → x < VM.n vm buf + w.length → vm.mem.abs.perm x = .readWrite) ∧
      (serve vm data buf off len).exit = .cont ∧ (serve vm data buf off len).r7 = some (reg data.length) ∧
      (serve vm data buf off len).r8 = none ∧
      ∀ x, (vm.applyHost (serve vm data buf off len)).2.mem.abs.perm x = vm.mem.abs.perm x ∧
        (vm.applyHost (serve vm data buf off len)).2.mem.abs.byte x =
          if VM.n vm buf ≤ x ∧ x < VM.n vm buf + w.length then w.getD (x - VM.n vm buf) 0 else vm.mem.abs.byte x)) := by
  refine ⟨_, window_clamped data (VM.n vm off) (VM.n vm len), ?_⟩
  generalize hw : (data.drop (min (VM.n vm off) data.length)).take
    (min (VM.n vm len) (data.length - min (VM.n vm off) data.length)) = w
  have hl : w.length = min (VM.n vm len) (data.length - min (VM.n vm off) data.length) := by
    rw [← hw, List.length_take, List.length_drop]; omega
  have hW : ∀ a, vm.mem.rangeWritable a w.length = true ↔ ∀ x, a ≤ x → x < a + w.length → vm.mem.abs.perm x = .readWrite := by
    intro a
    by_cases c : w.length = 0
    · rw [c]
      refine ⟨(fun _ x h1 h2 => absurd h2 (by omega)), fun _ => ?_⟩
      unfold Mem.rangeWritable Mem.rangeTest
      rw [if_pos rfl]
    · unfold Mem.rangeWritable
      rw [rangeTest_iff h _ _ _ (by omega)]
      have key : ∀ x, x < vm.mem.data.length → (vm.mem.pageWritable (x / vm.mem.pageSize) = true ↔ vm.mem.abs.perm x = .readWrite) := by
        intro x hx
        have hp : x / vm.mem.pageSize < vm.mem.acc.length := by
          rw [Nat.div_lt_iff_lt_mul h.ps, ← h.len]; exact hx
        simp only [Mem.abs, if_pos hx, Mem.pageWritable, List.getD_eq_getElem?_getD, List.getElem?_eq_getElem hp, Option.getD_some]
        cases vm.mem.acc[x / vm.mem.pageSize] <;> simp
      constructor
      · rintro ⟨h1, h2⟩ x hx1 hx2
        exact (key x (by omega)).1 (h2 x hx1 hx2)
      · intro h1
        have hb : a + w.length ≤ vm.mem.data.length := by
          have := h1 (a + w.length - 1) (by omega) (by omega)
          simp only [Mem.abs] at this
          split at this
          · omega
          · cases this
        exact ⟨hb, fun x hx1 hx2 => (key x (by omega)).2 (h1 x hx1 hx2)⟩
  unfold serve
  dsimp only
  rw [hw, ← hl]
  unfold u32?
  by_cases cb : VM.n vm buf < U32
  · simp only [if_pos cb]
    by_cases cw : vm.mem.rangeWritable (VM.n vm buf) w.length = true
    · right
      have hall := (hW _).1 cw
      simp only [cw, Bool.not_true, Bool.false_eq_true, if_false]
      refine ⟨cb, hall, trivial, trivial, trivial, fun x => ?_⟩
      unfold VM.applyHost
      dsimp only
      have hst : vm.mem.abs.Storable vm.mem.zone (VM.n vm buf) w.length := by
        by_cases c : w.length = 0
        · left; exact c
        · right
          refine ⟨?_, hall⟩
          refine Nat.le_of_not_lt fun hlt => hz _ hlt (hall _ (Nat.le_refl _) (by omega))
      rcases writeBytes_spec h (VM.n vm buf) w with ⟨_, d, e, hd, hx⟩ | ⟨hn, _⟩
      · rw [e]
        dsimp only
        have hc : ∀ (v : VM) (n : Nat), (v.charge n).2.mem = v.mem := by
          intro v n; unfold VM.charge; split <;> (try split) <;> rfl
        rw [hc]
        refine ⟨by simp only [Mem.abs, hd], ?_⟩
        simp only [Mem.abs]
        exact hx x
      · exact absurd hst hn
    · left
      have cw' : vm.mem.rangeWritable (VM.n vm buf) w.length = false := by simpa using cw
      simp only [cw', Bool.not_false, if_true]
      refine ⟨trivial, .inr ?_⟩
      refine Classical.byContradiction fun hcon => cw ((hW _).2 fun x h1 h2 => ?_)
      exact Classical.byContradiction fun hne => hcon ⟨x, h1, h2, hne⟩
  · left
    simp only [if_neg cb]
    exact ⟨trivial, .inl (by unfold U32 at cb; omega)⟩

/-- The datum a call asks for: `fetch` (1) from its inputs, `lookup` (2) a preimage by the hash in memory,
`read` (3) a storage entry by the key in memory, `info` (5) the encoded metadata. -/
def datum (env : Env) (h : Nat) (vm : VM) (x : Ctx Global) : Option Bytes :=
  if h = 1 then env.fetch vm
  else if h = 2 then (readHash vm 8).bind fun k => (target vm x).bind fun s => x.p.boxes.preimages s k
  else if h = 3 then (u32? vm 8).bind fun a => (readMem vm a (VM.n vm 9)).bind fun k => (target vm x).bind fun s => x.p.boxes.storage s k
  else if h = 5 then (target vm x).bind fun s => (x.p.boxes.metas s).map Meta.infoBytes
  else none

/-- The registers of the destination, the offset and the length. -/
def windowRegs (h : Nat) : Nat × Nat × Nat :=
  if h = 1 then (7, 8, 9) else if h = 2 then (9, 10, 11) else if h = 3 then (10, 11, 12) else (8, 9, 10)

/-- The outcome `r` of a call in `x` asking for the datum `d`. -/
def Serves (vm : VM) (x : Ctx Global) (d : Option Bytes) (b o l : Nat) (r : Except VmErr HostResult × Ctx Global) : Prop :=
  r.2 = x ∧ (r.1 = .ok oog ∨ r.1 = .ok hpanic ∨ (d = none ∧ r.1 = .ok (ret NONE)) ∨
    ∃ data, d = some data ∧ r.1 = .ok (serve vm data b o l))

theorem fetch_serves (env : Env) (vm : VM) (x : Ctx Global) : Serves vm x (datum env 1 vm x) 7 8 9 (hostFetch env vm x) := by
  unfold hostFetch
  split
  · exact ⟨rfl, .inl rfl⟩
  · have e : datum env 1 vm x = env.fetch vm := rfl
    rw [e]
    cases env.fetch vm with
    | none => exact ⟨rfl, .inr (.inr (.inl ⟨rfl, rfl⟩))⟩
    | some d => exact ⟨rfl, .inr (.inr (.inr ⟨d, rfl, rfl⟩))⟩

theorem lookup_serves (env : Env) (vm : VM) (x : Ctx Global) : Serves vm x (datum env 2 vm x) 9 10 11 (hostLookup mapStore env vm x) := by
  unfold hostLookup
  split
  · exact ⟨rfl, .inl rfl⟩
  · have e : datum env 2 vm x = (readHash vm 8).bind fun k => (target vm x).bind fun s => x.p.boxes.preimages s k := rfl
    rw [e]
    cases readHash vm 8 with
    | none => exact ⟨rfl, .inr (.inl rfl)⟩
    | some k =>
      cases target vm x with
      | none => exact ⟨rfl, .inr (.inr (.inl ⟨rfl, rfl⟩))⟩
      | some s =>
        simp only [Option.bind_some, mapStore]
        cases x.p.boxes.preimages s k with
        | none => exact ⟨rfl, .inr (.inr (.inl ⟨rfl, rfl⟩))⟩
        | some d => exact ⟨rfl, .inr (.inr (.inr ⟨d, rfl, rfl⟩))⟩

theorem read_serves (env : Env) (vm : VM) (x : Ctx Global) : Serves vm x (datum env 3 vm x) 10 11 12 (hostRead mapStore env vm x) := by
  unfold hostRead
  split
  · exact ⟨rfl, .inl rfl⟩
  · have e : datum env 3 vm x = (u32? vm 8).bind fun a => (readMem vm a (VM.n vm 9)).bind fun k => (target vm x).bind fun s => x.p.boxes.storage s k := rfl
    rw [e]
    cases u32? vm 8 with
    | none => exact ⟨rfl, .inr (.inl rfl)⟩
    | some a =>
      simp only [Option.bind_some]
      cases readMem vm a (VM.n vm 9) with
      | none => exact ⟨rfl, .inr (.inl rfl)⟩
      | some k =>
        cases target vm x with
        | none => exact ⟨rfl, .inr (.inr (.inl ⟨rfl, rfl⟩))⟩
        | some s =>
          simp only [Option.bind_some, mapStore]
          cases x.p.boxes.storage s k with
          | none => exact ⟨rfl, .inr (.inr (.inl ⟨rfl, rfl⟩))⟩
          | some d => exact ⟨rfl, .inr (.inr (.inr ⟨d, rfl, rfl⟩))⟩

theorem info_serves (env : Env) (vm : VM) (x : Ctx Global) : Serves vm x (datum env 5 vm x) 8 9 10 (hostInfo mapStore env vm x) := by
  unfold hostInfo
  split
  · exact ⟨rfl, .inl rfl⟩
  · have e : datum env 5 vm x = (target vm x).bind fun s => (x.p.boxes.metas s).map Meta.infoBytes := rfl
    rw [e]
    cases target vm x with
    | none => exact ⟨rfl, .inr (.inr (.inl ⟨rfl, rfl⟩))⟩
    | some s =>
      simp only [Option.bind_some, mapStore]
      cases x.p.boxes.metas s with
      | none => exact ⟨rfl, .inr (.inr (.inl ⟨rfl, rfl⟩))⟩
      | some d => exact ⟨rfl, .inr (.inr (.inr ⟨_, rfl, rfl⟩))⟩

/-- **The right datum.** A data call on the sandbox leaves the state alone and answers: out of gas, panic, or
`NONE` when the datum does not exist in the state the sandbox stands for, or serves that datum to the
destination, offset and length in the call's registers. -/
theorem C41_calls_serve_datum {g : Global} {D : Nat → Prop} {host : Nat} (env : Env) (h : Nat)
    (hh : h = 1 ∨ h = 2 ∨ h = 3 ∨ h = 5) (vm : VM) (q : Pair Boxes) (O : g.NoOrphans) (I : PairInv g D host q)
    (S : (q.view g).x.p.boxes.Sound) :
    (accHost (boxStore g) env h vm q).2.view g = q.view g ∧
    ((accHost (boxStore g) env h vm q).1 = .ok oog ∨ (accHost (boxStore g) env h vm q).1 = .ok hpanic ∨
      (datum env h vm (q.view g).x = none ∧ (accHost (boxStore g) env h vm q).1 = .ok (ret NONE)) ∨
      ∃ data, datum env h vm (q.view g).x = some data ∧
        (accHost (boxStore g) env h vm q).1 = .ok (serve vm data (windowRegs h).1 (windowRegs h).2.1 (windowRegs h).2.2)) := by
  obtain ⟨e1, e2, _⟩ := acc_sim O env h vm q I S
    ⟨(fun c => absurd c (by omega)), (fun c => absurd c (by omega))⟩
  rw [e1, ← e2]
  have lift : ∀ {f : HostFn Global} {b o l : Nat}, h ≠ 17 → accFn mapStore h = some f →
      Serves vm (q.view g).x (datum env h vm (q.view g).x) b o l (f env vm (q.view g).x) →
      (accHost mapStore env h vm (q.view g)).2 = q.view g ∧
      ((accHost mapStore env h vm (q.view g)).1 = .ok oog ∨ (accHost mapStore env h vm (q.view g)).1 = .ok hpanic ∨
        (datum env h vm (q.view g).x = none ∧ (accHost mapStore env h vm (q.view g)).1 = .ok (ret NONE)) ∨
        ∃ data, datum env h vm (q.view g).x = some data ∧ (accHost mapStore env h vm (q.view g)).1 = .ok (serve vm data b o l)) := by
    intro f b o l h17 hf hs
    have e : accHost mapStore env h vm (q.view g) = ((f env vm (q.view g).x).1, { q.view g with x := (f env vm (q.view g).x).2 }) := by
      unfold accHost; rw [if_neg h17, hf]
    rw [e, hs.1]
    exact ⟨rfl, hs.2⟩
  rcases hh with e | e | e | e <;> subst e
  · exact lift (by decide) rfl (fetch_serves env vm _)
  · exact lift (by decide) rfl (lookup_serves env vm _)
  · exact lift (by decide) rfl (read_serves env vm _)
  · exact lift (by decide) rfl (info_serves env vm _)

/-- Read the entry under `[1]` (`[5, 6]`) from offset 1, at most 9 octets, to address 100: one octet, 6. -/
def Ex.rvm : VM := Ex.vm 7 32 1 100 1 9
set_option maxRecDepth 20000 in
example : datum Ex.env 3 Ex.rvm (Ex.ctx Ex.g) = some [5, 6] ∧
    (accHost (boxStore Ex.g) Ex.env 3 Ex.rvm (Ex.pair [])).1 = .ok { exit := .cont, charge := BASE_GAS, r7 := some (reg 2), mem := some (100, [6]) } ∧
    IsWindow [5, 6] 1 9 [6] :=
  ⟨rfl, rfl, rfl, by decide⟩
set_option maxRecDepth 20000 in
example : Ex.rvm.mem.WF ∧ ∀ x, x < Ex.rvm.mem.zone → Ex.rvm.mem.abs.perm x ≠ .readWrite :=
  ⟨⟨by decide, by decide⟩, fun x h => absurd h (Nat.not_lt_zero x)⟩

/-- The number in `n` octets from offset `off`, least significant first. -/
def fieldAt (bs : Bytes) (off n : Nat) : Nat := Codec.leVal ((bs.drop off).take n)

private theorem field_split (a b c : Bytes) {off n : Nat} (h1 : a.length = off) (h2 : b.length = n) : fieldAt (a ++ b ++ c) off n = Codec.leVal b := by
  subst h1 h2
  unfold fieldAt
  rw [List.append_assoc, List.drop_left, List.take_left]

/-- **What `info` writes.** The 96 octets of an account: its code hash, then each number at the offset and
width the Gray Paper gives it. -/
theorem C41_info_layout (m : Meta) (hc : m.codeHash.length = 32) :
    m.infoBytes.length = 96 ∧ m.infoBytes.take 32 = m.codeHash ∧
    fieldAt m.infoBytes 32 8 = m.balance % 2 ^ 64 ∧ fieldAt m.infoBytes 40 8 = m.threshold % 2 ^ 64 ∧
    fieldAt m.infoBytes 48 8 = m.gasAcc % 2 ^ 64 ∧ fieldAt m.infoBytes 56 8 = m.gasXfer % 2 ^ 64 ∧
    fieldAt m.infoBytes 64 8 = m.octets % 2 ^ 64 ∧ fieldAt m.infoBytes 72 4 = m.items % 2 ^ 32 ∧
    fieldAt m.infoBytes 76 8 = m.gratis % 2 ^ 64 ∧ fieldAt m.infoBytes 84 4 = m.created % 2 ^ 32 ∧
    fieldAt m.infoBytes 88 4 = m.lastAcc % 2 ^ 32 ∧ fieldAt m.infoBytes 92 4 = m.parent % 2 ^ 32 := by
  have key : ∀ (a b c : Bytes) (off n x : Nat), m.infoBytes = a ++ b ++ c → a.length = off → b = Codec.leBytes n x →
      fieldAt m.infoBytes off n = x % 2 ^ (8 * n) := by
    intro a b c off n x h1 h2 h3
    subst h3
    rw [h1, field_split a _ c h2 (Codec.leBytes_length _ _), Codec.leVal_leBytes]
  have len : ∀ n x, (Codec.leBytes n x).length = n := Codec.leBytes_length
  unfold Meta.infoBytes at key ⊢
  simp only [List.append_assoc] at key ⊢
  refine ⟨by simp [len, hc], by rw [← hc, List.take_left], ?_⟩
  refine ⟨key m.codeHash _ _ 32 8 _ rfl hc rfl, ?_⟩
  refine ⟨key (m.codeHash ++ Codec.leBytes 8 m.balance) _ _ 40 8 _ (by rw [List.append_assoc]) (by simp [len, hc]) rfl, ?_⟩
  refine ⟨key (m.codeHash ++ (Codec.leBytes 8 m.balance ++ Codec.leBytes 8 m.threshold)) _ _ 48 8 _
    (by simp only [List.append_assoc]; rfl) (by simp [len, hc]) rfl, ?_⟩
  refine ⟨key (m.codeHash ++ (Codec.leBytes 8 m.balance ++ (Codec.leBytes 8 m.threshold ++ Codec.leBytes 8 m.gasAcc))) _ _ 56 8 _
    (by simp only [List.append_assoc]; rfl) (by simp [len, hc]) rfl, ?_⟩
  refine ⟨key (m.codeHash ++ (Codec.leBytes 8 m.balance ++ (Codec.leBytes 8 m.threshold ++ (Codec.leBytes 8 m.gasAcc ++
    Codec.leBytes 8 m.gasXfer)))) _ _ 64 8 _ (by simp only [List.append_assoc]; rfl) (by simp [len, hc]) rfl, ?_⟩
  refine ⟨key (m.codeHash ++ (Codec.leBytes 8 m.balance ++ (Codec.leBytes 8 m.threshold ++ (Codec.leBytes 8 m.gasAcc ++
    (Codec.leBytes 8 m.gasXfer ++ Codec.leBytes 8 m.octets))))) _ _ 72 4 _ (by simp only [List.append_assoc]; rfl) (by simp [len, hc]) rfl, ?_⟩
  refine ⟨key (m.codeHash ++ (Codec.leBytes 8 m.balance ++ (Codec.leBytes 8 m.threshold ++ (Codec.leBytes 8 m.gasAcc ++
    (Codec.leBytes 8 m.gasXfer ++ (Codec.leBytes 8 m.octets ++ Codec.leBytes 4 m.items)))))) _ _ 76 8 _
    (by simp only [List.append_assoc]; rfl) (by simp [len, hc]) rfl, ?_⟩
  refine ⟨key (m.codeHash ++ (Codec.leBytes 8 m.balance ++ (Codec.leBytes 8 m.threshold ++ (Codec.leBytes 8 m.gasAcc ++
    (Codec.leBytes 8 m.gasXfer ++ (Codec.leBytes 8 m.octets ++ (Codec.leBytes 4 m.items ++ Codec.leBytes 8 m.gratis))))))) _ _ 84 4 _
    (by simp only [List.append_assoc]; rfl) (by simp [len, hc]) rfl, ?_⟩
  refine ⟨key (m.codeHash ++ (Codec.leBytes 8 m.balance ++ (Codec.leBytes 8 m.threshold ++ (Codec.leBytes 8 m.gasAcc ++
    (Codec.leBytes 8 m.gasXfer ++ (Codec.leBytes 8 m.octets ++ (Codec.leBytes 4 m.items ++ (Codec.leBytes 8 m.gratis ++
    Codec.leBytes 4 m.created)))))))) _ _ 88 4 _ (by simp only [List.append_assoc]; rfl) (by simp [len, hc]) rfl, ?_⟩
  exact key (m.codeHash ++ (Codec.leBytes 8 m.balance ++ (Codec.leBytes 8 m.threshold ++ (Codec.leBytes 8 m.gasAcc ++
    (Codec.leBytes 8 m.gasXfer ++ (Codec.leBytes 8 m.octets ++ (Codec.leBytes 4 m.items ++ (Codec.leBytes 8 m.gratis ++
    (Codec.leBytes 4 m.created ++ Codec.leBytes 4 m.lastAcc))))))))) _ [] 92 4 _ (by simp only [List.append_assoc, List.append_nil]) (by simp [len, hc]) rfl

example : Ex.meta7.codeHash.length = 32 ∧ fieldAt Ex.meta7.infoBytes 64 8 = 37 ∧ fieldAt Ex.meta7.infoBytes 72 4 = 1 := by decide +kernel

end Fastroll.Svc
