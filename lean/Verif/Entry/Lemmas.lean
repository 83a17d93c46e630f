import Verif.Entry.Spec
import Verif.Pvm.PropsLayout
import Verif.Pvm.StepLemmas4
import Verif.Wire.Props
/-!
# Lemmas about the entry points: standard programs, the cache, what a run keeps
-/
namespace Fastroll.Entry
open Fastroll.Codec Fastroll.Pvm Fastroll.Svc
open Fastroll.Wire (readBytes readBytes_append)

/-! ## The decoder of standard programs -/

theorem fixed_sound {w n : Nat} (hw : w ≤ 64) {inp r : Bytes} {x : Nat} (h : fixedDecode w n inp = .ok (x, r)) :
    inp = paperFixed n x ++ r ∧ x < 2 ^ (8 * n) := by
  unfold fixedDecode at h
  by_cases c : n > w / 8
  · rw [if_pos c] at h; cases h
  · rw [if_neg c] at h
    obtain ⟨v, r', hr, ht⟩ := bind_inv h
    obtain ⟨bs, hl, he⟩ := readLE_ok hr
    have hx : x = v ∧ r = r' := by
      unfold tryFrom at ht
      split at ht
      · cases ht; exact ⟨rfl, rfl⟩
      · cases ht
    obtain ⟨rfl, rfl⟩ := hx
    subst he
    have h64 : fixedDecode 64 n (bs ++ r) = .ok (leVal bs, r) := fixedDecode64 bs r n hl (by omega)
    have hv : x = leVal bs := by
      unfold fixedDecode at h64
      rw [if_neg (by omega), bind_ok hr] at h64
      unfold tryFrom at h64
      split at h64
      · cases h64; rfl
      · cases h64
    have hlt := leVal_lt bs
    rw [hl, ← hv] at hlt
    refine ⟨?_, by rw [Nat.mul_comm] at *; exact hlt⟩
    obtain ⟨bs', e1, e2⟩ := C03_fixed_canonical n (by omega) _ _ _ h64
    have := C03_fixed_paper n _ bs' e1
    rw [e2, this, hv]

theorem readBytes_sound {n : Nat} {inp b r : Bytes} (h : readBytes n inp = .ok (b, r)) : inp = b ++ r ∧ b.length = n := by
  unfold readBytes at h
  split at h
  · cases h
  · injection h with h
    injection h with h1 h2
    subst h1; subst h2
    exact ⟨(List.take_append_drop n inp).symm, by rw [List.length_take]; omega⟩

/-- The parts of a decoded program. -/
def Std.parts (s : Std) : Paper.Parts :=
  { ro := s.fp.staticData, rw := s.fp.heapData, pages := s.fp.extraPages, stack := s.fp.stackSize, code := s.code }

def stdOf (p : Paper.Parts) : Std := { fp := p.sizes, code := p.code }

theorem stdDec_complete (p : Paper.Parts) (h : p.Ok) (rest : Bytes) : stdDec (p.layout ++ rest) = .ok (stdOf p, rest) := by
  unfold stdDec Paper.Parts.layout
  simp only [List.append_assoc]
  have f3 : ∀ x, x < 2 ^ 24 → ∀ r, fixedDecode 32 3 (paperFixed 3 x ++ r) = .ok (x, r) := fun x hx r =>
    (Wire.fixed_codes 32 3 (by decide) (by decide) x hx).2 r
  rw [bind_ok (f3 _ h.ro _), bind_ok (f3 _ h.rw _),
    bind_ok ((Wire.fixed_codes 16 2 (by decide) (by decide) _ h.pages).2 _), bind_ok (f3 _ h.stack _),
    bind_ok (readBytes_append _ _), bind_ok (readBytes_append _ _),
    bind_ok ((Wire.fixed_codes 32 4 (by decide) (by decide) _ h.code).2 _), bind_ok (readBytes_append _ _)]
  rfl

theorem stdDec_sound {inp r : Bytes} {s : Std} (h : stdDec inp = .ok (s, r)) :
    inp = s.parts.layout ++ r ∧ s.parts.Ok ∧ s = stdOf s.parts := by
  unfold stdDec at h
  obtain ⟨o, r1, d1, h⟩ := bind_inv h
  obtain ⟨w, r2, d2, h⟩ := bind_inv h
  obtain ⟨z, r3, d3, h⟩ := bind_inv h
  obtain ⟨t, r4, d4, h⟩ := bind_inv h
  obtain ⟨od, r5, d5, h⟩ := bind_inv h
  obtain ⟨wd, r6, d6, h⟩ := bind_inv h
  obtain ⟨n, r7, d7, h⟩ := bind_inv h
  obtain ⟨c, r8, d8, h⟩ := bind_inv h
  cases h
  obtain ⟨e1, b1⟩ := fixed_sound (by decide) d1
  obtain ⟨e2, b2⟩ := fixed_sound (by decide) d2
  obtain ⟨e3, b3⟩ := fixed_sound (by decide) d3
  obtain ⟨e4, b4⟩ := fixed_sound (by decide) d4
  obtain ⟨e5, b5⟩ := readBytes_sound d5
  obtain ⟨e6, b6⟩ := readBytes_sound d6
  obtain ⟨e7, b7⟩ := fixed_sound (by decide) d7
  obtain ⟨e8, b8⟩ := readBytes_sound d8
  subst b5; subst b6; subst b8
  refine ⟨?_, ⟨b1, b2, b3, b4, b7⟩, rfl⟩
  rw [e1, e2, e3, e4, e5, e6, e7, e8]
  simp only [Paper.Parts.layout, Std.parts, List.append_assoc]

theorem fromStandard_iff (blob : Bytes) (s : Std) :
    fromStandard blob = some s ↔ ∃ p : Paper.Parts, p.Ok ∧ blob = p.layout ∧ s = stdOf p := by
  unfold fromStandard
  constructor
  · intro h
    split at h
    · rename_i s' e
      cases h
      obtain ⟨e1, e2, e3⟩ := stdDec_sound e
      rw [List.append_nil] at e1
      exact ⟨_, e2, e1, e3⟩
    · cases h
  · rintro ⟨p, hp, rfl, rfl⟩
    have := stdDec_complete p hp []
    rw [List.append_nil] at this
    rw [this]

theorem stdOf_valid (p : Paper.Parts) (h : p.Ok) : (stdOf p).fp.sizeValid = true :=
  C14_always_admitted _ h.ro h.rw h.stack h.pages

/-! ## The cache -/

/-- Every entry was loaded from one of these blobs. -/
def From (H : Bytes → Bytes) (bs : List Bytes) (c : Cache) : Prop :=
  ∀ e, e ∈ c → ∃ b, b ∈ bs ∧ H b = e.1 ∧ loadStd b = .ok e.2

theorem get_mem {c : Cache} {h : Bytes} {l : Loaded} (e : c.get h = some l) : (h, l) ∈ c := by
  unfold Cache.get at e
  cases hf : c.find? (fun e => e.1 == h) with
  | none => rw [hf] at e; cases e
  | some y =>
    rw [hf] at e
    injection e with e
    have h1 := List.mem_of_find?_eq_some hf
    have h2 := List.find?_some hf
    have h2 : y.1 = h := by simpa using h2
    subst e; subst h2
    exact h1

theorem from_use {H : Bytes → Bytes} {bs : List Bytes} {c : Cache} (h : From H bs c) (b : Bytes) :
    From H (b :: bs) (cachedLoad H c b).2 := by
  have h' : From H (b :: bs) c := fun e he => by
    obtain ⟨x, h1, h2⟩ := h e he
    exact ⟨x, List.mem_cons_of_mem _ h1, h2⟩
  unfold cachedLoad
  split
  · exact h'
  · split
    · rename_i l hl
      intro e he
      rcases List.mem_cons.mp he with rfl | he
      · exact ⟨b, List.mem_cons_self .., rfl, hl⟩
      · exact h' e he
    · exact h'
    · exact h'

theorem from_load {H : Bytes → Bytes} {bs : List Bytes} {c : Cache} (h : From H bs c) (b : Bytes) :
    (cachedLoad H c b).1 = loadStd b ∨ ∃ x, x ∈ bs ∧ x ≠ b ∧ H x = H b := by
  unfold cachedLoad
  split
  · rename_i l hl
    obtain ⟨x, h1, h2, h3⟩ := h _ (get_mem hl)
    by_cases e : x = b
    · subst e; left; exact h3.symm
    · right; exact ⟨x, h1, e, h2⟩
  · left
    split <;> rename_i e <;> rw [e]

/-! ## What a run keeps of the shape of memory -/

/-- The same sizes. -/
structure Same (m m' : Mem) : Prop where
  data : m'.data.length = m.data.length
  acc : m'.acc.length = m.acc.length
  ps : m'.pageSize = m.pageSize
  zone : m'.zone = m.zone

theorem Same.refl (m : Mem) : Same m m := ⟨rfl, rfl, rfl, rfl⟩
theorem Same.trans {a b c : Mem} (h : Same a b) (k : Same b c) : Same a c :=
  ⟨k.data.trans h.data, k.acc.trans h.acc, k.ps.trans h.ps, k.zone.trans h.zone⟩

theorem Same.wf {m m' : Mem} (h : Same m m') (k : m.WF) : m'.WF :=
  ⟨by rw [h.ps]; exact k.ps, by rw [h.data, h.acc, h.ps]; exact k.len⟩

theorem same_writeBytes (m : Mem) (a : Nat) (bs : List UInt8) : Same m (m.writeBytes a bs).2 := by
  unfold Mem.writeBytes
  split
  · exact .refl m
  · split
    · exact .refl m
    · rename_i hn _ hv
      refine ⟨?_, rfl, rfl, rfl⟩
      unfold Mem.validate at hv
      split at hv
      · cases hv
      · dsimp only at hv
        split at hv
        · cases hv
        · simp only [List.length_append, List.length_take, List.length_drop]
          omega

theorem same_pages (a : Access) : ∀ (n : Nat) (m : Mem) (p : Nat), Same m (m.setPagesLoop p a n).2
  | 0, m, _ => .refl m
  | n + 1, m, p => by
    unfold Mem.setPagesLoop
    have h : Same m (m.setPageAccess p a).2 := by
      unfold Mem.setPageAccess
      split
      · exact .refl m
      · exact ⟨rfl, List.length_set .., rfl, rfl⟩
    rcases e : m.setPageAccess p a with ⟨r, m1⟩
    rw [e] at h
    cases r with
    | error _ => exact h
    | ok _ => exact h.trans (same_pages a n m1 (p + 1))

theorem same_range (m : Mem) (lo hi : Nat) (a : Access) : Same m (m.setAddrRange lo hi a).2 := by
  unfold Mem.setAddrRange
  split
  · exact .refl m
  · exact same_pages a _ m _

theorem same_sbrk (m : Mem) (n : Nat) : Same m (m.sbrk n).2 := by
  unfold Mem.sbrk
  have h : Same m (m.expandHeap (m.getBreak n) n).2 := by
    unfold Mem.expandHeap
    dsimp only
    split
    · exact .refl m
    · have h := same_range m (m.getBreak n) ((m.getBreak n + n % 2 ^ 32) % 2 ^ 32) .readWrite
      rcases e : m.setAddrRange (m.getBreak n) ((m.getBreak n + n % 2 ^ 32) % 2 ^ 32) .readWrite with ⟨r, m1⟩
      rw [e] at h
      cases r with
      | error _ => exact h
      | ok _ => exact ⟨h.data, h.acc, h.ps, h.zone⟩
  dsimp only
  rcases e : m.expandHeap (m.getBreak n) n with ⟨r, m1⟩
  rw [e] at h
  cases r with
  | error _ => exact h
  | ok _ => exact h

theorem same_step (vm : VM) (p : Prog) (ins : Instr) : Same vm.mem (singleStep vm p ins).2 := by
  by_cases h : ins.op = .sbrk
  · have hs := same_sbrk vm.mem (vm.r ins.rs1).toNat
    unfold singleStep
    rw [h]
    dsimp only
    rcases e : vm.mem.sbrk (vm.r ins.rs1).toNat with ⟨r, m⟩
    rw [e] at hs
    cases r with
    | error _ => exact hs
    | ok _ => exact hs
  · rw [singleStep_mem h]; exact .refl _

theorem charge_mem (vm : VM) (n : Nat) : (vm.charge n).2.mem = vm.mem := by
  unfold VM.charge
  split
  · rfl
  · split <;> rfl

theorem same_apply (vm : VM) (c : Change) (b : Bool) : Same vm.mem (vm.apply c b).2.mem := by
  unfold VM.apply
  have hc := charge_mem vm INST_GAS.toNat
  rcases e : vm.charge INST_GAS.toNat with ⟨r, vm1⟩
  rw [e] at hc
  simp only [] at hc
  rw [← hc]
  cases r with
  | error _ => exact .refl _
  | ok post =>
    dsimp only
    split
    · exact .refl _
    · cases c.mem with
      | none => cases c.reg <;> exact .refl _
      | some w =>
        obtain ⟨off, bytes⟩ := w
        dsimp only
        split
        · exact .refl _
        · have hw := same_writeBytes vm1.mem off bytes
          rcases e2 : vm1.mem.writeBytes off bytes with ⟨r2, m2⟩
          rw [e2] at hw
          cases r2 with
          | ok _ => cases c.reg <;> exact hw
          | error er => cases er <;> exact hw

theorem same_iter (p : Prog) (vm : VM) : Same vm.mem (iter p vm).2.mem := by
  unfold iter
  cases p.instructionAt vm.pc with
  | none => exact .refl _
  | some ins =>
    dsimp only
    have hs := same_step vm p ins
    rcases e : singleStep vm p ins with ⟨r, m⟩
    rw [e] at hs
    cases r with
    | error _ => exact hs
    | ok ec =>
      obtain ⟨ex, ch⟩ := ec
      dsimp only
      have ha := same_apply { vm with mem := m } ch ex.changesState
      rcases e2 : VM.apply { vm with mem := m } ch ex.changesState with ⟨a, vm2⟩
      rw [e2] at ha
      have ha : Same m vm2.mem := ha
      have k := Same.trans hs ha
      cases a with
      | gas post =>
        dsimp only
        split
        · exact k
        · split <;> exact k
      | forbidden => exact k
      | pageFault _ => exact k
      | err _ => exact k

theorem same_runFuel (p : Prog) : ∀ (n : Nat) (vm : VM), Same vm.mem (runFuel p n vm).2.mem
  | 0, _ => .refl _
  | n + 1, vm => by
    unfold runFuel
    have h := same_iter p vm
    rcases e : iter p vm with ⟨r, vm1⟩
    rw [e] at h
    cases r with
    | none => exact h.trans (same_runFuel p n vm1)
    | some _ => exact h

theorem same_applyHost (vm : VM) (c : HostResult) : Same vm.mem (vm.applyHost c).2.mem := by
  unfold VM.applyHost
  dsimp only
  cases c.mem with
  | none => dsimp only; rw [charge_mem]; exact .refl _
  | some w =>
    obtain ⟨off, bytes⟩ := w
    dsimp only
    have hw := same_writeBytes vm.mem off bytes
    rcases e2 : vm.mem.writeBytes off bytes with ⟨r2, m2⟩
    rw [e2] at hw
    cases r2 with
    | error _ => exact hw
    | ok _ => dsimp only; rw [charge_mem]; exact hw

theorem same_extIter {σ : Type} (p : Prog) (host : Host σ) (fuel : Nat) (vm : VM) (s : σ) :
    Same vm.mem (extIter p host fuel vm s).2.1.mem := by
  have h := same_runFuel p fuel vm
  unfold extIter
  rcases e : runFuel p fuel vm with ⟨r, vm1⟩
  rw [e] at h
  simp only [] at h
  cases r with
  | none => exact h
  | some r =>
    cases r with
    | error _ => exact h
    | ok ex =>
      cases ex with
      | hostCall n =>
        dsimp only
        rcases e2 : host n vm1 s with ⟨r2, s2⟩
        cases r2 with
        | error _ => exact h
        | ok res =>
          dsimp only
          have k := same_applyHost vm1 res
          rcases e3 : vm1.applyHost res with ⟨r3, vm3⟩
          rw [e3] at k
          simp only [] at k
          have hk := Same.trans h k
          split
          · cases r3 with
            | error _ => exact hk
            | ok post =>
              dsimp only
              split <;> exact hk
          · split
            · cases r3 <;> exact hk
            · exact h
      | _ => exact h

theorem same_extRun {σ : Type} (p : Prog) (host : Host σ) (fuel : Nat) :
    ∀ (n : Nat) (vm : VM) (s : σ), Same vm.mem (extRun p host fuel n vm s).2.1.mem
  | 0, _, _ => .refl _
  | n + 1, vm, s => by
    unfold extRun
    have h := same_extIter p host fuel vm s
    rcases e : extIter p host fuel vm s with ⟨r, vm1, s1⟩
    rw [e] at h
    simp only [] at h
    cases r with
    | «continue» => exact h.trans (same_extRun p host fuel n vm1 s1)
    | done _ => exact h
    | stuck => exact h

end Fastroll.Entry
