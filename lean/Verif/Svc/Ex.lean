import Verif.Svc.LemmasTrace
import Verif.Svc.LemmasApply

/-! # A concrete state, used only by the examples beside the theorems -/
namespace Fastroll.Svc.Ex
open Fastroll.Pvm

def zeros : Bytes := List.replicate 32 0

/-- Slot 20, requests expire after 5 slots. -/
def env : Env := { par := { cores := 2, validators := 1, expiry := 5, authQueue := 1, keySize := 4, memo := 4 },
                   slot := 20, hash := fun _ => zeros, fetch := fun _ => some [1, 2, 3] }

/-- Service 7 owns one storage entry. -/
def meta7 : Meta := { codeHash := zeros, balance := 10000, octets := 37, items := 1 }
/-- Service 8 can be ejected by service 7. -/
def meta8 : Meta := { codeHash := hostAsHash 7, balance := 300, octets := 84, items := 2 }

def g : Global where
  metas := fun s => if s = 7 then some meta7 else if s = 8 then some meta8 else none
  storage := fun s k => if s = 7 ∧ k = [1] then some [5, 6] else none
  preimages := fun _ _ => none
  lookups := fun s k => if s = 8 ∧ k = (zeros, 3) then some [1, 2] else none

/-- 256 readable and writable octets: 32 zeros, then `1, 9, 8, 7`. -/
def mem : Mem := { data := List.replicate 32 0 ++ [1, 9, 8, 7] ++ List.replicate 220 0, acc := [.readWrite], pageSize := 256, zone := 0 }

/-- The machine with registers 7 to 12 set. -/
def vm (r7 r8 r9 r10 r11 r12 : Nat) : VM :=
  { regs := [0, 0, 0, 0, 0, 0, 0, reg r7, reg r8, reg r9, reg r10, reg r11, reg r12], mem := mem, pc := 0, gas := 1000 }

/-- The context of service 7 at its start. -/
def ctx {β : Type} (boxes : β) : Ctx β :=
  { host := 7, p := { boxes, staging := none, authQueue := [], manager := 1, assign := { confirmed := [1, 1] },
                      designate := { confirmed := 1 }, registrar := { confirmed := 7 }, always := [] },
    nextId := 70000, transfers := [], yielded := none, provided := [] }

def pair {β : Type} (boxes : β) : Pair β := { x := ctx boxes, y := ctx boxes }

/-- Write `[9, 8, 7]` under `[1]`. -/
def write : Nat × VM := (4, vm 32 1 33 3 0 0)
/-- Transfer 100 to service 8. -/
def transfer : Nat × VM := (20, vm 8 100 10 32 0 0)
/-- Create a service with the code hash `zeros` of length 10. -/
def create : Nat × VM := (18, vm 0 10 5 6 0 100000)
/-- Create the service 9. -/
def createSmall : Nat × VM := (18, vm 0 10 5 6 0 9)
/-- Eject service 8. -/
def eject : Nat × VM := (21, vm 8 0 0 0 0 0)
/-- Ask for the preimage of `zeros`, of length 4. -/
def solicit : Nat × VM := (23, vm 0 4 0 0 0 0)
/-- Withdraw it. -/
def forget : Nat × VM := (24, vm 0 4 0 0 0 0)
def checkpoint : Nat × VM := (17, vm 0 0 0 0 0 0)

/-- The sandbox in which service 8 has run in an earlier round and received 50 tokens. -/
def ran8 : Boxes := (addBalance (boxStore g) [] 8 50).getD []

theorem orphans : g.NoOrphans := by
  intro s h
  refine ⟨fun k => ?_, fun k => rfl, fun k => ?_⟩
  · refine if_neg fun c => ?_
    rw [c.1] at h; exact absurd h (by decide)
  · refine if_neg fun c => ?_
    rw [c.1] at h; exact absurd h (by decide)

theorem usage_of_lists {a : Global} {s : Nat} (ks : List Bytes) (ls : List LKey) (h1 : Enum (a.storage s) ks)
    (h2 : Enum (a.lookups s) ls) :
    Usage a s (ks.length + 2 * ls.length) (total storWeight (a.storage s) ks + total lookWeight (a.lookups s) ls) :=
  ⟨ks, ls, h1, h2, rfl, rfl⟩

theorem usage7 : Usage g 7 1 37 := by
  refine ⟨[[1]], [], ⟨by decide, fun k => ?_⟩, ⟨by decide, fun k => by simp [g]⟩, by decide, by decide⟩
  by_cases c : k = [1] <;> simp [g, c]

theorem usage8 : Usage g 8 2 84 := by
  refine ⟨[], [(zeros, 3)], ⟨by decide, fun k => by simp [g]⟩, ⟨by decide, fun k => ?_⟩, by decide, by decide⟩
  by_cases c : k = (zeros, 3) <;> simp [g, c]

theorem sound : g.Sound := by
  refine ⟨orphans, ?_, by intro s h d hd; cases hd⟩
  intro s m hm
  by_cases c7 : s = 7
  · subst c7; cases hm; exact usage7
  · by_cases c8 : s = 8
    · subst c8; cases hm; exact usage8
    · simp [g, c7, c8] at hm

/-- Consistent accounts with small counters are in range. -/
theorem inRange_of {a : Global} (S : a.Sound)
    (h : ∀ s m, a.metas s = some m → m.items < U32 ∧ deposit m.items m.octets < U64) : a.InRange := by
  intro s i o U
  cases hm : a.metas s with
  | none =>
    obtain ⟨e1, e2⟩ := usage_unique U (usage_none (S.orphans s hm).1 (S.orphans s hm).2.2)
    subst e1; subst e2; exact ⟨by decide, by decide⟩
  | some m =>
    obtain ⟨e1, e2⟩ := usage_unique U (S.exact s m hm)
    subst e1; subst e2; exact h s m hm

theorem inRange : g.InRange := by
  refine inRange_of sound fun s m hm => ?_
  by_cases c7 : s = 7
  · subst c7; cases hm; decide
  · by_cases c8 : s = 8
    · subst c8; cases hm; decide
    · simp [g, c7, c8] at hm

/-- A fresh sandbox over `g` means `g`. -/
theorem inv : PairInv g (· = 7) 7 (pair []) := by
  have I : Inv g (· = 7) 7 [] := ⟨(fun s b h => by cases h), rfl, rfl⟩
  exact ⟨I, I, rfl, rfl⟩

theorem good : Good (pair g) := ⟨sound, sound, rfl, rfl⟩
theorem nextFree : NextFree (ctx g) := ⟨⟨by decide, by decide⟩, rfl⟩


theorem inRange_usage {a : Global} (h : ∀ s, ∃ i o, Usage a s i o ∧ i < U32 ∧ deposit i o < U64) : a.InRange := by
  intro s i o U
  obtain ⟨i', o', U', h⟩ := h s
  obtain ⟨e1, e2⟩ := usage_unique U U'
  subst e1; subst e2; exact h

theorem throughout_cons {σ : Type} {host : Host σ} {P : σ → Prop} {c : Nat × VM} {cs : List (Nat × VM)} {s s1 : σ}
    {r : HostResult} (hc : host c.1 c.2 s = (.ok r, s1)) (h0 : P s) (h : Throughout host P cs s1) :
    Throughout host P (c :: cs) s := by
  intro pre hp s' hs
  cases pre with
  | nil => cases hs; exact h0
  | cons d pre =>
    obtain ⟨e1, e2⟩ := List.cons_prefix_cons.1 hp
    subst e1
    rw [runCalls_cons hc] at hs
    exact h pre e2 s' hs

theorem throughout_nil {σ : Type} {host : Host σ} {P : σ → Prop} {s : σ} (h0 : P s) : Throughout host P [] s := by
  intro pre hp s' hs
  have := List.prefix_nil.1 hp
  subst this; cases hs; exact h0

theorem before_cons {σ : Type} {host : Host σ} {P : Nat → VM → σ → Prop} {c : Nat × VM} {cs : List (Nat × VM)} {s s1 : σ}
    {r : HostResult} (hc : host c.1 c.2 s = (.ok r, s1)) (h0 : P c.1 c.2 s) (h : BeforeEach host P cs s1) :
    BeforeEach host P (c :: cs) s := by
  intro pre d hp s' hs
  cases pre with
  | nil =>
    obtain ⟨e1, _⟩ := List.cons_prefix_cons.1 hp
    subst e1; cases hs; exact h0
  | cons d' pre =>
    obtain ⟨e1, e2⟩ := List.cons_prefix_cons.1 hp
    subst e1
    rw [runCalls_cons hc] at hs
    exact h pre d e2 s' hs

theorem before_nil {σ : Type} {host : Host σ} {P : Nat → VM → σ → Prop} {s : σ} : BeforeEach host P [] s := by
  intro pre d hp
  have := List.prefix_nil.1 hp
  simp at this

/-- The plain maps after the write. -/
def g1 : Global := { g with metas := upd g.metas 7 (some { meta7 with octets := 38 }), storage := upd2 g.storage 7 [1] (some [9, 8, 7]) }
/-- And after ejecting service 8. -/
def g2 : Global := { metas := upd (upd g1.metas 7 (some { meta7 with octets := 38, balance := 10300 })) 8 none, storage := clear g1.storage 8, preimages := clear g1.preimages 8, lookups := clear g1.lookups 8 }

set_option maxRecDepth 20000 in
theorem call1 : accHost mapStore env write.1 write.2 (pair g) = (.ok (ret 2), { x := ctx g1, y := ctx g }) := by rfl
set_option maxRecDepth 20000 in
theorem call2 : accHost mapStore env eject.1 eject.2 { x := ctx g1, y := ctx g } = (.ok (ret OK), { x := ctx g2, y := ctx g }) := by rfl

theorem inRange1 : g1.InRange := by
  refine inRange_usage fun s => ?_
  by_cases c : s = 7
  · subst c
    obtain ⟨i, o, U, h1, h2⟩ := usage_storage (a := g) (a' := g1) (s := 7) (k := [1]) (v := some [9, 8, 7]) rfl rfl usage7
    have h1 : i + 1 = 1 + 1 := h1
    have h2 : o + 37 = 37 + 38 := h2
    refine ⟨i, o, U, ?_, ?_⟩
    · have : i = 1 := by omega
      subst this; decide
    · have : i = 1 := by omega
      subst this
      have : o = 38 := by omega
      subst this; decide
  · by_cases c8 : s = 8
    · subst c8; exact ⟨2, 84, usage_congr (a := g) rfl rfl usage8, by decide, by decide⟩
    · refine ⟨0, 0, usage_none (fun k => ?_) (fun k => ?_), by decide, by decide⟩
      · show upd2 g.storage 7 [1] _ s k = none
        simp [upd2, c, g]
      · simp [g1, g, c8]

theorem inRange2 : g2.InRange := by
  refine inRange_usage fun s => ?_
  by_cases c8 : s = 8
  · subst c8; exact ⟨0, 0, usage_none (fun k => rfl) (fun k => rfl), by decide, by decide⟩
  · by_cases c : s = 7
    · subst c
      refine ⟨1, 38, ⟨[[1]], [], ⟨by decide, fun k => ?_⟩, ⟨by decide, fun k => by simp [g2, g1, g, clear]⟩, by decide, by decide⟩, by decide, by decide⟩
      by_cases c : k = [1] <;> simp [g2, g1, g, clear, upd2, upd, c]
    · refine ⟨0, 0, usage_none (fun k => ?_) (fun k => ?_), by decide, by decide⟩
      · simp [g2, g1, g, clear, upd2, c]
      · simp [g2, g1, g, clear, c8]

theorem range : Throughout (accHost mapStore env) (fun p => p.x.p.boxes.InRange) [write, eject] (pair g) :=
  throughout_cons call1 inRange (throughout_cons call2 inRange1 (throughout_nil inRange2))

theorem callOk : BeforeEach (accHost mapStore env) (CallOk g (· = 7)) [write, eject] (pair g) :=
  before_cons call1 ⟨(fun h => absurd h (by decide)), (fun h => absurd h (by decide))⟩
    (before_cons call2 ⟨(fun h => absurd h (by decide)), (fun _ e _ h => h)⟩ before_nil)

end Fastroll.Svc.Ex
