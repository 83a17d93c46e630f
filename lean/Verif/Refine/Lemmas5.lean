import Verif.Refine.Lemmas4
import Verif.Pvm.PropsStep

/-! Lemmas: what a call leaves alone, sequences of calls, and inner runs without memory. -/
namespace Fastroll.Refine
open Fastroll.Pvm Fastroll.Svc

/-- What a host call (number `h`, from machine state `vm`) may change in the context. -/
structure Isolated (h : Nat) (vm : VM) (x : RCtx) (o : Out) (x' : RCtx) : Prop where
  /-- Only the machine named by register 7, or the new machine, changes. -/
  other : ∀ n, n ≠ VM.n vm 7 → n ≠ x.nextId → x'.machines n = x.machines n
  /-- Only `poke`, `pages`, `invoke` and `expunge` change existing machines. -/
  quiet : h ≠ 10 → h ≠ 11 → h ≠ 12 → h ≠ 13 → ∀ n, n ≠ x.nextId → x'.machines n = x.machines n
  /-- Only `machine` makes a machine, under the next number. -/
  born : ∀ n, x.machines n = none → x'.machines n ≠ none → h = 8 ∧ n = x.nextId ∧ x'.nextId = x.nextId + 1
  /-- Only `expunge` removes one, the one named. -/
  gone : ∀ n, x.machines n ≠ none → x'.machines n = none → h = 13 ∧ n = VM.n vm 7
  ids : x'.nextId = x.nextId ∨ (h = 8 ∧ x'.nextId = x.nextId + 1)
  /-- No call changes the code of a machine. -/
  code : ∀ n i i', n ≠ x.nextId → x.machines n = some i → x'.machines n = some i' → i'.code = i.code
  /-- Only `export` changes the exported segments, adding one at the end. -/
  exports : x'.exports = x.exports ∨ (h = 7 ∧ ∃ seg, x'.exports = x.exports ++ [seg])
  /-- A call that ends the program changes nothing. -/
  stopped : ∀ r, o = .ok r → r.exit ≠ .cont → x' = x

theorem isolated_same (h : Nat) (vm : VM) (x : RCtx) (o : Out) : Isolated h vm x o x :=
  ⟨fun _ _ _ => rfl, fun _ _ _ _ _ _ => rfl, fun _ h1 h2 => absurd h1 h2, fun _ h1 h2 => absurd h2 h1, .inl rfl,
    (fun n i i' _ h1 h2 => by rw [h1] at h2; cases h2; rfl), .inl rfl, fun _ _ _ => rfl⟩

/-- Replacing the machine in register 7 by one with the same code. -/
theorem isolated_put {h : Nat} {vm : VM} {x : RCtx} {o : Out} {i i' : Inner} (hh : h = 10 ∨ h = 11 ∨ h = 12)
    (hi : x.machines (VM.n vm 7) = some i) (hc : i'.code = i.code) (ho : ∀ r, o = .ok r → r.exit = .cont) :
    Isolated h vm x o (x.put (VM.n vm 7) (some i')) := by
  refine ⟨fun n h1 _ => ?_, fun a b c d => by omega, fun n h1 h2 => ?_, fun n h1 h2 => ?_, .inl rfl, fun n j j' _ h1 h2 => ?_, .inl rfl,
    fun r h1 h2 => absurd (ho r h1) h2⟩
  · simp only [RCtx.put, if_neg h1]
  · exfalso
    simp only [RCtx.put] at h2
    split at h2
    · rename_i e; rw [e, hi] at h1; cases h1
    · exact h2 h1
  · exfalso
    simp only [RCtx.put] at h2
    split at h2
    · cases h2
    · exact h1 h2
  · simp only [RCtx.put] at h2
    split at h2
    · rename_i e; rw [e, hi] at h1; cases h1; cases h2; exact hc
    · rw [h1] at h2; cases h2; rfl

theorem hostExport_isolated (env : REnv) (vm : VM) (x : RCtx) : Isolated 7 vm x (hostExport env vm x).1 (hostExport env vm x).2 := by
  unfold hostExport
  split
  · exact isolated_same ..
  split
  · exact isolated_same ..
  split
  · exact isolated_same ..
  dsimp only
  split
  · exact isolated_same ..
  split
  · exact isolated_same ..
  · refine ⟨fun _ _ _ => rfl, fun _ _ _ _ _ _ => rfl, fun _ h1 h2 => absurd h1 h2, fun _ h1 h2 => absurd h2 h1, .inl rfl,
      (fun n i i' _ h1 h2 => by rw [h1] at h2; cases h2; rfl), .inr ⟨rfl, _, rfl⟩, fun r h1 h2 => ?_⟩
    cases h1; exact absurd rfl h2

theorem hostMachine_isolated (vm : VM) (x : RCtx) (hn : x.machines x.nextId = none) :
    Isolated 8 vm x (hostMachine vm x).1 (hostMachine vm x).2 := by
  unfold hostMachine
  split
  · exact isolated_same ..
  split
  · exact isolated_same ..
  split
  · exact isolated_same ..
  split
  · exact isolated_same ..
  · exact isolated_same ..
  · simp only [RCtx.add]
    refine ⟨fun n _ h2 => ?_, fun _ _ _ _ n h2 => ?_, fun n h1 h2 => ?_, fun n h1 h2 => ?_, .inr ⟨rfl, rfl⟩, fun n i i' h0 h1 h2 => ?_, .inl rfl, fun r h1 h2 => ?_⟩
    · simp only [RCtx.put, if_neg h2]
    · simp only [RCtx.put, if_neg h2]
    · refine ⟨rfl, ?_, rfl⟩
      simp only [RCtx.put] at h2
      split at h2
      · assumption
      · exact absurd h1 h2
    · exfalso
      simp only [RCtx.put] at h2
      split at h2
      · cases h2
      · exact h1 h2
    · simp only [RCtx.put, if_neg h0] at h2
      rw [h1] at h2; cases h2; rfl
    · cases h1; exact absurd rfl h2

theorem hostPeek_same (vm : VM) (x : RCtx) : (hostPeek vm x).2 = x := by
  unfold hostPeek
  split
  · rfl
  split
  · rfl
  dsimp only
  split
  · rfl
  split
  · rfl
  split
  · rfl
  split
  · rfl
  split <;> rfl

theorem hostPoke_isolated (vm : VM) (x : RCtx) : Isolated 10 vm x (hostPoke vm x).1 (hostPoke vm x).2 := by
  unfold hostPoke
  split
  · exact isolated_same ..
  split
  · exact isolated_same ..
  dsimp only
  split
  · exact isolated_same ..
  split
  · exact isolated_same ..
  rename_i i hi
  split
  · exact isolated_same ..
  split
  · exact isolated_same ..
  split
  · exact isolated_put (.inl rfl) hi rfl (fun r e => by cases e; rfl)
  · exact isolated_put (.inl rfl) hi rfl (fun r e => by cases e; rfl)

theorem pagesAccess_isolated {vm : VM} {x : RCtx} {i : Inner} (hi : x.machines (VM.n vm 7) = some i) (m : Mem) (lo hi' mode : Nat) :
    Isolated 11 vm x (pagesAccess x (VM.n vm 7) i m lo hi' mode).1 (pagesAccess x (VM.n vm 7) i m lo hi' mode).2 := by
  unfold pagesAccess
  split
  · exact isolated_put (.inr (.inl rfl)) hi rfl (fun r e => by cases e; rfl)
  · exact isolated_put (.inr (.inl rfl)) hi rfl (fun r e => by cases e; rfl)

theorem hostPages_isolated (vm : VM) (x : RCtx) : Isolated 11 vm x (hostPages vm x).1 (hostPages vm x).2 := by
  unfold hostPages
  split
  · exact isolated_same ..
  split
  · exact isolated_same ..
  rename_i i hi
  dsimp only
  split
  · exact isolated_same ..
  split
  · exact isolated_same ..
  split
  · split
    · exact isolated_same ..
    · split
      · exact isolated_put (.inr (.inl rfl)) hi rfl (fun r e => by cases e; rfl)
      · exact pagesAccess_isolated hi ..
  · exact pagesAccess_isolated hi ..

theorem invokeEnd_isolated {vm : VM} {x : RCtx} {i : Inner} (hi : x.machines (VM.n vm 7) = some i) (o : Nat) (p : Prog) (e : Exit) (vm' : VM) :
    Isolated 12 vm x (invokeEnd x (VM.n vm 7) o i p e vm').1 (invokeEnd x (VM.n vm 7) o i p e vm').2 := by
  unfold invokeEnd
  split
  · exact isolated_put (.inr (.inr rfl)) hi rfl (fun r e => by cases e)
  · exact isolated_put (.inr (.inr rfl)) hi rfl (fun r e => by cases e; rfl)

theorem invokeRun_isolated {vm : VM} {x : RCtx} {i : Inner} (hi : x.machines (VM.n vm 7) = some i) (o g : Nat) (rs : List Reg) :
    Isolated 12 vm x (invokeRun x (VM.n vm 7) o i g rs).1 (invokeRun x (VM.n vm 7) o i g rs).2 := by
  unfold invokeRun
  split
  · exact isolated_same ..
  split
  · exact isolated_same ..
  · exact isolated_same ..
  split
  · exact isolated_same ..
  · exact isolated_same ..
  · exact invokeEnd_isolated hi ..

theorem hostInvoke_isolated (vm : VM) (x : RCtx) : Isolated 12 vm x (hostInvoke vm x).1 (hostInvoke vm x).2 := by
  unfold hostInvoke
  split
  · exact isolated_same ..
  split
  · exact isolated_same ..
  split
  · exact isolated_same ..
  split
  · exact isolated_same ..
  split
  · exact isolated_same ..
  split
  · exact isolated_same ..
  rename_i i hi
  exact invokeRun_isolated hi ..

theorem hostExpunge_isolated (vm : VM) (x : RCtx) : Isolated 13 vm x (hostExpunge vm x).1 (hostExpunge vm x).2 := by
  unfold hostExpunge
  split
  · exact isolated_same ..
  split
  · exact isolated_same ..
  rename_i i hi
  refine ⟨fun n h1 _ => ?_, fun a b c d => absurd rfl d, fun n h1 h2 => ?_, fun n h1 h2 => ⟨rfl, ?_⟩, .inl rfl, fun n j j' _ h1 h2 => ?_, .inl rfl, fun r h1 h2 => ?_⟩
  · simp only [RCtx.put, if_neg h1]
  · exfalso
    simp only [RCtx.put] at h2
    split at h2
    · exact h2 rfl
    · exact h2 h1
  · simp only [RCtx.put] at h2
    split at h2
    · assumption
    · exact absurd h2 h1
  · simp only [RCtx.put] at h2
    split at h2
    · cases h2
    · rw [h1] at h2; cases h2; rfl
  · cases h1; exact absurd rfl h2

theorem refineCall_isolated (other : Nat → VM → HostResult) (env : REnv) (h : Nat) (vm : VM) (x : RCtx) (hn : x.machines x.nextId = none) :
    Isolated h vm x (refineCall other env h vm x).1 (refineCall other env h vm x).2 := by
  unfold refineCall
  by_cases c6 : h = 6
  · subst c6; rw [if_pos rfl]; exact isolated_same ..
  rw [if_neg c6]
  by_cases c7 : h = 7
  · subst c7; rw [if_pos rfl]; exact hostExport_isolated ..
  rw [if_neg c7]
  by_cases c8 : h = 8
  · subst c8; rw [if_pos rfl]; exact hostMachine_isolated _ _ hn
  rw [if_neg c8]
  by_cases c9 : h = 9
  · subst c9; rw [if_pos rfl]
    rw [hostPeek_same vm x]
    exact isolated_same ..
  rw [if_neg c9]
  by_cases c10 : h = 10
  · subst c10; rw [if_pos rfl]; exact hostPoke_isolated ..
  rw [if_neg c10]
  by_cases c11 : h = 11
  · subst c11; rw [if_pos rfl]; exact hostPages_isolated ..
  rw [if_neg c11]
  by_cases c12 : h = 12
  · subst c12; rw [if_pos rfl]; exact hostInvoke_isolated ..
  rw [if_neg c12]
  by_cases c13 : h = 13
  · subst c13; rw [if_pos rfl]; exact hostExpunge_isolated ..
  rw [if_neg c13]
  exact isolated_same ..

/-! ## The invariant of contexts reached by calls -/

/-- Numbers in use are below the next one, and no machine has any memory. -/
structure Bare (x : RCtx) : Prop where
  below : ∀ n i, x.machines n = some i → n < x.nextId
  none : ∀ n i, x.machines n = some i → i.mem = noMem

theorem bare_next {x : RCtx} (h : Bare x) : x.machines x.nextId = none := by
  cases hm : x.machines x.nextId with
  | none => rfl
  | some i => exact absurd (h.below _ _ hm) (by omega)

theorem bare_put {x : RCtx} (h : Bare x) {n : Nat} {i i' : Inner} (hi : x.machines n = some i) (hm : i'.mem = noMem) : Bare (x.put n (some i')) := by
  constructor
  · intro k j hk
    simp only [RCtx.put] at hk ⊢
    split at hk
    · rename_i e; subst e; exact h.below _ _ hi
    · exact h.below _ _ hk
  · intro k j hk
    simp only [RCtx.put] at hk
    split at hk
    · cases hk; exact hm
    · exact h.none _ _ hk

theorem noMem_setPages (lo hi : Nat) (a : Access) : (noMem.setPageRange lo hi a).2 = noMem := by
  unfold Mem.setPageRange
  cases hi - lo with
  | zero => rfl
  | succ n =>
    unfold Mem.setPagesLoop
    have : noMem.setPageAccess lo a = (.error (.invalidPageIndex lo), noMem) := by
      unfold Mem.setPageAccess
      rw [if_pos (by simp [noMem])]
    rw [this]

theorem pagesAccess_bare {x : RCtx} (h : Bare x) {n : Nat} {i : Inner} (hi : x.machines n = some i) (lo hi' mode : Nat) :
    Bare (pagesAccess x n i noMem lo hi' mode).2 := by
  unfold pagesAccess
  have hm := noMem_setPages lo hi' (modeAccess mode)
  split
  · rename_i e; rw [e] at hm; exact bare_put h hi hm
  · rename_i e; rw [e] at hm; exact bare_put h hi hm

theorem hostPages_bare (vm : VM) {x : RCtx} (h : Bare x) : Bare (hostPages vm x).2 := by
  unfold hostPages
  split
  · exact h
  split
  · exact h
  rename_i i hi
  have hm := h.none _ _ hi
  dsimp only
  split
  · exact h
  split
  · exact h
  split
  · split
    · exact h
    · have hw := noMem_write (VM.n vm 8 * PAGE % U64 % U32) (List.replicate (VM.n vm 9 * PAGE % U64) 0)
      rw [hm]
      split
      · rename_i e; rw [e] at hw; exact bare_put h hi hw
      · rename_i e; rw [e] at hw; simp only [] at hw; subst hw; exact pagesAccess_bare h hi ..
  · rw [hm]; exact pagesAccess_bare h hi ..

theorem hostPoke_bare (vm : VM) {x : RCtx} (h : Bare x) : Bare (hostPoke vm x).2 := by
  unfold hostPoke
  split
  · exact h
  split
  · exact h
  dsimp only
  split
  · exact h
  rename_i bs _
  split
  · exact h
  rename_i i hi
  have hm := h.none _ _ hi
  split
  · exact h
  rename_i o _
  split
  · exact h
  have hw := noMem_write o bs
  rw [hm]
  split
  · rename_i e; rw [e] at hw; exact bare_put h hi hw
  · rename_i e; rw [e] at hw; exact bare_put h hi hw

theorem invokeRun_bare {x : RCtx} (h : Bare x) {n : Nat} {i : Inner} (hi : x.machines n = some i) (o g : Nat) (rs : List Reg) :
    Bare (invokeRun x n o i g rs).2 := by
  have hm := h.none _ _ hi
  unfold invokeRun
  split
  · exact h
  split
  · exact h
  · exact h
  rename_i p _
  split
  · exact h
  · exact h
  · rename_i e vm' hr
    have facts := (runInner_facts p _ _ _ _ hr).2.1 hm (by simp)
    unfold invokeEnd
    split
    · exact bare_put h hi facts
    · exact bare_put h hi facts

theorem hostInvoke_bare (vm : VM) {x : RCtx} (h : Bare x) : Bare (hostInvoke vm x).2 := by
  unfold hostInvoke
  split
  · exact h
  split
  · exact h
  split
  · exact h
  split
  · exact h
  split
  · exact h
  split
  · exact h
  rename_i i hi
  exact invokeRun_bare h hi ..

theorem hostMachine_bare (vm : VM) {x : RCtx} (h : Bare x) : Bare (hostMachine vm x).2 := by
  unfold hostMachine
  split
  · exact h
  split
  · exact h
  split
  · exact h
  split
  · exact h
  · exact h
  · simp only [RCtx.add]
    constructor
    · intro k j hk
      simp only [RCtx.put] at hk ⊢
      split at hk
      · omega
      · have := h.below _ _ hk; omega
    · intro k j hk
      simp only [RCtx.put] at hk
      split at hk
      · cases hk; rfl
      · exact h.none _ _ hk

theorem hostExpunge_bare (vm : VM) {x : RCtx} (h : Bare x) : Bare (hostExpunge vm x).2 := by
  unfold hostExpunge
  split
  · exact h
  split
  · exact h
  constructor
  · intro k j hk
    simp only [RCtx.put] at hk ⊢
    split at hk
    · cases hk
    · exact h.below _ _ hk
  · intro k j hk
    simp only [RCtx.put] at hk
    split at hk
    · cases hk
    · exact h.none _ _ hk

theorem bare_of_same {x x' : RCtx} (h : Bare x) (h1 : x'.machines = x.machines) (h2 : x'.nextId = x.nextId) : Bare x' :=
  ⟨fun n i hi => by rw [h2]; rw [h1] at hi; exact h.below _ _ hi, fun n i hi => by rw [h1] at hi; exact h.none _ _ hi⟩

theorem hostExport_machines (env : REnv) (vm : VM) (x : RCtx) :
    (hostExport env vm x).2.machines = x.machines ∧ (hostExport env vm x).2.nextId = x.nextId := by
  unfold hostExport
  split
  · exact ⟨rfl, rfl⟩
  split
  · exact ⟨rfl, rfl⟩
  split
  · exact ⟨rfl, rfl⟩
  dsimp only
  split
  · exact ⟨rfl, rfl⟩
  split <;> exact ⟨rfl, rfl⟩

theorem refineCall_bare (other : Nat → VM → HostResult) (env : REnv) (h : Nat) (vm : VM) {x : RCtx} (hb : Bare x) :
    Bare (refineCall other env h vm x).2 := by
  unfold refineCall
  by_cases c6 : h = 6
  · rw [if_pos c6]; exact hb
  rw [if_neg c6]
  by_cases c7 : h = 7
  · rw [if_pos c7]; exact bare_of_same hb (hostExport_machines env vm x).1 (hostExport_machines env vm x).2
  rw [if_neg c7]
  by_cases c8 : h = 8
  · rw [if_pos c8]; exact hostMachine_bare vm hb
  rw [if_neg c8]
  by_cases c9 : h = 9
  · rw [if_pos c9, hostPeek_same]; exact hb
  rw [if_neg c9]
  by_cases c10 : h = 10
  · rw [if_pos c10]; exact hostPoke_bare vm hb
  rw [if_neg c10]
  by_cases c11 : h = 11
  · rw [if_pos c11]; exact hostPages_bare vm hb
  rw [if_neg c11]
  by_cases c12 : h = 12
  · rw [if_pos c12]; exact hostInvoke_bare vm hb
  rw [if_neg c12]
  by_cases c13 : h = 13
  · rw [if_pos c13]; exact hostExpunge_bare vm hb
  rw [if_neg c13]
  exact hb

theorem refineCalls_keeps {P : RCtx → Prop} (other : Nat → VM → HostResult) (env : REnv)
    (hP : ∀ h vm x, P x → P (refineCall other env h vm x).2) :
    ∀ (cs : List (Nat × VM)) x, P x → P (refineCalls other env cs x) := by
  intro cs
  induction cs with
  | nil => intro x h; exact h
  | cons c cs ih =>
    intro x h
    obtain ⟨k, vm⟩ := c
    have := hP k vm x h
    unfold refineCalls
    rcases hc : refineCall other env k vm x with ⟨o, x'⟩
    rw [hc] at this
    cases o with
    | ok r => exact ih x' this
    | err e => exact this
    | crash => exact this

theorem bare_empty (x : RCtx) (h : x.machines = fun _ => none) : Bare x :=
  ⟨fun n i hi => by rw [h] at hi; (cases hi), fun n i hi => by rw [h] at hi; (cases hi)⟩

/-! ## Inner runs without memory -/

/-- `k` iterations that all let the program continue, none dividing by the page size. -/
inductive Reaches (p : Prog) : Nat → VM → VM → Prop
  | done {vm} : Reaches p 0 vm vm
  | step {k vm vm1 vm2} (hd : divides p vm = false) (h : iter p vm = (none, vm1)) (hr : Reaches p k vm1 vm2) :
      Reaches p (k + 1) vm vm2

theorem reaches_run {p : Prog} {k : Nat} {vm vm' : VM} (h : Reaches p k vm vm') (m : Nat) :
    runInner p (m + k) vm = runInner p m vm' ∧ vm'.gas = vm.gas - k ∧ (vm.mem = noMem → vm'.mem = noMem) ∧ runFuel p k vm = (none, vm') := by
  induction h with
  | done => exact ⟨rfl, by omega, fun h => h, rfl⟩
  | step hd h hr ih =>
    rename_i k vm vm1 vm2
    obtain ⟨h1, h2, h3, h4⟩ := ih
    refine ⟨?_, ?_, fun hm => ?_, ?_⟩
    · rw [show m + (k + 1) = (m + k) + 1 by omega]
      have : runInner p (m + k + 1) vm = runInner p (m + k) vm1 := by
        conv => lhs; unfold runInner
        rw [hd, h]
        rfl
      rw [this]
      exact h1
    · have := ((iter_spec p vm).1 vm1 h).1
      omega
    · have := iter_noMem hm hd
      rw [h] at this
      exact h3 this
    · unfold runFuel
      rw [h]
      exact h4

/-- A finished inner run is a run that continues, and a last iteration. -/
theorem runInner_split {p : Prog} : ∀ n vm r vm', runInner p n vm = (some (.ok r), vm') →
    ∃ k vm1, Reaches p k vm vm1 ∧ divides p vm1 = false ∧ iter p vm1 = (some (.ok r), vm') := by
  intro n
  induction n with
  | zero => intro vm r vm' h; cases h
  | succ n ih =>
    intro vm r vm' h
    unfold runInner at h
    by_cases hd : divides p vm = true
    · rw [if_pos hd] at h; cases h
    · have hd' : divides p vm = false := by simpa using hd
      rw [if_neg hd] at h
      rcases hit : iter p vm with ⟨o, vm1⟩
      rw [hit] at h
      cases o with
      | none =>
        simp only [] at h
        obtain ⟨k, vm2, a, b, c⟩ := ih _ _ _ h
        exact ⟨k + 1, vm2, .step hd' hit a, b, c⟩
      | some r1 =>
        simp only [] at h
        cases h
        exact ⟨0, vm, .done, hd', hit⟩

end Fastroll.Refine
