import Verif.LimVec.Model
/-! # Bounded vectors (C05) -/
namespace Fastroll.LimVec
variable {α : Type}

theorem step_bound (max : Nat) (v : List α) (o : Op α) (h : v.length ≤ max) :
    (step max v o).1.length ≤ max := by
  cases o with
  | push x =>
    simp only [step, tryPush]
    by_cases hc : v.length ≥ max
    · simp [hc, h]
    · simp [hc]; omega
  | extend xs =>
    simp only [step, tryExtend]
    by_cases h1 : v.length + xs.length ≥ 2 ^ 64
    · simp [h1, h]
    · by_cases h2 : v.length + xs.length > max
      · simp [h1, h2, h]
      · simp only [h1, h2, if_false, List.length_append]; omega
  | shift x =>
    simp only [step, shiftPush]
    by_cases h1 : v.length = max
    · rw [if_pos h1]
      cases v with
      | nil => simpa using h
      | cons o r => simp at h1 ⊢; omega
    · rw [if_neg h1]; simp; omega
  | remove i =>
    simp only [step, LimVec.remove]
    cases hv : v[i]? with
    | none => simpa using h
    | some x => simp only; exact Nat.le_trans (List.length_eraseIdx_le ..) h
  | replace xs =>
    simp only [step, tryFrom]
    by_cases h1 : xs.length > max
    · simp [h1, h]
    · simp [h1]; omega

/-- **C05.** Starting from any vector within the bound (in particular the empty
one), no sequence of operations exceeds the bound. -/
theorem C05_bound_invariant (max : Nat) (v : List α) (h : v.length ≤ max) (ops : List (Op α)) :
    (run max v ops).length ≤ max := by
  induction ops generalizing v with
  | nil => exact h
  | cons o ops ih => exact ih _ (step_bound max v o h)

example : (run 2 ([] : List Nat) [.push 1, .push 2, .push 3, .shift 4, .extend [5], .remove 0]) = [4] := by
  decide

/-- **C05.** A failed operation leaves the vector as it was, and pushing fails
exactly on a full vector. -/
theorem C05_failure_no_effect (max : Nat) (v : List α) (o : Op α) (e : Err)
    (h : (step max v o).2 = some e) : (step max v o).1 = v := by
  cases o with
  | push x => simp only [step] at *; split at h <;> simp_all
  | extend xs => simp only [step] at *; split at h <;> simp_all
  | shift x => simp only [step] at *; split at h <;> simp_all
  | remove i => simp only [step] at *; split at h <;> simp_all
  | replace xs => simp only [step] at *; split at h <;> simp_all

example : (step 1 [7] (.push 8)) = ([7], some Err.full) := by decide

/-- **C05.** `try_push` succeeds iff there is room, appending at the end. -/
theorem C05_push_iff (max : Nat) (v w : List α) (x : α) :
    tryPush max v x = .ok w ↔ v.length < max ∧ w = v ++ [x] := by
  unfold tryPush
  split
  · simp; omega
  · constructor
    · intro h; simp at h; exact ⟨by omega, h.symm⟩
    · intro h; simp [h.2]

/-- The last `n` elements of a list. -/
def lastN (n : Nat) (l : List α) : List α := l.drop (l.length - n)

/-- Repeated `shift_push` from `v`. -/
def shiftAll (max : Nat) (v : List α) : List α → Except Err (List α)
  | [] => .ok v
  | x :: xs => match shiftPush max v x with
    | .error e => .error e
    | .ok (w, _) => shiftAll max w xs

theorem shiftPush_lastN (max : Nat) (hm : 0 < max) (v : List α) (x : α) (h : v.length ≤ max) :
    ∃ o, shiftPush max v x = .ok (lastN max (v ++ [x]), o) := by
  unfold shiftPush
  split
  · rename_i heq
    cases v with
    | nil => simp at heq; omega
    | cons o r =>
      refine ⟨some o, ?_⟩
      simp only [lastN, List.length_append, List.length_cons, List.length_nil] at *
      rw [show r.length + 1 + (0 + 1) - max = 1 by omega]
      simp
  · refine ⟨none, ?_⟩
    simp only [lastN, List.length_append, List.length_cons, List.length_nil]
    rw [show v.length + (0 + 1) - max = 0 by omega]; simp

theorem lastN_lastN_append (n : Nat) (v xs : List α) : lastN n (lastN n v ++ xs) = lastN n (v ++ xs) := by
  unfold lastN
  simp only [List.length_append, List.length_drop]
  by_cases h : v.length ≤ n
  · simp [Nat.sub_eq_zero_of_le h]
  · rw [show v.length - (v.length - n) + xs.length - n = xs.length by omega,
      show v.length + xs.length - n = (v.length - n) + xs.length by omega,
      ← List.drop_drop, List.drop_append_of_le_length (by omega : v.length - n ≤ v.length)]

/-- **C05.** Pushing any sequence with `shift_push` keeps exactly the most recent
`max` elements, in arrival order, and never panics (for a positive bound). -/
theorem C05_shift_keeps_recent (max : Nat) (hm : 0 < max) (v xs : List α) (h : v.length ≤ max) :
    shiftAll max v xs = .ok (lastN max (v ++ xs)) := by
  induction xs generalizing v with
  | nil => simp [shiftAll, lastN, Nat.sub_eq_zero_of_le h]
  | cons x xs ih =>
    obtain ⟨o, ho⟩ := shiftPush_lastN max hm v x h
    simp only [shiftAll, ho]
    rw [ih _ (by simp [lastN]; omega), lastN_lastN_append]
    simp

example : shiftAll 2 [1] [2, 3, 4] = .ok [3, 4] := by rfl

/-- **C05.** The evicted element is the oldest one, reported exactly when full. -/
theorem C05_shift_evicts (max : Nat) (v w : List α) (x : α) (o : Option α)
    (h : shiftPush max v x = .ok (w, o)) :
    (o = if v.length = max then v.head? else none) ∧ o.toList ++ w = v ++ [x] := by
  unfold shiftPush at h
  split at h
  · rename_i heq
    cases v with
    | nil => simp at h
    | cons a r => simp at h; obtain ⟨rfl, rfl⟩ := h; simp [heq]
  · rename_i hne
    simp at h; obtain ⟨rfl, rfl⟩ := h; simp [hne]

example : shiftPush 2 [1, 2] 3 = .ok ([2, 3], some 1) := by rfl

/-- **C05, negation for the zero bound.** `shift_push` on a zero-capacity vector
panics instead of refusing. -/
theorem C05_shift_zero_panics (x : α) : shiftPush 0 ([] : List α) x = .error .panic := by
  simp [shiftPush]

/-- **C05.** A fixed-size vector built by the checked constructor has its size. -/
theorem C05_fixed_checked (size : Nat) (v w : List α) (h : fixedTryFrom size v = .ok w) :
    w = v ∧ w.length = size := by
  unfold fixedTryFrom at h
  split at h
  · simp at h
  · simp at h; subst h; exact ⟨rfl, by simp_all⟩

/-- **C05, negation.** The unchecked constructors of the fixed-size vector do not
establish its size: `FixedVec::new()` and `collect()` can yield the wrong length. -/
theorem C05_fixed_unchecked_wrong_size :
    (fixedNew 3 : List Nat).length ≠ 3 ∧ (fixedFromIter 3 [1, 2]).length ≠ 3 := by decide

end Fastroll.LimVec
