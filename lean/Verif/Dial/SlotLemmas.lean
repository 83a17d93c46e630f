import Verif.Dial.SlotModel
/-
Lemmas on the entry of a peer.
-/
namespace Fastroll.Dial

/-- The last operation of the history for which `f` answers. -/
def lastOf (f : SlotOp → Option Nat) (ops : List SlotOp) : Option Nat := (ops.filterMap f).getLast?

def insertOf : SlotOp → Option Nat
  | .insert i => some i
  | _ => none

theorem slotRun_append (a b : List SlotOp) : slotRun (a ++ b) = b.foldl slotStep (slotRun a) := by
  simp only [slotRun, List.foldl_append]

theorem snoc_ind {α : Type} {P : List α → Prop} (h0 : P []) (h1 : ∀ l a, P l → P (l ++ [a])) (l : List α) : P l := by
  have h : ∀ m : List α, P m.reverse := by
    intro m
    induction m with
    | nil => exact h0
    | cons a m ih => rw [List.reverse_cons]; exact h1 _ a ih
  have := h l.reverse
  rwa [List.reverse_reverse] at this

/-- After a store without later ones. -/
theorem slot_tail (pre : List SlotOp) (i : Nat) (post : List SlotOp) (hno : ∀ j, SlotOp.store j ∉ post) :
    (slotRun (pre ++ .store i :: post)).handle = lastOf insertOf post ∧ (slotRun (pre ++ .store i :: post)).conn = some i := by
  induction post using snoc_ind with
  | h0 => rw [slotRun_append]; exact ⟨rfl, rfl⟩
  | h1 l o ih =>
    have ih := ih (fun j hj => hno j (List.mem_append_left _ hj))
    rw [show pre ++ .store i :: (l ++ [o]) = (pre ++ .store i :: l) ++ [o] by simp, slotRun_append]
    cases o with
    | store j => exact absurd (List.mem_append_right l List.mem_cons_self) (hno j)
    | insert j =>
      simp only [List.foldl_cons, List.foldl_nil, slotStep, ih.2, Option.isSome_some, if_true, lastOf, List.filterMap_append]
      simp [insertOf]
    | announce h =>
      simp only [List.foldl_cons, List.foldl_nil, slotStep, lastOf, List.filterMap_append]
      split <;> (simp only [insertOf, List.filterMap_cons, List.filterMap_nil, List.append_nil]; exact ih)

/-- A history with a store is cut at its last store. -/
theorem cut_last (ops : List SlotOp) (h : ∃ i, SlotOp.store i ∈ ops) :
    ∃ pre i post, ops = pre ++ .store i :: post ∧ ∀ j, SlotOp.store j ∉ post := by
  induction ops with
  | nil => obtain ⟨i, h⟩ := h; cases h
  | cons o l ih =>
    by_cases hl : ∃ i, SlotOp.store i ∈ l
    · obtain ⟨pre, i, post, h1, h2⟩ := ih hl
      exact ⟨o :: pre, i, post, by rw [h1]; rfl, h2⟩
    · obtain ⟨i, h⟩ := h
      rcases List.mem_cons.1 h with h | h
      · exact ⟨[], i, l, by rw [h]; rfl, fun j hj => hl ⟨j, hj⟩⟩
      · exact absurd ⟨i, h⟩ hl

end Fastroll.Dial
