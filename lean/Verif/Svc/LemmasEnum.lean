import Verif.Svc.SpecAcc

/-! # Lemmas: listings of maps, and footprint deltas -/
namespace Fastroll.Svc

def cnt {α : Type} (o : Option α) : Nat := if o.isSome then 1 else 0

section
variable {κ α : Type} [DecidableEq κ] {f : κ → Option α} {l : List κ}

theorem total_congr {w : κ → α → Nat} {f' : κ → Option α} (h : ∀ k ∈ l, f k = f' k) : total w f l = total w f' l := by
  induction l with
  | nil => rfl
  | cons k l ih =>
    simp only [total, List.map_cons, List.sum_cons] at ih ⊢
    rw [h k (by simp), ih fun k' hk' => h k' (by simp [hk'])]

theorem total_erase {w : κ → α → Nat} {k : κ} (hk : k ∈ l) : total w f (l.erase k) + wt w k (f k) = total w f l := by
  induction l with
  | nil => cases hk
  | cons a l ih =>
    by_cases c : a = k
    · subst c
      simp only [List.erase_cons_head, total, List.map_cons, List.sum_cons]; omega
    · rw [List.erase_cons_tail (by simpa using c)]
      have := ih (by simpa [Ne.symm c] using hk)
      simp only [total, List.map_cons, List.sum_cons] at this ⊢; omega

theorem enum_upd (w : κ → α → Nat) (H : Enum f l) (k : κ) (v : Option α) :
    ∃ l', Enum (upd f k v) l' ∧ l'.length + cnt (f k) = l.length + cnt v ∧
      total w (upd f k v) l' + wt w k (f k) = total w f l + wt w k v := by
  have hne : ∀ l' : List κ, k ∉ l' → total w (upd f k v) l' = total w f l' := fun l' hk =>
    total_congr fun k' hk' => by
      simp only [upd]; rw [if_neg]; intro c; subst c; exact hk hk'
  have herase : k ∉ l.erase k := fun h => ((H.1.mem_erase_iff).1 h).1 rfl
  cases v with
  | some b =>
    cases hf : f k with
    | none =>
      have hk : k ∉ l := fun h => by have := (H.2 k).1 h; rw [hf] at this; cases this
      refine ⟨k :: l, ⟨List.nodup_cons.2 ⟨hk, H.1⟩, ?_⟩, by simp [cnt], ?_⟩
      · intro k'
        simp only [List.mem_cons, upd]
        by_cases c : k' = k
        · simp [c]
        · simp [c, H.2 k']
      · have := hne l hk
        simp only [total, List.map_cons, List.sum_cons] at this ⊢
        rw [this]
        simp only [upd, if_true, wt]; omega
    | some b0 =>
      have hk : k ∈ l := (H.2 k).2 (by rw [hf]; rfl)
      refine ⟨l, ⟨H.1, ?_⟩, by simp [cnt], ?_⟩
      · intro k'
        simp only [upd]
        by_cases c : k' = k
        · simp [c, hk]
        · simp [c, H.2 k']
      · have e1 := total_erase (w := w) (f := f) hk
        have e2 := total_erase (w := w) (f := upd f k (some b)) hk
        rw [hne _ herase] at e2
        rw [hf] at e1
        simp only [upd, if_true] at e2 ⊢
        simp only [wt] at *; omega
  | none =>
    cases hf : f k with
    | none =>
      have : upd f k none = f := by
        funext k'; simp only [upd]; split
        · rename_i c; rw [c, hf]
        · rfl
      rw [this]
      exact ⟨l, H, rfl, rfl⟩
    | some b0 =>
      have hk : k ∈ l := (H.2 k).2 (by rw [hf]; rfl)
      refine ⟨l.erase k, ⟨H.1.erase k, ?_⟩, ?_, ?_⟩
      · intro k'
        rw [H.1.mem_erase_iff]
        simp only [upd]
        by_cases c : k' = k
        · simp [c]
        · simp [c, H.2 k']
      · have := List.length_erase_of_mem hk
        have := List.length_pos_of_mem hk
        simp [cnt]; omega
      · have e1 := total_erase (w := w) (f := f) hk
        rw [hne _ herase]
        rw [hf] at e1
        simp only [wt] at *; omega

end
end Fastroll.Svc
