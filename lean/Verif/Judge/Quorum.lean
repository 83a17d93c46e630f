/-!
# Overlap of quorums

Two lists of distinct indices below `n` share at least `|A| + |B| - n` of them.
-/
namespace Fastroll.Judge

theorem length_le_of_lt {l : List Nat} {n : Nat} (hn : l.Nodup) (h : ∀ x ∈ l, x < n) : l.length ≤ n := by
  have := hn.length_le_of_subset (l₂ := List.range n) fun x hx => List.mem_range.2 (h x hx)
  simpa using this

theorem overlap {a b : List Nat} {n : Nat} (ha : a.Nodup) (hb : b.Nodup) (hla : ∀ x ∈ a, x < n) (hlb : ∀ x ∈ b, x < n) :
    a.length + b.length ≤ n + (a.filter fun x => decide (x ∈ b)).length := by
  have h1 : ((a.filter fun x => !decide (x ∈ b)) ++ b).length ≤ n := by
    refine length_le_of_lt (List.nodup_append.2 ⟨ha.filter _, hb, ?_⟩) ?_
    · intro x hx y hy e
      have := (List.mem_filter.1 hx).2
      rw [e] at this
      simp [hy] at this
    · intro x hx
      rcases List.mem_append.1 hx with h | h
      · exact hla x (List.mem_filter.1 h).1
      · exact hlb x h
  have h2 : (a.filter fun x => decide (x ∈ b)).length + (a.filter fun x => !decide (x ∈ b)).length = a.length := by
    clear h1 ha hla
    induction a with
    | nil => rfl
    | cons x a ih =>
      by_cases c : x ∈ b <;> simp [List.filter_cons, c] at ih ⊢ <;> omega
  rw [List.length_append] at h1
  omega

end Fastroll.Judge
