import Verif.Shuffle.Model
import Verif.Shuffle.Spec
/-! Helper lemmas for the shuffle. -/
namespace Fastroll.Shuffle
variable {α : Type}

theorem set_last_perm (l : List α) (idx : Nat) (x y : α) (r : Nat) (hr : r < l.length)
    (hidx : idx ≤ r) (hx : l[idx]? = some x) (hy : l[r]? = some y) :
    ((l.set idx y).take r ++ [x]).Perm (l.take (r + 1)) := by
  have htr : l.take (r + 1) = l.take r ++ [y] := by
    rw [List.take_add_one, hy]; rfl
  rw [htr, List.take_set]
  rcases Nat.lt_or_eq_of_le hidx with hlt | heq
  · have hx' : (l.take r)[idx]? = some x := by rw [List.getElem?_take_of_lt hlt, hx]
    generalize l.take r = t at hx'
    -- t = a ++ x :: b
    obtain ⟨hil, hget⟩ := List.getElem?_eq_some_iff.mp hx'
    have hsplit : t = t.take idx ++ x :: t.drop (idx + 1) := by
      rw [← hget, ← List.drop_eq_getElem_cons hil, List.take_append_drop]
    have hset : t.set idx y = t.take idx ++ y :: t.drop (idx + 1) := by
      rw [List.set_eq_take_append_cons_drop, if_pos hil]
    rw [hset]
    conv => rhs; rw [hsplit]
    generalize t.take idx = a
    generalize t.drop (idx + 1) = b
    have h1 : (a ++ y :: b ++ [x]).Perm (x :: y :: (a ++ b)) := by
      refine (List.perm_append_comm).trans ?_
      simp only [List.singleton_append]
      exact (List.perm_middle).cons x
    have h2 : (a ++ x :: b ++ [y]).Perm (x :: y :: (a ++ b)) := by
      refine (List.perm_append_comm).trans ?_
      simp only [List.singleton_append]
      exact ((List.perm_middle).cons y).trans (List.Perm.swap x y _)
    exact h1.trans h2.symm
  · subst heq
    have : x = y := by rw [hx] at hy; exact Option.some.inj hy
    subst this
    rw [List.set_eq_of_length_le (by rw [List.length_take]; omega)]

theorem shuffleLoop_spec (orig : List α) :
    ∀ (rs : List Nat) (i : Nat) (elems result : List α),
      elems.length = orig.length → i ≤ orig.length →
      (elems.take (orig.length - i) ++ result).Perm orig → result.length = i →
    ∃ out rest, shuffleLoop orig.length i rs elems result = some out ∧
      (rest ++ out).Perm orig ∧ out.length = min orig.length (i + rs.length) := by
  intro rs
  induction rs with
  | nil =>
    intro i elems result _ hi hp hl
    exact ⟨result, _, rfl, hp, by simp [hl]; omega⟩
  | cons r rs ih =>
    intro i elems result he hi hp hl
    unfold shuffleLoop
    by_cases hge : i ≥ orig.length
    · rw [if_pos hge]
      exact ⟨result, _, rfl, hp, by simp [hl]; omega⟩
    · rw [if_neg hge]
      have hrange : 0 < orig.length - i := by omega
      have hidx : r % (orig.length - i) < orig.length - i := Nat.mod_lt _ hrange
      dsimp only
      generalize r % (orig.length - i) = idx at hidx ⊢
      have hx : elems[idx]? = some (elems[idx]'(by omega)) := List.getElem?_eq_getElem _
      have hy : elems[orig.length - i - 1]? = some (elems[orig.length - i - 1]'(by omega)) :=
        List.getElem?_eq_getElem _
      generalize elems[idx]'(by omega) = x at hx
      generalize elems[orig.length - i - 1]'(by omega) = y at hy
      have key := set_last_perm elems idx x y (orig.length - i - 1) (by omega) (by omega) hx hy
      rw [show orig.length - i - 1 + 1 = orig.length - i by omega] at key
      simp only [hx, hy]
      by_cases hlast : i < orig.length - 1
      · rw [if_pos hlast]
        obtain ⟨out, rest, h1, h2, h3⟩ := ih (i + 1) (elems.set idx y) (result ++ [x])
          (by simp [he]) (by omega)
          (by
            rw [show orig.length - (i + 1) = orig.length - i - 1 by omega]
            refine List.Perm.trans ?_ hp
            rw [← List.append_assoc]
            have : ((elems.set idx y).take (orig.length - i - 1) ++ result ++ [x]).Perm
                ((elems.set idx y).take (orig.length - i - 1) ++ [x] ++ result) := by
              rw [List.append_assoc, List.append_assoc]
              exact List.Perm.append_left _ List.perm_append_comm
            exact this.trans (List.Perm.append_right _ key))
          (by simp [hl])
        exact ⟨out, rest, h1, h2, by rw [h3]; simp; omega⟩
      · rw [if_neg hlast]
        have h1 : orig.length - i = 1 := by omega
        have hi0 : idx = 0 := by omega
        subst hi0
        obtain ⟨out, rest, h1', h2, h3⟩ := ih (i + 1) elems (result ++ [x]) he (by omega)
          (by
            rw [show orig.length - (i + 1) = 0 by omega]
            rw [h1] at hp
            simp only [List.take_zero, List.nil_append]
            have : elems.take 1 = [x] := by
              cases elems with
              | nil => simp at hx
              | cons a t => simp at hx; simp [hx]
            rw [this] at hp
            exact (List.perm_append_comm).trans hp)
          (by simp [hl])
        exact ⟨out, rest, h1', h2, by rw [h3]; simp; omega⟩

theorem gpShuffle_nil (rs : List Nat) : gpShuffle ([] : List α) rs = [] := by
  cases rs <;> simp [gpShuffle]

theorem shuffleLoop_gp (len : Nat) :
    ∀ (rs : List Nat) (i : Nat) (elems result : List α), elems.length = len → i ≤ len →
    shuffleLoop len i rs elems result = some (result ++ gpShuffle (elems.take (len - i)) rs) := by
  intro rs
  induction rs with
  | nil => intro i elems result _ _; simp [shuffleLoop, gpShuffle]
  | cons r rs ih =>
    intro i elems result he hi
    unfold shuffleLoop
    by_cases hge : i ≥ len
    · rw [if_pos hge, show len - i = 0 by omega, List.take_zero, gpShuffle_nil]; simp
    · rw [if_neg hge]
      have hrange : 0 < len - i := by omega
      have hidx : r % (len - i) < len - i := Nat.mod_lt _ hrange
      have htl : (elems.take (len - i)).length = len - i := by simp; omega
      unfold gpShuffle
      rw [htl]
      dsimp only
      generalize r % (len - i) = idx at hidx ⊢
      have hx : elems[idx]? = some (elems[idx]'(by omega)) := List.getElem?_eq_getElem _
      have hy : elems[len - i - 1]? = some (elems[len - i - 1]'(by omega)) :=
        List.getElem?_eq_getElem _
      generalize elems[idx]'(by omega) = x at hx
      generalize elems[len - i - 1]'(by omega) = y at hy
      have hx' : (elems.take (len - i))[idx]? = some x := by
        rw [List.getElem?_take_of_lt hidx, hx]
      have hy' : (elems.take (len - i)).getLast? = some y := by
        rw [List.getLast?_eq_getElem?, htl, List.getElem?_take_of_lt (by omega), hy]
      have hd : ((elems.take (len - i)).set idx y).dropLast = (elems.set idx y).take (len - i - 1) := by
        rw [List.dropLast_eq_take, List.length_set, htl, ← List.take_set, List.take_take]
        congr 1; omega
      simp only [hx, hy, hx', hy', hd]
      by_cases hlast : i < len - 1
      · rw [if_pos hlast, ih _ _ _ (by simp [he]) (by omega),
          show len - (i + 1) = len - i - 1 by omega]
        simp
      · rw [if_neg hlast, ih _ _ _ he (by omega), show len - (i + 1) = 0 by omega,
          show len - i - 1 = 0 by omega]
        simp [gpShuffle_nil]

theorem hashToRandoms_length (H seed n) : (hashToRandoms H seed n).length = n := by
  simp [hashToRandoms]

/-- Counting the cores of the unshuffled assignment. -/
theorem count_base (C k c : Nat) (hC : 0 < C) (hk : 0 < k) (hc : c < C) :
    ((List.range (C * k)).map fun i => C * i / (C * k)).count c = k := by
  have hsimp : (fun i => C * i / (C * k)) = fun i => i / k := by
    funext i; exact Nat.mul_div_mul_left i k hC
  rw [hsimp]
  clear hsimp
  -- induction on the number of cores covered
  have key : ∀ m, ((List.range (m * k)).map fun i => i / k).count c = if c < m then k else 0 := by
    intro m
    induction m with
    | zero => simp
    | succ m ih =>
      rw [Nat.succ_mul, List.range_add, List.map_append, List.count_append, ih, List.map_map]
      have hcong : (List.range k).map ((fun i => i / k) ∘ fun x => m * k + x) =
          (List.range k).map (fun _ => m) := by
        apply List.map_congr_left
        intro x hx
        have := List.mem_range.mp hx
        simp only [Function.comp]
        rw [Nat.mul_comm m k, Nat.mul_add_div hk, Nat.div_eq_of_lt this]; omega
      rw [hcong, List.map_const', List.length_range, List.count_replicate]
      by_cases h1 : c < m
      · simp [h1, show c < m + 1 by omega, show ¬ m = c by omega]
      · by_cases h2 : c = m
        · subst h2; simp
        · simp [h1, show ¬ c < m + 1 by omega, show ¬ m = c by omega]
  rw [key C, if_pos hc]

/-- Rotation permutes cores: the count at a core is the count at its preimage. -/
theorem count_rotate (C shift c : Nat) (hC : 0 < C) (hc : c < C) (l : List Nat)
    (hl : ∀ i ∈ l, i < C) :
    (rotate C l shift).count c = l.count ((c + (C - shift % C)) % C) := by
  unfold rotate
  induction l with
  | nil => simp
  | cons a l ih =>
    have ha := hl a (by simp)
    rw [List.map_cons, List.count_cons, List.count_cons, ih (fun i hi => hl i (by simp [hi]))]
    congr 1
    have hs := Nat.mod_lt shift hC
    have hiff : (a + shift) % C = c ↔ a = (c + (C - shift % C)) % C := by
      rw [Nat.add_mod, Nat.mod_eq_of_lt ha]
      generalize shift % C = s at *
      by_cases h1 : a + s < C
      · rw [Nat.mod_eq_of_lt h1]
        by_cases h2 : c + (C - s) < C
        · rw [Nat.mod_eq_of_lt h2]; omega
        · rw [Nat.mod_eq_sub_mod (by omega), Nat.mod_eq_of_lt (by omega)]; omega
      · rw [Nat.mod_eq_sub_mod (by omega : C ≤ a + s), Nat.mod_eq_of_lt (by omega)]
        by_cases h2 : c + (C - s) < C
        · rw [Nat.mod_eq_of_lt h2]; omega
        · rw [Nat.mod_eq_sub_mod (by omega), Nat.mod_eq_of_lt (by omega)]; omega
    by_cases hh : (a + shift) % C = c
    · have h2 := hiff.mp hh
      rw [if_pos (by simpa using hh), if_pos (by simpa using h2)]
    · have : ¬ a = (c + (C - shift % C)) % C := fun h => hh (hiff.mpr h)
      simp [hh, this]

end Fastroll.Shuffle
