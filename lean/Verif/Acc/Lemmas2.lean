import Verif.Acc.Lemmas
/-! Lemmas on the ring buffers. -/
namespace Fastroll.Acc

theorem circ_lt {E : Nat} (hE : 0 < E) (i : Int) : circ E i < E := by
  unfold circ
  have h1 := Int.emod_nonneg i (show (E : Int) ≠ 0 by omega)
  have h2 := Int.emod_lt_of_pos i (show (0 : Int) < E by omega)
  omega

theorem circ_phase {E : Nat} (c : Nat) (i : Int) : circ E (((c % E : Nat) : Int) - i) = circ E ((c : Int) - i) := by
  unfold circ
  rw [Int.natCast_emod, Int.sub_emod, Int.emod_emod_of_dvd _ (Int.dvd_refl _), ← Int.sub_emod]

theorem circ_inj {E : Nat} (hE : 0 < E) {a b : Int} (h : circ E a = circ E b) (hab : -(E : Int) < a - b) (hba : a - b < E) :
    a = b := by
  unfold circ at h
  have h1 := Int.emod_nonneg a (show (E : Int) ≠ 0 by omega)
  have h2 := Int.emod_nonneg b (show (E : Int) ≠ 0 by omega)
  have h3 : a % (E : Int) = b % (E : Int) := by omega
  have h4 : (a - b) % (E : Int) = 0 := Int.emod_eq_emod_iff_emod_sub_eq_zero.1 h3
  have h5 : (E : Int) ∣ (a - b) := Int.dvd_of_emod_eq_zero h4
  obtain ⟨k, hk⟩ := h5
  have hk0 : k = 0 := by
    rcases Int.lt_trichotomy k 0 with hlt | heq | hgt
    · have : (E : Int) * k ≤ (E : Int) * (-1) := Int.mul_le_mul_of_nonneg_left (by omega) (by omega)
      omega
    · exact heq
    · have : (E : Int) * 1 ≤ (E : Int) * k := Int.mul_le_mul_of_nonneg_left (by omega) (by omega)
      omega
  rw [hk0] at hk
  omega

theorem editLoop_length (phase : Nat) (last : List Nat) : ∀ cnt i q, (editLoop phase last cnt i q).length = q.length := by
  intro cnt
  induction cnt with
  | zero => intro i q; rfl
  | succ cnt ih => intro i q; unfold editLoop; simp only []; rw [ih, List.length_set]

theorem clearLoop_length (phase : Nat) : ∀ cnt i q, (clearLoop phase cnt i q).length = q.length := by
  intro cnt
  induction cnt with
  | zero => intro i q; rfl
  | succ cnt ih => intro i q; unfold clearLoop; rw [ih, List.length_set]

theorem clearLoop_get (phase : Nat) : ∀ cnt (i : Nat) (q : List (List Entry)), 0 < q.length → i + cnt ≤ q.length → ∀ j : Nat, j < q.length →
    (clearLoop phase cnt i q)[circ q.length ((phase : Int) - j)]? =
      if i ≤ j ∧ j < i + cnt then some [] else q[circ q.length ((phase : Int) - j)]? := by
  intro cnt
  induction cnt with
  | zero => intro i q _ _ j _; rw [if_neg (by omega)]; rfl
  | succ cnt ih =>
    intro i q hE hi j hj
    unfold clearLoop
    have := ih (i + 1) (q.set (circ q.length ((phase : Int) - i)) []) (by rwa [List.length_set])
      (by rw [List.length_set]; omega) j (by rwa [List.length_set])
    rw [List.length_set] at this
    rw [this]
    by_cases hji : j = i
    · subst hji
      rw [if_neg (by omega), if_pos (by omega), List.getElem?_set_self (circ_lt hE _)]
    · have hne : circ q.length ((phase : Int) - i) ≠ circ q.length ((phase : Int) - j) := by
        intro h
        have := circ_inj hE h (by omega) (by omega)
        omega
      rw [List.getElem?_set_ne hne]
      by_cases hc : i + 1 ≤ j ∧ j < i + 1 + cnt
      · rw [if_pos hc, if_pos (by omega)]
      · rw [if_neg hc, if_neg (by omega)]

theorem editLoop_get (phase : Nat) (last : List Nat) : ∀ cnt (i : Nat) (q : List (List Entry)), 0 < q.length → i + cnt ≤ q.length →
    ∀ j : Nat, j < q.length →
    (editLoop phase last cnt i q)[circ q.length ((phase : Int) - j)]? =
      if i ≤ j ∧ j < i + cnt then some (editQueue (q.getD (circ q.length ((phase : Int) - j)) []) last)
      else q[circ q.length ((phase : Int) - j)]? := by
  intro cnt
  induction cnt with
  | zero => intro i q _ _ j _; rw [if_neg (by omega)]; rfl
  | succ cnt ih =>
    intro i q hE hi j hj
    unfold editLoop
    simp only []
    generalize hv : editQueue (q.getD (circ q.length ((phase : Int) - i)) []) last = v
    have := ih (i + 1) (q.set (circ q.length ((phase : Int) - i)) v) (by rwa [List.length_set])
      (by rw [List.length_set]; omega) j (by rwa [List.length_set])
    rw [List.length_set] at this
    rw [this]
    by_cases hji : j = i
    · subst hji
      rw [if_neg (by omega), if_pos (by omega), List.getElem?_set_self (circ_lt hE _), ← hv]
    · have hne : circ q.length ((phase : Int) - i) ≠ circ q.length ((phase : Int) - j) := by
        intro h
        have := circ_inj hE h (by omega) (by omega)
        omega
      rw [List.getD_eq_getElem?_getD, List.getElem?_set_ne hne, ← List.getD_eq_getElem?_getD]
      by_cases hc : i + 1 ≤ j ∧ j < i + 1 + cnt
      · rw [if_pos hc, if_pos (by omega)]
      · rw [if_neg hc, if_neg (by omega)]

theorem queueTransition_length (q : List (List Entry)) (queued : List Entry) (last : List Nat) (prior curr : Nat) :
    (queueTransition q queued last prior curr).length = q.length := by
  unfold queueTransition
  simp only []
  rw [List.length_set, editLoop_length, clearLoop_length]

/-- The queue after a block, by age of the slot. -/
theorem queueTransition_get (q : List (List Entry)) (queued : List Entry) (last : List Nat) (prior curr : Nat)
    (hE : 0 < q.length) (hlt : prior < curr) (j : Nat) (hj : j < q.length) :
    (queueTransition q queued last prior curr)[circ q.length ((curr : Int) - j)]? =
      if j = 0 then some (editQueue queued last)
      else if j < curr - prior then some []
      else some (editQueue (q.getD (circ q.length ((curr : Int) - j)) []) last) := by
  unfold queueTransition
  simp only []
  have hl1 : (clearLoop (curr % q.length) (min (curr - prior) q.length - 1) 1 q).length = q.length := clearLoop_length _ _ _ _
  have hl2 := editLoop_length (curr % q.length) last (q.length - min (curr - prior) q.length) (min (curr - prior) q.length)
    (clearLoop (curr % q.length) (min (curr - prior) q.length - 1) 1 q)
  have e0 := editLoop_get (curr % q.length) last (q.length - min (curr - prior) q.length) (min (curr - prior) q.length)
    (clearLoop (curr % q.length) (min (curr - prior) q.length - 1) 1 q) (by rw [hl1]; exact hE) (by rw [hl1]; omega) j (by rw [hl1]; exact hj)
  have c0 := clearLoop_get (curr % q.length) (min (curr - prior) q.length - 1) 1 q hE (by omega) j hj
  rw [hl1, circ_phase] at e0
  rw [circ_phase] at c0
  have hz : circ q.length ((curr % q.length : Nat) : Int) = circ q.length ((curr : Int) - (0 : Nat)) := by
    rw [← circ_phase curr]
    congr 1
  rw [hz]
  by_cases hj0 : j = 0
  · subst hj0
    rw [if_pos rfl, List.getElem?_set_self (by rw [hl2, hl1]; exact circ_lt hE _)]
  · rw [if_neg hj0]
    have hne : circ q.length ((curr : Int) - (0 : Nat)) ≠ circ q.length ((curr : Int) - j) := by
      intro h
      have := circ_inj hE h (by omega) (by omega)
      omega
    rw [List.getElem?_set_ne hne, e0, List.getD_eq_getElem?_getD, c0]
    by_cases hd : j < curr - prior
    · rw [if_pos hd, if_neg (by omega), if_pos (by omega)]
    · rw [if_neg hd, if_pos (by omega), if_neg (by omega), List.getD_eq_getElem?_getD]

/-- Every index is the index of exactly one age below `E`. -/
theorem circ_surj {E : Nat} (c i : Nat) (hi : i < E) : ∃ j : Nat, j < E ∧ circ E ((c : Int) - j) = i := by
  have hE : 0 < E := by omega
  have hEi : (E : Int) ≠ 0 := by omega
  refine ⟨(((c : Int) - i) % E).toNat, ?_, ?_⟩
  · have := Int.emod_lt_of_pos ((c : Int) - i) (show (0 : Int) < E by omega)
    have := Int.emod_nonneg ((c : Int) - i) hEi
    omega
  · have h0 := Int.emod_nonneg ((c : Int) - i) hEi
    unfold circ
    rw [Int.toNat_of_nonneg h0]
    have : ((c : Int) - ((c : Int) - i) % E) % E = (i : Int) % E := by
      rw [Int.sub_emod, Int.emod_emod_of_dvd _ (Int.dvd_refl _), ← Int.sub_emod]
      congr 1
      omega
    rw [this, Int.emod_eq_of_lt (by omega) (by omega)]
    rfl

/-- Members of the queue after a block come from the old queue or the newly queued entries, edited. -/
theorem queueTransition_mem {q : List (List Entry)} {queued : List Entry} {last : List Nat} {prior curr : Nat}
    (hE : 0 < q.length) (hlt : prior < curr) {e : Entry}
    (h : e ∈ (queueTransition q queued last prior curr).flatten) :
    e ∈ editQueue queued last ∨ e ∈ editQueue q.flatten last := by
  obtain ⟨l, hl, he⟩ := List.mem_flatten.1 h
  obtain ⟨i, hi, hget⟩ := List.mem_iff_getElem.1 hl
  rw [queueTransition_length] at hi
  obtain ⟨j, hj, hc⟩ := circ_surj (E := q.length) curr i hi
  have hg := queueTransition_get q queued last prior curr hE hlt j hj
  rw [hc, List.getElem?_eq_getElem (by rw [queueTransition_length]; exact hi), hget] at hg
  split at hg
  · cases hg; exact .inl he
  · split at hg
    · cases hg; cases he
    · cases hg
      right
      obtain ⟨e0, h0, h1, h2⟩ := mem_editQueue.1 he
      refine mem_editQueue.2 ⟨e0, ?_, h1, h2⟩
      rw [List.getD_eq_getElem?_getD, List.getElem?_eq_getElem hi] at h0
      exact List.mem_flatten.2 ⟨_, List.getElem_mem hi, h0⟩

theorem mem_flattenQueue {q : List (List Entry)} {slot : Nat} {e : Entry} :
    e ∈ flattenQueue q slot ↔ e ∈ q.flatten := by
  unfold flattenQueue rotl
  rw [List.flatten_append, List.mem_append]
  conv => rhs; rw [← List.take_append_drop (slot % q.length) q, List.flatten_append, List.mem_append]
  exact Or.comm

/-! ### Counting -/

theorem cntE_append (r : Report) (a b : List Entry) : cntE r (a ++ b) = cntE r a + cntE r b := by
  unfold cntE; rw [List.map_append, List.count_append]

theorem cntE_flattenQueue (r : Report) (q : List (List Entry)) (slot : Nat) :
    cntE r (flattenQueue q slot) = cntE r q.flatten := by
  unfold flattenQueue rotl
  rw [List.flatten_append, cntE_append]
  conv => rhs; rw [← List.take_append_drop (slot % q.length) q, List.flatten_append, cntE_append]
  omega

theorem cntE_set (r : Report) (x : List Entry) : ∀ (q : List (List Entry)) (i : Nat), i < q.length →
    cntE r (q.set i x).flatten + cntE r (q.getD i []) = cntE r q.flatten + cntE r x := by
  intro q
  induction q with
  | nil => intro i hi; simp at hi
  | cons l q ih =>
    intro i hi
    cases i with
    | zero =>
      simp only [List.set_cons_zero, List.flatten_cons, cntE_append, List.getD_cons_zero]
      omega
    | succ i =>
      simp only [List.set_cons_succ, List.flatten_cons, cntE_append, List.getD_cons_succ]
      have := ih i (by simpa using hi)
      omega

theorem clearLoop_cnt (r : Report) (phase : Nat) : ∀ n i q, 0 < q.length →
    cntE r (clearLoop phase n i q).flatten ≤ cntE r q.flatten := by
  intro n
  induction n with
  | zero => intro i q _; exact Nat.le_refl _
  | succ n ih =>
    intro i q hE
    unfold clearLoop
    have h1 := ih (i + 1) (q.set (circ q.length ((phase : Int) - i)) []) (by rwa [List.length_set])
    have h2 := cntE_set r [] q (circ q.length ((phase : Int) - i)) (circ_lt hE _)
    have h3 : cntE r [] = 0 := rfl
    omega

theorem editLoop_cnt (r : Report) (phase : Nat) (last : List Nat) : ∀ n i q, 0 < q.length →
    cntE r (editLoop phase last n i q).flatten ≤ cntE r q.flatten := by
  intro n
  induction n with
  | zero => intro i q _; exact Nat.le_refl _
  | succ n ih =>
    intro i q hE
    unfold editLoop
    simp only []
    have h1 := ih (i + 1) (q.set (circ q.length ((phase : Int) - i)) (editQueue (q.getD (circ q.length ((phase : Int) - i)) []) last))
      (by rwa [List.length_set])
    have h2 := cntE_set r (editQueue (q.getD (circ q.length ((phase : Int) - i)) []) last) q
      (circ q.length ((phase : Int) - i)) (circ_lt hE _)
    have h3 := cntE_editQueue r (q.getD (circ q.length ((phase : Int) - i)) []) last
    split at h3 <;> omega

theorem queueTransition_cnt (r : Report) (q : List (List Entry)) (queued : List Entry) (last : List Nat) (prior curr : Nat)
    (hE : 0 < q.length) : cntE r (queueTransition q queued last prior curr).flatten ≤ cntE r q.flatten + cntE r queued := by
  unfold queueTransition
  simp only []
  generalize hA : clearLoop (curr % q.length) (min (curr - prior) q.length - 1) 1 q = A
  have hAl : A.length = q.length := by rw [← hA]; exact clearLoop_length _ _ _ _
  have h1 : cntE r A.flatten ≤ cntE r q.flatten := by rw [← hA]; exact clearLoop_cnt r _ _ _ _ hE
  generalize hB : editLoop (curr % q.length) last (q.length - min (curr - prior) q.length) (min (curr - prior) q.length) A = B
  have hBl : B.length = q.length := by rw [← hB, editLoop_length]; exact hAl
  have h2 : cntE r B.flatten ≤ cntE r A.flatten := by rw [← hB]; exact editLoop_cnt r _ _ _ _ _ (by omega)
  have h3 := cntE_set r (editQueue queued last) B (circ q.length ((curr % q.length : Nat) : Int)) (by rw [hBl]; exact circ_lt hE _)
  have h4 := cntE_editQueue r queued last
  split at h4 <;> omega

theorem queueTransition_cnt_done (r : Report) (q : List (List Entry)) (queued : List Entry) (last : List Nat) (prior curr : Nat)
    (hE : 0 < q.length) (hlt : prior < curr) (hr : r.pkg ∈ last) :
    cntE r (queueTransition q queued last prior curr).flatten = 0 := by
  unfold cntE
  rw [List.count_eq_zero]
  intro h
  obtain ⟨e, he, rfl⟩ := List.mem_map.1 h
  rcases queueTransition_mem hE hlt he with h | h <;>
  · obtain ⟨e0, _, h1, h2⟩ := mem_editQueue.1 h
    rw [h2] at hr
    exact h1 hr

theorem historyAdd_length (h : List (List Nat)) (x : List Nat) : (historyAdd h x).length = h.length := by
  unfold historyAdd rotl
  rw [List.length_set, List.length_append, List.length_drop, List.length_take]
  omega

/-- The history keeps the newest `E - 1` entries and appends the new one. -/
theorem historyAdd_eq (h : List (List Nat)) (x : List Nat) (hE : 0 < h.length) : historyAdd h x = h.drop 1 ++ [x] := by
  cases h with
  | nil => simp at hE
  | cons a h =>
    unfold historyAdd rotl
    simp

theorem mem_historyAdd {h : List (List Nat)} {x : List Nat} {p : Nat} (hE : 0 < h.length)
    (hp : p ∈ historyUnion (historyAdd h x)) : p ∈ historyUnion h ∨ p ∈ x := by
  rw [historyAdd_eq h x hE] at hp
  unfold historyUnion at *
  rw [List.flatten_append, List.mem_append] at hp
  rcases hp with hp | hp
  · left
    obtain ⟨l, hl, hpl⟩ := List.mem_flatten.1 hp
    exact List.mem_flatten.2 ⟨l, List.mem_of_mem_drop hl, hpl⟩
  · right; simpa using hp

end Fastroll.Acc
