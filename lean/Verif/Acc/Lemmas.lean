import Verif.Acc.Spec
/-! Lemmas on queue editing and the extraction loop. -/
namespace Fastroll.Acc

theorem mem_editQueue {q : List Entry} {A : List Nat} {e : Entry} :
    e ∈ editQueue q A ↔ ∃ e0 ∈ q, e0.1.pkg ∉ A ∧ e = (e0.1, e0.2.filter fun h => !A.contains h) := by
  unfold editQueue
  simp only [List.mem_map, List.mem_filter, Bool.not_eq_true', List.contains_eq_mem, decide_eq_false_iff_not]
  constructor
  · rintro ⟨e0, ⟨h1, h2⟩, h3⟩; exact ⟨e0, h1, h2, h3.symm⟩
  · rintro ⟨e0, h1, h2, h3⟩; exact ⟨e0, ⟨h1, h2⟩, h3.symm⟩

theorem filter_filter_contains (l A B : List Nat) :
    (l.filter fun h => !A.contains h).filter (fun h => !B.contains h) = l.filter fun h => !(A ++ B).contains h := by
  rw [List.filter_filter]
  congr 1
  funext h
  simp only [List.contains_eq_mem, List.mem_append]
  by_cases h1 : h ∈ A <;> by_cases h2 : h ∈ B <;> simp [h1, h2]

theorem filter_isEmpty_iff {l A : List Nat} :
    (l.filter fun h => !A.contains h).isEmpty = true ↔ ∀ d ∈ l, d ∈ A := by
  rw [List.isEmpty_iff, List.filter_eq_nil_iff]
  simp

theorem editQueue_length_le (q : List Entry) (A : List Nat) : (editQueue q A).length ≤ q.length := by
  unfold editQueue
  rw [List.length_map]
  exact List.length_filter_le _ _

theorem editQueue_nil (q : List Entry) : editQueue q [] = q := by
  unfold editQueue
  have h1 : (q.filter fun e => !([] : List Nat).contains e.1.pkg) = q := by
    rw [List.filter_eq_self]; simp
  rw [h1]
  have : (fun e : Entry => (e.1, e.2.filter fun h => !([] : List Nat).contains h)) = id := by
    funext e
    have : (e.2.filter fun h => !([] : List Nat).contains h) = e.2 := by
      rw [List.filter_eq_self]; simp
    rw [this]; rfl
  rw [this, List.map_id]

/-- Occurrences of a report among entries. -/
def cnt (r : Report) (rs : List Report) : Nat := rs.count r
def cntE (r : Report) (q : List Entry) : Nat := (q.map (·.1)).count r

theorem cntE_editQueue (r : Report) (q : List Entry) (A : List Nat) :
    cntE r (editQueue q A) = if r.pkg ∈ A then 0 else cntE r q := by
  unfold cntE editQueue
  rw [List.map_map]
  induction q with
  | nil => simp
  | cons e q ih =>
    simp only [List.filter_cons, List.map_cons, List.count_cons]
    by_cases he : e.1.pkg ∈ A
    · rw [if_neg (by simp [he]), ih]
      by_cases hr : r.pkg ∈ A
      · simp [hr]
      · rw [if_neg hr, if_neg hr]
        have : (e.1 == r) = false := by
          rw [beq_eq_false_iff_ne]; intro h; subst h; exact hr he
        simp [this]
    · rw [if_pos (by simp [he]), List.map_cons, List.count_cons, ih]
      by_cases hr : r.pkg ∈ A
      · have : (e.1 == r) = false := by
          rw [beq_eq_false_iff_ne]; intro h; subst h; exact he hr
        simp [hr, this]
      · simp [hr]

/-- What the extraction loop maintains, relative to the queue `q0` it started from. -/
structure Inv (q0 q : List Entry) (acc : List Report) : Prop where
  sound : ∀ e ∈ q, ∃ e0 ∈ q0, e.1 = e0.1 ∧ e.2 = e0.2.filter fun h => !(acc.map (·.pkg)).contains h
  kept : ∀ e0 ∈ q0, e0.1.pkg ∈ acc.map (·.pkg) ∨
    (e0.1, e0.2.filter fun h => !(acc.map (·.pkg)).contains h) ∈ q
  order : ∀ pre r post, acc = pre ++ r :: post → ∃ e0 ∈ q0, e0.1 = r ∧ ∀ d ∈ e0.2, d ∈ pre.map (·.pkg)
  count : ∀ r, cnt r acc + cntE r q ≤ cntE r q0

theorem append_split {α : Type} {xs ys pre post : List α} {r : α} (h : xs ++ ys = pre ++ r :: post) :
    (∃ post', xs = pre ++ r :: post') ∨ (∃ pre', pre = xs ++ pre' ∧ ys = pre' ++ r :: post) := by
  induction xs generalizing pre with
  | nil => right; exact ⟨pre, rfl, h⟩
  | cons x xs ih =>
    cases pre with
    | nil =>
      simp only [List.cons_append, List.nil_append, List.cons.injEq] at h
      left
      exact ⟨xs, by rw [h.1]; rfl⟩
    | cons p pre =>
      simp only [List.cons_append, List.cons.injEq] at h
      obtain ⟨h1, h2⟩ := h
      rcases ih h2 with ⟨post', hp⟩ | ⟨pre', hp, hy⟩
      · left; exact ⟨post', by rw [h1, hp]; rfl⟩
      · right; exact ⟨pre', by rw [h1, hp]; rfl, hy⟩

theorem cntE_partition (r : Report) (q : List Entry) :
    cntE r q = cntE r (q.filter fun e => e.2.isEmpty) + cntE r (q.filter fun e => !e.2.isEmpty) := by
  unfold cntE
  induction q with
  | nil => simp
  | cons e q ih =>
    simp only [List.filter_cons, List.map_cons, List.count_cons]
    cases he : e.2.isEmpty
    · simp only [Bool.false_eq_true, if_false, Bool.not_false, if_true, List.map_cons, List.count_cons]; omega
    · simp only [Bool.false_eq_true, if_false, Bool.not_true, if_true, List.map_cons, List.count_cons]; omega

theorem inv_step {q0 q : List Entry} {acc : List Report} (h : Inv q0 q acc) :
    Inv q0 (editQueue (q.filter fun e => !e.2.isEmpty) (packageHashes ((q.filter fun e => e.2.isEmpty).map (·.1))))
      (acc ++ (q.filter fun e => e.2.isEmpty).map (·.1)) := by
  have hpk : (acc ++ (q.filter fun e => e.2.isEmpty).map (·.1)).map (·.pkg) =
      acc.map (·.pkg) ++ packageHashes ((q.filter fun e => e.2.isEmpty).map (·.1)) := by
    rw [List.map_append]; rfl
  refine ⟨?_, ?_, ?_, ?_⟩
  · intro e he
    obtain ⟨e1, h1, _, h3⟩ := mem_editQueue.1 he
    obtain ⟨e0, h0, ha, hb⟩ := h.sound e1 (List.mem_filter.1 h1).1
    refine ⟨e0, h0, by rw [h3]; exact ha, ?_⟩
    rw [h3, hpk]
    simp only []
    rw [hb, filter_filter_contains]
  · intro e0 h0
    rw [hpk]
    rcases h.kept e0 h0 with hk | hk
    · exact .inl (List.mem_append_left _ hk)
    · by_cases hp : e0.1.pkg ∈ packageHashes ((q.filter fun e => e.2.isEmpty).map (·.1))
      · exact .inl (List.mem_append_right _ hp)
      · right
        rw [mem_editQueue]
        refine ⟨_, List.mem_filter.2 ⟨hk, ?_⟩, hp, ?_⟩
        · cases hb : (e0.2.filter fun h => !(acc.map (·.pkg)).contains h).isEmpty
          · rfl
          · refine absurd ?_ hp
            unfold packageHashes
            exact List.mem_map.2 ⟨e0.1, List.mem_map.2 ⟨_, List.mem_filter.2 ⟨hk, hb⟩, rfl⟩, rfl⟩
        · simp only []
          rw [filter_filter_contains]
  · intro pre r post hsplit
    rcases append_split hsplit with ⟨post', hp⟩ | ⟨pre', hp, hy⟩
    · exact h.order pre r post' hp
    · have hr : r ∈ (q.filter fun e => e.2.isEmpty).map (·.1) := by rw [hy]; simp
      obtain ⟨e, he, rfl⟩ := List.mem_map.1 hr
      obtain ⟨hm, hemp⟩ := List.mem_filter.1 he
      obtain ⟨e0, h0, ha, hb⟩ := h.sound e hm
      refine ⟨e0, h0, ha.symm, ?_⟩
      rw [hb, filter_isEmpty_iff] at hemp
      intro d hd
      rw [hp, List.map_append]
      exact List.mem_append_left _ (hemp d hd)
  · intro r
    have h1 := h.count r
    have h2 := cntE_partition r q
    have h3 := cntE_editQueue r (q.filter fun e => !e.2.isEmpty) (packageHashes ((q.filter fun e => e.2.isEmpty).map (·.1)))
    have h4 : cnt r (acc ++ (q.filter fun e => e.2.isEmpty).map (·.1)) =
        cnt r acc + cntE r (q.filter fun e => e.2.isEmpty) := by
      unfold cnt cntE; rw [List.count_append]
    rw [h4, h3]
    split <;> omega

theorem extractLoop_inv (q0 : List Entry) : ∀ fuel q acc, Inv q0 q acc → q.length < fuel →
    ∃ q', Inv q0 q' (extractLoop fuel q acc) ∧ ∀ e ∈ q', e.2 ≠ [] := by
  intro fuel
  induction fuel with
  | zero => intro q acc _ h; omega
  | succ fuel ih =>
    intro q acc hinv hlen
    unfold extractLoop
    simp only []
    split
    · rename_i hemp
      refine ⟨q, hinv, fun e he hn => ?_⟩
      rw [List.isEmpty_iff, List.filter_eq_nil_iff] at hemp
      exact hemp e he (by rw [hn]; rfl)
    · rename_i hne
      refine ih _ _ (inv_step hinv) ?_
      have h1 := editQueue_length_le (q.filter fun e => !e.2.isEmpty) (packageHashes ((q.filter fun e => e.2.isEmpty).map (·.1)))
      have h2 : (q.filter fun e => e.2.isEmpty).length + (q.filter fun e => !e.2.isEmpty).length = q.length := by
        clear hne h1 ih hinv hlen
        induction q with
        | nil => rfl
        | cons e q ih =>
          simp only [List.filter_cons]
          cases e.2.isEmpty <;> simp <;> omega
      have h3 : 0 < (q.filter fun e => e.2.isEmpty).length := by
        rw [List.length_pos_iff]
        intro h; rw [h] at hne; exact hne rfl
      omega

theorem extract_inv (q : List Entry) :
    ∃ q', Inv q q' (extractAccumulatables q) ∧ ∀ e ∈ q', e.2 ≠ [] := by
  refine extractLoop_inv q _ q [] ⟨?_, ?_, ?_, ?_⟩ (Nat.lt_succ_self _)
  · intro e he
    refine ⟨e, he, rfl, ?_⟩
    rw [eq_comm, List.filter_eq_self]; simp
  · intro e he
    right
    have : (e.2.filter fun h => !(([] : List Report).map (·.pkg)).contains h) = e.2 := by
      rw [List.filter_eq_self]; simp
    rw [this]; exact he
  · intro pre r post h
    simp at h
  · intro r; simp [cnt]

/-- Nothing schedulable is left behind: an entry whose dependencies all get scheduled is scheduled. -/
theorem extract_closed (q : List Entry) :
    Closed q (fun p => p ∈ (extractAccumulatables q).map (·.pkg)) := by
  obtain ⟨q', hinv, hstuck⟩ := extract_inv q
  intro e he hd
  rcases hinv.kept e he with h | h
  · exact h
  · exfalso
    refine hstuck _ h ?_
    have := (filter_isEmpty_iff (l := e.2) (A := (extractAccumulatables q).map (·.pkg))).2 hd
    exact List.isEmpty_iff.1 this

theorem extract_order (q : List Entry) (pre : List Report) (r : Report) (post : List Report)
    (h : extractAccumulatables q = pre ++ r :: post) :
    ∃ e ∈ q, e.1 = r ∧ ∀ d ∈ e.2, d ∈ pre.map (·.pkg) := by
  obtain ⟨q', hinv, _⟩ := extract_inv q
  exact hinv.order pre r post h

/-- Everything scheduled is in every closed set. -/
theorem extract_least (q : List Entry) (S : Nat → Prop) (hS : Closed q S) :
    ∀ r ∈ extractAccumulatables q, S r.pkg := by
  have key : ∀ n pre post, extractAccumulatables q = pre ++ post → pre.length = n → ∀ r ∈ pre, S r.pkg := by
    intro n
    induction n with
    | zero => intro pre post _ hl r hr; rw [List.length_eq_zero_iff.1 hl] at hr; cases hr
    | succ n ih =>
      intro pre post h hl
      have hne : pre ≠ [] := by intro hh; rw [hh] at hl; cases hl
      obtain ⟨pre', r, rfl⟩ : ∃ pre' r, pre = pre' ++ [r] :=
        ⟨pre.dropLast, pre.getLast hne, (List.dropLast_concat_getLast hne).symm⟩
      have hl' : pre'.length = n := by simpa using hl
      have h' : extractAccumulatables q = pre' ++ r :: post := by rw [h]; simp
      have hprev := ih pre' (r :: post) h' hl'
      obtain ⟨e, he, her, hd⟩ := extract_order q pre' r post h'
      intro x hx
      rcases List.mem_append.1 hx with hx | hx
      · exact hprev x hx
      · rw [List.mem_singleton] at hx
        subst hx
        rw [← her]
        refine hS e he fun d hdd => ?_
        obtain ⟨r', hr', rfl⟩ := List.mem_map.1 (hd d hdd)
        exact hprev r' hr'
  exact key _ _ [] (by simp) rfl

theorem extract_count (q : List Entry) (r : Report) : cnt r (extractAccumulatables q) ≤ cntE r q := by
  obtain ⟨q', hinv, _⟩ := extract_inv q
  have := hinv.count r
  omega

end Fastroll.Acc
