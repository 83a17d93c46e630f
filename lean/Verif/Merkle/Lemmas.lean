import Verif.Merkle.Spec
/-! Helper lemmas for the Merkle trees. -/
namespace Fastroll.Merkle

theorem node_nil (h) : node h [] = zeroHash := by unfold node; simp
theorem node_one (h) (x : Bytes) : node h [x] = x := by unfold node; simp
theorem node_two (h) (data : List Bytes) (hd : 2 ≤ data.length) :
    node h data = h (nodePrefix ++ node h (data.take (mid data.length)) ++
      node h (data.drop (mid data.length))) := by
  conv => lhs; unfold node
  rw [dif_neg (by omega), dif_neg (by omega)]

theorem trace_short (h) (data : List Bytes) (idx : Nat) (hd : data.length ≤ 1) :
    trace h data idx = [] := by unfold trace; simp [hd]
theorem trace_left (h) (data : List Bytes) (idx : Nat) (hd : 2 ≤ data.length)
    (hi : idx < mid data.length) :
    trace h data idx = node h (data.drop (mid data.length)) ::
      trace h (data.take (mid data.length)) idx := by
  conv => lhs; unfold trace
  rw [dif_neg (by omega)]; simp [splitAndSelect, indexOffset, hi]
theorem trace_right (h) (data : List Bytes) (idx : Nat) (hd : 2 ≤ data.length)
    (hi : ¬ idx < mid data.length) :
    trace h data idx = node h (data.take (mid data.length)) ::
      trace h (data.drop (mid data.length)) (idx - mid data.length) := by
  conv => lhs; unfold trace
  rw [dif_neg (by omega)]; simp [splitAndSelect, indexOffset, hi]

theorem node_length (h : Bytes → Bytes) (hh : ∀ b, (h b).length = 32) (data : List Bytes)
    (hd : ∀ d ∈ data, d.length = 32) : (node h data).length = 32 := by
  rcases Nat.lt_or_ge data.length 2 with h2 | h2
  · match data with
    | [] => simp [node_nil, zeroHash]
    | [x] => rw [node_one]; exact hd x (by simp)
    | _ :: _ :: _ => simp at h2; omega
  · rw [node_two _ _ h2]; exact hh _

theorem recompute_trace (h : Bytes → Bytes) : ∀ (n : Nat) (data : List Bytes), data.length = n →
    ∀ idx x, data[idx]? = some x → recompute h data.length idx (trace h data idx) x = node h data := by
  intro n
  induction n using Nat.strongRecOn with
  | ind n ih =>
    intro data hn idx x hx
    have hi := (List.getElem?_eq_some_iff.mp hx).1
    rcases Nat.lt_or_ge data.length 2 with h2 | h2
    · match data, hi, hx with
      | [], hi, _ => simp at hi
      | [y], hi, hx =>
        have : idx = 0 := by simpa using hi
        subst this
        simp at hx; subst hx
        rw [trace_short _ _ _ (by simp), node_one]; rfl
      | _ :: _ :: _, _, _ => simp at h2; omega
    · have hm : mid data.length < data.length ∧ 0 < mid data.length := by unfold mid; omega
      rw [node_two _ _ h2]
      by_cases hl : idx < mid data.length
      · rw [trace_left _ _ _ h2 hl, recompute, if_pos (by unfold mid at hl; exact hl)]
        have := ih (data.take (mid data.length)).length (by simp; omega) _ rfl idx x
          (by rw [List.getElem?_take_of_lt hl, hx])
        rw [List.length_take, Nat.min_eq_left (by omega)] at this
        unfold mid at this ⊢
        rw [this]
      · rw [trace_right _ _ _ h2 hl, recompute, if_neg (by unfold mid at hl; exact hl)]
        have := ih (data.drop (mid data.length)).length (by simp; omega) _ rfl (idx - mid data.length) x
          (by rw [List.getElem?_drop, show mid data.length + (idx - mid data.length) = idx by omega, hx])
        rw [List.length_drop,
          show data.length - mid data.length = data.length / 2 by unfold mid; omega] at this
        unfold mid at this ⊢
        rw [this]

/-- The strings hashed while computing `node`. -/
theorem trace_length_le (h : Bytes → Bytes) : ∀ (n : Nat) (data : List Bytes), data.length = n →
    ∀ idx k, data.length ≤ 2 ^ k → (trace h data idx).length ≤ k := by
  intro n
  induction n using Nat.strongRecOn with
  | ind n ih =>
    intro data hn idx k hk
    rcases Nat.lt_or_ge data.length 2 with h2 | h2
    · rw [trace_short _ _ _ (by omega)]; simp
    · cases k with
      | zero => simp at hk; omega
      | succ k =>
        have hp : 2 ^ (k + 1) = 2 * 2 ^ k := by rw [Nat.pow_succ]; omega
        by_cases hl : idx < mid data.length
        · rw [trace_left _ _ _ h2 hl]
          have := ih (data.take (mid data.length)).length (by simp [mid]; omega) _ rfl idx k
            (by simp [mid]; omega)
          simp; omega
        · rw [trace_right _ _ _ h2 hl]
          have := ih (data.drop (mid data.length)).length (by simp [mid]; omega) _ rfl
            (idx - mid data.length) k (by simp [mid]; omega)
          simp; omega

/-- Truncating the path in a perfect tree: the verifier recomputes the root from a
subtree value. -/
theorem recompute_page (h : Bytes → Bytes) (x : Nat) : ∀ (e : Nat) (data : List Bytes),
    data.length = 2 ^ (x + e) → ∀ page, page < 2 ^ e →
    (trace h data (2 ^ x * page)).length = x + e ∧
    recompute h data.length (2 ^ x * page) ((trace h data (2 ^ x * page)).take e)
      (node h ((data.drop (2 ^ x * page)).take (2 ^ x))) = node h data := by
  intro e
  induction e with
  | zero =>
    intro data hd page hp
    have : page = 0 := by simpa using hp
    subst this
    refine ⟨?_, ?_⟩
    · simp only [Nat.mul_zero, Nat.add_zero] at hd ⊢
      clear hp
      induction x generalizing data with
      | zero => rw [trace_short _ _ _ (by simpa using Nat.le_of_eq hd)]; rfl
      | succ x ih =>
        have hp : 2 ^ (x + 1) = 2 * 2 ^ x := by rw [Nat.pow_succ]; omega
        have h1 : 0 < 2 ^ x := Nat.two_pow_pos x
        rw [trace_left _ _ _ (by omega) (by unfold mid; omega), List.length_cons,
          ih (data.take (mid data.length)) (by simp [mid]; omega)]
    · simp only [List.take_zero, recompute, Nat.mul_zero, List.drop_zero]
      simp only [Nat.add_zero] at hd
      rw [← hd, List.take_length]
  | succ e ih =>
    intro data hd page hp
    have e1 : 2 ^ (x + (e + 1)) = 2 * 2 ^ (x + e) := by rw [← Nat.add_assoc, Nat.pow_succ]; omega
    have e2 : 2 ^ (e + 1) = 2 * 2 ^ e := by rw [Nat.pow_succ]; omega
    have e3 : 2 ^ (x + e) = 2 ^ x * 2 ^ e := Nat.pow_add ..
    have e4 : 0 < 2 ^ (x + e) := Nat.two_pow_pos _
    have hm : mid data.length = 2 ^ (x + e) := by unfold mid; omega
    have h2 : 2 ≤ data.length := by omega
    rw [node_two _ _ h2]
    have hx : 0 < 2 ^ x := Nat.two_pow_pos _
    by_cases hl : page < 2 ^ e
    · have hi : 2 ^ x * page < mid data.length := by
        rw [hm, e3]; exact Nat.mul_lt_mul_of_pos_left hl hx
      have hi' : 2 ^ x * page + 2 ^ x ≤ 2 ^ (x + e) := by
        rw [e3, ← Nat.mul_succ]; exact Nat.mul_le_mul_left _ hl
      obtain ⟨i1, i2⟩ := ih (data.take (mid data.length)) (by simp; omega) page hl
      rw [trace_left _ _ _ h2 hi]
      refine ⟨by simp [i1]; omega, ?_⟩
      rw [List.take_succ_cons, recompute, if_pos (by unfold mid at hi; exact hi)]
      rw [List.length_take, Nat.min_eq_left (by omega)] at i2
      rw [List.drop_take, List.take_take, Nat.min_eq_left (by omega)] at i2
      unfold mid at i2 ⊢
      rw [i2]
    · have hi : ¬ 2 ^ x * page < mid data.length := by
        rw [hm, e3]; exact Nat.not_lt.mpr (Nat.mul_le_mul_left _ (by omega))
      obtain ⟨i1, i2⟩ := ih (data.drop (mid data.length)) (by simp; omega) (page - 2 ^ e) (by omega)
      have hsub : 2 ^ x * page - mid data.length = 2 ^ x * (page - 2 ^ e) := by
        rw [hm, e3, Nat.mul_sub]
      rw [trace_right _ _ _ h2 hi, hsub]
      refine ⟨by simp [i1]; omega, ?_⟩
      rw [List.take_succ_cons, recompute, if_neg (by unfold mid at hi; exact hi)]
      rw [List.length_drop, List.drop_drop, ← hsub,
        show mid data.length + (2 ^ x * page - mid data.length) = 2 ^ x * page by omega,
        show data.length - mid data.length = data.length / 2 by omega] at i2
      rw [← hsub]
      unfold mid at i2 ⊢
      rw [i2]

theorem nextPow2_pow (n : Nat) : nextPow2 n = 2 ^ (nextPow2 n).log2 := by
  unfold nextPow2
  split
  · rfl
  · rw [Nat.log2_two_pow]

theorem le_nextPow2 (n : Nat) : n ≤ nextPow2 n := by
  unfold nextPow2
  split
  · assumption
  · have := @Nat.lt_log2_self (n - 1)
    omega

theorem nextPow2_lt (n : Nat) (h : 1 ≤ n) : nextPow2 n < 2 * n := by
  unfold nextPow2
  split
  · omega
  · have := Nat.log2_self_le (n := n - 1) (by omega)
    rw [Nat.pow_succ]; omega

theorem preprocess_length (h) (data : List Bytes) : (preprocess h data).length = nextPow2 data.length := by
  unfold preprocess
  cases data with
  | nil => simp [nextPow2]
  | cons a t =>
    have := le_nextPow2 (a :: t).length
    simp only [List.length_append, List.length_map, List.length_replicate]; omega

/-! ### Binding -/

theorem append_inj32 {a b c d : Bytes} (hl : a.length = c.length) (he : a ++ b = c ++ d) :
    a = c ∧ b = d := List.append_inj he hl

theorem nodeInput_inj {a b c d : Bytes} (hl : a.length = c.length)
    (he : nodePrefix ++ a ++ b = nodePrefix ++ c ++ d) : a = c ∧ b = d := by
  rw [List.append_assoc, List.append_assoc] at he
  exact List.append_inj (List.append_cancel_left he) hl

theorem recompute_length (h : Bytes → Bytes) (hh : ∀ b, (h b).length = 32) (n idx path leaf)
    (hl : leaf.length = 32) : (recompute h n idx path leaf).length = 32 := by
  cases path with
  | nil => exact hl
  | cons s path => unfold recompute; split <;> exact hh _

/-- Two accepted openings of the same position with paths of equal length either agree
or exhibit a hash collision among the strings the two verifications hash. -/
theorem openings_agree (h : Bytes → Bytes) (hh : ∀ b, (h b).length = 32) :
    ∀ (p q : List Bytes) (n idx : Nat) (a b : Bytes), p.length = q.length →
    a.length = 32 → b.length = 32 → (∀ s ∈ p, s.length = 32) → (∀ s ∈ q, s.length = 32) →
    recompute h n idx p a = recompute h n idx q b →
    (a = b ∧ p = q) ∨ ∃ x ∈ verifierInputs h n idx p a, ∃ y ∈ verifierInputs h n idx q b,
      x ≠ y ∧ h x = h y := by
  intro p
  induction p with
  | nil =>
    intro q n idx a b hpq _ _ _ _ he
    have : q = [] := List.length_eq_zero_iff.mp hpq.symm
    subst this
    exact .inl ⟨by simpa [recompute] using he, rfl⟩
  | cons s p ih =>
    intro q n idx a b hpq ha hb hp hq he
    cases q with
    | nil => simp at hpq
    | cons t q =>
      have hs := hp s (by simp)
      have ht := hq t (by simp)
      have hp' : ∀ s ∈ p, s.length = 32 := fun s hs => hp s (by simp [hs])
      have hq' : ∀ s ∈ q, s.length = 32 := fun s hs => hq s (by simp [hs])
      simp only [List.length_cons, Nat.add_right_cancel_iff] at hpq
      simp only [recompute, verifierInputs] at he ⊢
      by_cases hc : idx < (n + 1) / 2
      · simp only [hc, if_true] at he ⊢
        by_cases heq : nodePrefix ++ recompute h ((n + 1) / 2) idx p a ++ s =
            nodePrefix ++ recompute h ((n + 1) / 2) idx q b ++ t
        · obtain ⟨e1, e2⟩ := nodeInput_inj (by
            rw [recompute_length h hh _ _ _ _ ha, recompute_length h hh _ _ _ _ hb]) heq
          rcases ih q _ _ a b hpq ha hb hp' hq' e1 with ⟨r1, r2⟩ | ⟨x, hx, y, hy, hxy⟩
          · exact .inl ⟨r1, by rw [r2, e2]⟩
          · exact .inr ⟨x, List.mem_cons_of_mem _ hx, y, List.mem_cons_of_mem _ hy, hxy⟩
        · exact .inr ⟨_, List.mem_cons_self, _, List.mem_cons_self, heq, he⟩
      · simp only [hc, if_false] at he ⊢
        by_cases heq : nodePrefix ++ s ++ recompute h (n / 2) (idx - (n + 1) / 2) p a =
            nodePrefix ++ t ++ recompute h (n / 2) (idx - (n + 1) / 2) q b
        · obtain ⟨e1, e2⟩ := nodeInput_inj (by rw [hs, ht]) heq
          rcases ih q _ _ a b hpq ha hb hp' hq' e2 with ⟨r1, r2⟩ | ⟨x, hx, y, hy, hxy⟩
          · exact .inl ⟨r1, by rw [r2, e1]⟩
          · exact .inr ⟨x, List.mem_cons_of_mem _ hx, y, List.mem_cons_of_mem _ hy, hxy⟩
        · exact .inr ⟨_, List.mem_cons_self, _, List.mem_cons_self, heq, he⟩

theorem trace_items_length (h : Bytes → Bytes) (hh : ∀ b, (h b).length = 32) :
    ∀ (n : Nat) (data : List Bytes), data.length = n → (∀ d ∈ data, d.length = 32) →
    ∀ idx, ∀ s ∈ trace h data idx, s.length = 32 := by
  intro n
  induction n using Nat.strongRecOn with
  | ind n ih =>
    intro data hn hd idx s hs
    rcases Nat.lt_or_ge data.length 2 with h2 | h2
    · rw [trace_short _ _ _ (by omega)] at hs; simp at hs
    · by_cases hl : idx < mid data.length
      · rw [trace_left _ _ _ h2 hl] at hs
        rcases List.mem_cons.mp hs with rfl | hs
        · exact node_length h hh _ (fun d hm => hd d (List.mem_of_mem_drop hm))
        · exact ih _ (by simp [mid]; omega) _ rfl (fun d hm => hd d (List.mem_of_mem_take hm)) _ s hs
      · rw [trace_right _ _ _ h2 hl] at hs
        rcases List.mem_cons.mp hs with rfl | hs
        · exact node_length h hh _ (fun d hm => hd d (List.mem_of_mem_take hm))
        · exact ih _ (by simp [mid]; omega) _ rfl (fun d hm => hd d (List.mem_of_mem_drop hm)) _ s hs

/-! ### Mountain range -/

/-- `Rep i ps xs`: peaks `ps`, the first one of depth `i`, cover exactly the leaves `xs`. -/
inductive Rep (h : Bytes → Bytes) : Nat → List (Option Bytes) → List Bytes → Prop
  | nil (i) : Rep h i [] []
  | zero {i ps xs} : Rep h (i + 1) ps xs → ps ≠ [] → Rep h i (none :: ps) xs
  | one {i ps ys b} : Rep h (i + 1) ps ys → b.length = 2 ^ i →
      Rep h i (some (perfect h i b) :: ps) (ys ++ b)

theorem perfect_append (h : Bytes → Bytes) (i : Nat) (a b : List Bytes) (ha : a.length = 2 ^ i) :
    perfect h (i + 1) (a ++ b) = h (perfect h i a ++ perfect h i b) := by
  simp [perfect, ← ha]

theorem mmrAppend_ne_nil (h ps r) : mmrAppend h ps r ≠ [] := by
  cases ps with
  | nil => simp [mmrAppend]
  | cons p ps => cases p <;> simp [mmrAppend]

theorem rep_append (h : Bytes → Bytes) {i ps ys} (hr : Rep h i ps ys) :
    ∀ b, b.length = 2 ^ i → Rep h i (mmrAppend h ps (perfect h i b)) (ys ++ b) := by
  induction hr with
  | nil i =>
    intro b hb
    simpa [mmrAppend] using Rep.one (Rep.nil (i + 1)) hb
  | zero hr _ ih =>
    intro b hb
    exact Rep.one hr hb
  | @one i ps ys c hr hc ih =>
    intro b hb
    rw [mmrAppend, ← perfect_append h i c b hc, List.append_assoc]
    exact Rep.zero (ih (c ++ b) (by rw [List.length_append, hc, hb, Nat.pow_succ]; omega))
      (mmrAppend_ne_nil h _ _)

theorem rep_mmrOf (h : Bytes → Bytes) (xs ys : List Bytes) (ps) (hr : Rep h 0 ps ys) :
    Rep h 0 (xs.foldl (mmrAppend h) ps) (ys ++ xs) := by
  induction xs generalizing ps ys with
  | nil => simpa using hr
  | cons x xs ih =>
    have := ih (ys ++ [x]) (mmrAppend h ps x) (by
      have := rep_append h hr [x] (by simp)
      simpa [perfect] using this)
    simpa using this

theorem rep_facts (h : Bytes → Bytes) {i ps xs} (hr : Rep h i ps xs) :
    ∃ m, xs.length = 2 ^ i * m ∧ (ps.length = 0 ↔ m = 0) ∧ m < 2 ^ ps.length ∧
      (ps ≠ [] → 2 ^ (ps.length - 1) ≤ m) ∧
      ∀ j (hj : j < ps.length), ps[j] = if digit m j then
        some (perfect h (i + j) ((xs.drop (2 ^ i * runStart m j)).take (2 ^ (i + j)))) else none := by
  induction hr with
  | nil i => exact ⟨0, by simp, by simp, by simp, by simp, by simp⟩
  | @zero i ps xs hr hne ih =>
    obtain ⟨m, h1, h2, h3, h4, h5⟩ := ih
    have hpl : 0 < ps.length := List.length_pos_iff.mpr hne
    refine ⟨2 * m, ?_, ?_, ?_, ?_, ?_⟩
    · rw [h1, Nat.pow_succ, Nat.mul_assoc]
    · simp; omega
    · rw [List.length_cons, Nat.pow_succ]; omega
    · intro _
      have := h4 hne
      rw [List.length_cons, Nat.add_sub_cancel,
        show ps.length = ps.length - 1 + 1 by omega, Nat.pow_succ]; omega
    · intro j hj
      cases j with
      | zero => simp [digit]
      | succ j =>
        simp only [List.getElem_cons_succ]
        rw [h5 j (by simpa using hj)]
        have hd : digit (2 * m) (j + 1) = digit m j := by
          unfold digit; rw [Nat.pow_succ, Nat.mul_comm (2 ^ j) 2, Nat.mul_div_mul_left _ _ (by omega)]
        have hs : 2 ^ i * runStart (2 * m) (j + 1) = 2 ^ (i + 1) * runStart m j := by
          unfold runStart
          rw [Nat.pow_succ 2 (j + 1), Nat.mul_comm (2 ^ (j + 1)) 2, Nat.mul_div_mul_left _ _ (by omega),
            Nat.pow_succ 2 i]
          simp only [Nat.mul_assoc, Nat.mul_left_comm]
        rw [hd, hs, show i + 1 + j = i + (j + 1) by omega]
  | @one i ps ys b hr hb ih =>
    obtain ⟨m, h1, h2, h3, h4, h5⟩ := ih
    refine ⟨2 * m + 1, ?_, ?_, ?_, ?_, ?_⟩
    · rw [List.length_append, h1, hb, Nat.pow_succ, Nat.mul_add, Nat.mul_assoc, Nat.mul_one]
    · simp
    · rw [List.length_cons, Nat.pow_succ]; omega
    · intro _
      rw [List.length_cons, Nat.add_sub_cancel]
      by_cases hne : ps = []
      · subst hne; simp
      · have := h4 hne
        have hpl : 0 < ps.length := List.length_pos_iff.mpr hne
        rw [show ps.length = ps.length - 1 + 1 by omega, Nat.pow_succ]; omega
    · intro j hj
      cases j with
      | zero =>
        have hd : digit (2 * m + 1) 0 = true := by simp [digit]
        have hs : 2 ^ i * runStart (2 * m + 1) 0 = ys.length := by
          unfold runStart
          rw [h1, show (2 * m + 1) / 2 ^ (0 + 1) = m by omega, Nat.pow_succ 2 i, Nat.mul_assoc,
            Nat.mul_comm 2 m]
        rw [hd, hs, if_pos rfl]
        simp [← hb]
      | succ j =>
        simp only [List.getElem_cons_succ]
        rw [h5 j (by simpa using hj)]
        have hdiv : ∀ t, (2 * m + 1) / 2 ^ (t + 1) = m / 2 ^ t := by
          intro t
          rw [Nat.pow_succ, Nat.mul_comm (2 ^ t) 2, ← Nat.div_div_eq_div_mul]
          congr 1; omega
        have hd : digit (2 * m + 1) (j + 1) = digit m j := by unfold digit; rw [hdiv]
        have hs : 2 ^ i * runStart (2 * m + 1) (j + 1) = 2 ^ (i + 1) * runStart m j := by
          unfold runStart
          rw [hdiv, Nat.pow_succ 2 (j + 1), Nat.pow_succ 2 i, Nat.mul_assoc]
          congr 1
          rw [Nat.mul_comm (2 ^ (j + 1)) 2, Nat.mul_left_comm]
        rw [hd, hs, show i + 1 + j = i + (j + 1) by omega]
        cases hdj : digit m j with
        | false => simp
        | true =>
          -- the run lies inside ys
          have hle : 2 ^ (i + 1) * runStart m j + 2 ^ (i + (j + 1)) ≤ ys.length := by
            rw [h1, show i + (j + 1) = (i + 1) + j by omega, Nat.pow_add 2 (i + 1) j, ← Nat.mul_add]
            apply Nat.mul_le_mul_left
            unfold runStart
            simp only [digit, beq_iff_eq] at hdj
            have e1 := Nat.div_add_mod m (2 ^ j)
            have e2 := Nat.div_add_mod (m / 2 ^ j) 2
            rw [Nat.pow_succ, ← Nat.div_div_eq_div_mul]
            have e3 : m / 2 ^ j / 2 * (2 ^ j * 2) = 2 ^ j * (2 * (m / 2 ^ j / 2)) := by
              simp only [Nat.mul_comm, Nat.mul_left_comm]
            rw [e3, ← Nat.mul_succ]
            have : 2 ^ j * (m / 2 ^ j) ≤ m := Nat.mul_div_le m _
            refine Nat.le_trans (Nat.mul_le_mul_left _ ?_) this
            omega
          simp only [if_true]
          have hd0 := Nat.le_trans (Nat.le_add_right _ _) hle
          rw [List.drop_append_of_le_length hd0,
            List.take_append_of_le_length (by rw [List.length_drop]; exact Nat.le_sub_of_add_le' hle)]

theorem mmrAppendRec_eq (h : Bytes → Bytes) (pre ps : List (Option Bytes)) (root : Bytes) :
    mmrAppendRec h (pre ++ ps) root pre.length = pre ++ mmrAppend h ps root := by
  induction ps generalizing pre root with
  | nil => unfold mmrAppendRec; simp [mmrAppend]
  | cons p ps ih =>
    unfold mmrAppendRec
    rw [dif_neg (by simp)]
    cases p with
    | none => simp [mmrAppend]
    | some old =>
      have hge : (pre ++ some old :: ps)[pre.length]'(by simp) = some old := by simp
      rw [hge]
      simp only [mmrAppend]
      have := ih (pre ++ [none]) (h (old ++ root))
      simp only [List.length_append, List.length_cons, List.length_nil, List.append_assoc,
        List.singleton_append, Nat.zero_add] at this
      have hset : (pre ++ some old :: ps).set pre.length none = pre ++ none :: ps := by simp
      rw [hset, this]

end Fastroll.Merkle
