import Verif.Acc.Lemmas3
/-! Lemmas on gas. -/
namespace Fastroll.Acc

theorem checkedSum_eq : ∀ (xs : List Nat) (acc : Nat), acc < U64 →
    checkedSum acc xs = if acc + xs.sum < U64 then some (acc + xs.sum) else none := by
  intro xs
  induction xs with
  | nil => intro acc h; simp [checkedSum, h]
  | cons x xs ih =>
    intro acc h
    unfold checkedSum checkedAdd
    rw [List.sum_cons]
    by_cases hx : acc + x < U64
    · rw [if_pos hx]
      simp only []
      rw [ih _ hx, Nat.add_assoc]
    · rw [if_neg hx]
      simp only []
      rw [if_neg (by omega)]

theorem U64_pos : 0 < U64 := by decide

theorem checkedSum_some {xs : List Nat} {v : Nat} (h : checkedSum 0 xs = some v) : v = xs.sum ∧ v < U64 := by
  rw [checkedSum_eq _ _ U64_pos, Nat.zero_add] at h
  split at h
  · cases h; exact ⟨rfl, by assumption⟩
  · cases h

theorem checkedSum_ok {xs : List Nat} (h : xs.sum < U64) : checkedSum 0 xs = some xs.sum := by
  rw [checkedSum_eq _ _ U64_pos, Nat.zero_add, if_pos h]

theorem checkedAdd_some {a b v : Nat} (h : checkedAdd a b = some v) : v = a + b ∧ v < U64 := by
  unfold checkedAdd at h
  split at h
  · cases h; exact ⟨rfl, by assumption⟩
  · cases h

theorem checkedAdd_ok {a b : Nat} (h : a + b < U64) : checkedAdd a b = some (a + b) := by
  unfold checkedAdd; rw [if_pos h]

theorem totalGas_cons (r : Report) (rs : List Report) :
    totalGas (r :: rs) = (r.digests.map (·.gas)).sum + totalGas rs := by
  unfold totalGas; rw [List.map_cons, List.sum_cons]

theorem maxLoop_spec (limit : Nat) (hlim : limit < U64) : ∀ rs counter n, counter ≤ limit →
    ∃ i, maxLoop limit rs counter n = n + i ∧ IsMaxPrefix rs (limit - counter) i := by
  intro rs
  induction rs with
  | nil =>
    intro counter n _
    refine ⟨0, rfl, Nat.le_refl _, Nat.zero_le _, ?_⟩
    intro j hj _; simpa using hj
  | cons r rs ih =>
    intro counter n hc
    have stop : limit - counter < (r.digests.map (·.gas)).sum → IsMaxPrefix (r :: rs) (limit - counter) 0 := by
      intro h
      refine ⟨Nat.zero_le _, Nat.zero_le _, ?_⟩
      intro j hj hg
      cases j with
      | zero => exact Nat.le_refl _
      | succ j =>
        rw [List.take_succ_cons, totalGas_cons] at hg
        omega
    unfold maxLoop
    rw [checkedSum_eq _ _ U64_pos, Nat.zero_add]
    by_cases h1 : (r.digests.map (·.gas)).sum < U64
    · rw [if_pos h1]
      simp only []
      by_cases h2 : counter + (r.digests.map (·.gas)).sum < U64
      · rw [checkedAdd_ok h2]
        simp only []
        split
        · exact ⟨0, rfl, stop (by omega)⟩
        · rename_i h3
          obtain ⟨i, hi, hm⟩ := ih (counter + (r.digests.map (·.gas)).sum) (n + 1) (by omega)
          refine ⟨i + 1, by rw [hi]; omega, ?_, ?_, ?_⟩
          · have := hm.1; simp only [List.length_cons]; omega
          · rw [List.take_succ_cons, totalGas_cons]
            have := hm.2.1
            omega
          · intro j hj hg
            cases j with
            | zero => omega
            | succ j =>
              rw [List.take_succ_cons, totalGas_cons] at hg
              have := hm.2.2 j (by simpa using hj) (by omega)
              omega
      · have hn : checkedAdd counter (r.digests.map (·.gas)).sum = none := by unfold checkedAdd; rw [if_neg h2]
        rw [hn]
        exact ⟨0, rfl, stop (by omega)⟩
    · rw [if_neg h1]
      exact ⟨0, rfl, stop (by omega)⟩

theorem maxProcessable_spec (rs : List Report) (limit : Nat) (h : limit < U64) :
    IsMaxPrefix rs limit (maxProcessable rs limit) := by
  obtain ⟨i, hi, hm⟩ := maxLoop_spec limit h rs 0 0 (Nat.zero_le _)
  unfold maxProcessable
  rw [hi, Nat.zero_add]
  simpa using hm

/-! ### Sets of services -/

theorem setInsert_mem {x y : Nat} {l : List Nat} : y ∈ setInsert x l ↔ y = x ∨ y ∈ l := by
  induction l with
  | nil => simp [setInsert]
  | cons a l ih =>
    unfold setInsert
    split
    · simp
    · split
      · rename_i h; subst h; simp
      · simp only [List.mem_cons, ih]
        constructor
        · rintro (h | h | h) <;> simp [h]
        · rintro (h | h | h) <;> simp [h]

theorem setInsert_sorted {x : Nat} {l : List Nat} (h : l.Pairwise (· < ·)) : (setInsert x l).Pairwise (· < ·) := by
  induction l with
  | nil => simp [setInsert]
  | cons a l ih =>
    obtain ⟨h1, h2⟩ := List.pairwise_cons.1 h
    unfold setInsert
    split
    · rename_i hlt
      refine List.pairwise_cons.2 ⟨?_, h⟩
      intro y hy
      rcases List.mem_cons.1 hy with rfl | hy
      · exact hlt
      · exact Nat.lt_trans hlt (h1 y hy)
    · split
      · exact h
      · refine List.pairwise_cons.2 ⟨?_, ih h2⟩
        intro y hy
        rcases setInsert_mem.1 hy with rfl | hy
        · omega
        · exact h1 y hy

theorem toSet_sorted (xs : List Nat) : (toSet xs).Pairwise (· < ·) := by
  induction xs with
  | nil => exact List.Pairwise.nil
  | cons x xs ih => exact setInsert_sorted ih

theorem toSet_mem {xs : List Nat} {y : Nat} : y ∈ toSet xs ↔ y ∈ xs := by
  induction xs with
  | nil => simp [toSet]
  | cons x xs ih =>
    show y ∈ setInsert x (toSet xs) ↔ _
    rw [setInsert_mem, ih, List.mem_cons]

theorem toSet_nodup (xs : List Nat) : (toSet xs).Nodup :=
  (toSet_sorted xs).imp (fun h => Nat.ne_of_lt h)

/-- Splitting a sum by service never counts an item twice. -/
theorem sum_by_key {α : Type} (key val : α → Nat) (xs : List α) : ∀ S : List Nat, S.Nodup →
    (S.map fun s => ((xs.filter fun x => key x == s).map val).sum).sum ≤ (xs.map val).sum := by
  intro S hS
  induction xs with
  | nil => 
    have : (S.map fun s => (((([] : List α).filter fun x => key x == s)).map val).sum).sum = 0 := by
      clear hS
      induction S with
      | nil => rfl
      | cons s S ih => rw [List.map_cons, List.sum_cons, ih]; rfl
    rw [this]; exact Nat.zero_le _
  | cons x xs ih =>
    have hstep : ∀ S : List Nat, S.Nodup →
        (S.map fun s => (((x :: xs).filter fun x => key x == s).map val).sum).sum =
          (if key x ∈ S then val x else 0) + (S.map fun s => ((xs.filter fun x => key x == s).map val).sum).sum := by
      intro S hS
      induction S with
      | nil => simp
      | cons s S ihS =>
        obtain ⟨hs, hS'⟩ := List.nodup_cons.1 hS
        rw [List.map_cons, List.sum_cons, List.map_cons, List.sum_cons, ihS hS', List.filter_cons]
        by_cases hk : key x = s
        · rw [if_pos (by simp [hk]), List.map_cons, List.sum_cons, if_neg (by rw [hk]; exact hs),
            if_pos (by simp [hk])]
          omega
        · rw [if_neg (by simp [hk])]
          by_cases hm : key x ∈ S
          · rw [if_pos hm, if_pos (List.mem_cons_of_mem _ hm)]; omega
          · rw [if_neg hm, if_neg (by simp [hk, hm])]; omega
    rw [hstep S hS, List.map_cons, List.sum_cons]
    split <;> omega

theorem mapGet_le (m : List (Nat × Nat)) (k : Nat) : mapGet m k ≤ ((m.filter fun p => p.1 == k).map (·.2)).sum := by
  unfold mapGet
  induction m with
  | nil => simp
  | cons p m ih =>
    rw [List.find?_cons, List.filter_cons]
    cases hp : p.1 == k
    · simpa using ih
    · simp

theorem digests_sum (reports : List Report) : ((reports.flatMap (·.digests)).map (·.gas)).sum = totalGas reports := by
  induction reports with
  | nil => rfl
  | cons r rs ih => rw [List.flatMap_cons, List.map_append, List.sum_append, ih, totalGas_cons]

/-- The limit a service gets. -/
def limitOf (transfers : List Transfer) (reports : List Report) (always : List (Nat × Nat)) (svc : Nat) : Nat :=
  mapGet always svc + (((reports.flatMap (·.digests)).filter fun d => d.svc == svc).map (·.gas)).sum +
    ((transfers.filter fun t => t.dst == svc).map (·.gas)).sum

theorem serviceGas_some {transfers : List Transfer} {reports : List Report} {always : List (Nat × Nat)} {svc v : Nat}
    (h : serviceGas transfers reports always svc = some v) : v = limitOf transfers reports always svc := by
  unfold serviceGas at h
  split at h
  · cases h
  · rename_i g1 h1
    split at h
    · cases h
    · rename_i g2 h2
      split at h
      · cases h
      · rename_i g3 h3
        rw [(checkedAdd_some h).1, (checkedAdd_some h2).1, (checkedSum_some h1).1, (checkedSum_some h3).1]
        rfl

theorem serviceGas_ok {transfers : List Transfer} {reports : List Report} {always : List (Nat × Nat)} {svc : Nat}
    (h : limitOf transfers reports always svc < U64) :
    serviceGas transfers reports always svc = some (limitOf transfers reports always svc) := by
  unfold serviceGas
  unfold limitOf at h
  rw [checkedSum_ok (by omega)]
  simp only []
  rw [checkedAdd_ok (by omega)]
  simp only []
  rw [checkedSum_ok (by omega)]
  simp only []
  rw [checkedAdd_ok (by omega)]
  rfl

theorem sum_add_map {α : Type} (f g : α → Nat) (S : List α) :
    (S.map fun s => f s + g s).sum = (S.map f).sum + (S.map g).sum := by
  induction S with
  | nil => rfl
  | cons s S ih => simp only [List.map_cons, List.sum_cons]; omega

theorem sum_le_map {α : Type} (f g : α → Nat) (S : List α) (h : ∀ s, f s ≤ g s) : (S.map f).sum ≤ (S.map g).sum := by
  induction S with
  | nil => exact Nat.le_refl _
  | cons s S ih => simp only [List.map_cons, List.sum_cons]; have := h s; omega

theorem limits_sum (transfers : List Transfer) (reports : List Report) (always : List (Nat × Nat)) (S : List Nat) (hS : S.Nodup) :
    (S.map (limitOf transfers reports always)).sum ≤
      (always.map (·.2)).sum + totalGas reports + (transfers.map (·.gas)).sum := by
  have h1 : (S.map (mapGet always)).sum ≤ (always.map (·.2)).sum :=
    Nat.le_trans (sum_le_map _ _ S (mapGet_le always)) (sum_by_key (fun p : Nat × Nat => p.1) (·.2) always S hS)
  have h2 := sum_by_key (fun d : Digest => d.svc) (·.gas) (reports.flatMap (·.digests)) S hS
  have h3 := sum_by_key (fun t : Transfer => t.dst) (·.gas) transfers S hS
  rw [digests_sum] at h2
  have : (S.map (limitOf transfers reports always)).sum = (S.map (mapGet always)).sum +
      (S.map fun s => (((reports.flatMap (·.digests)).filter fun d => d.svc == s).map (·.gas)).sum).sum +
      (S.map fun s => ((transfers.filter fun t => t.dst == s).map (·.gas)).sum).sum := by
    rw [← sum_add_map, ← sum_add_map]
    rfl
  omega

/-- What is assumed of running a service: it uses at most its limit, and has paid for the transfers it
leaves behind, ten units and the transferred gas each. -/
def ExecOk {σ : Type} (exec : Exec σ) : Prop :=
  ∀ s svc g ts rs r, exec s svc g ts rs = some r →
    r.used ≤ g ∧ (r.transfers.map (·.gas)).sum + 10 * r.transfers.length ≤ r.used

theorem parallelLoop_spec {σ : Type} {exec : Exec σ} (hex : ExecOk exec) (s : σ) (transfers : List Transfer)
    (reports : List Report) (always : List (Nat × Nat)) (metered : List Nat) : ∀ S gas new gas' new',
    parallelLoop exec s transfers reports always metered S gas new = some (gas', new') →
    (gas'.map (·.2)).sum ≤ (gas.map (·.2)).sum + (S.map (limitOf transfers reports always)).sum ∧
    (gas.map (·.2)).sum + (new'.map (·.gas)).sum + 10 * new'.length ≤
      (gas'.map (·.2)).sum + (new.map (·.gas)).sum + 10 * new.length := by
  intro S
  induction S with
  | nil => intro gas new gas' new' h; cases h; simp
  | cons svc S ih =>
    intro gas new gas' new' h
    unfold parallelLoop at h
    rw [List.map_cons, List.sum_cons]
    split at h
    · cases h
    · rename_i limit hl
      have hlim := serviceGas_some hl
      split at h
      · have := ih _ _ _ _ h; omega
      · rename_i r hr
        obtain ⟨hu, ht⟩ := hex _ _ _ _ _ _ hr
        split at h
        · have := ih _ _ _ _ h
          simp only [List.map_append, List.sum_append, List.map_cons, List.map_nil, List.sum_cons, List.sum_nil,
            List.length_append] at this
          omega
        · have := ih _ _ _ _ h; omega

theorem parallelLoop_ok {σ : Type} (exec : Exec σ) (s : σ) (transfers : List Transfer)
    (reports : List Report) (always : List (Nat × Nat)) (metered : List Nat) : ∀ S gas new,
    (∀ svc ∈ S, limitOf transfers reports always svc < U64) →
    ∃ r, parallelLoop exec s transfers reports always metered S gas new = some r := by
  intro S
  induction S with
  | nil => intro gas new _; exact ⟨_, rfl⟩
  | cons svc S ih =>
    intro gas new h
    have ih' := fun gas new => ih gas new (fun x hx => h x (List.mem_cons_of_mem _ hx))
    unfold parallelLoop
    rw [serviceGas_ok (h svc (List.mem_cons_self ..))]
    simp only []
    split
    · exact ih' _ _
    · split
      · exact ih' _ _
      · exact ih' _ _

theorem accumulateParallel_spec {σ : Type} {exec : Exec σ} (hex : ExecOk exec) {s : σ} {priv : List Nat} {transfers : List Transfer}
    {reports : List Report} {always : List (Nat × Nat)} {gas : List (Nat × Nat)} {new : List Transfer}
    (h : accumulateParallel exec s priv transfers reports always = some (gas, new)) :
    (gas.map (·.2)).sum ≤ (always.map (·.2)).sum + totalGas reports + (transfers.map (·.gas)).sum ∧
    (new.map (·.gas)).sum + 10 * new.length ≤ (gas.map (·.2)).sum := by
  unfold accumulateParallel at h
  simp only [] at h
  have h1 := parallelLoop_spec hex s transfers reports always _ _ _ _ _ _ h
  have h2 := limits_sum transfers reports always _ (toSet_nodup (toSet ((reports.flatMap (·.digests)).map (·.svc) ++ transfers.map (·.dst) ++ always.map (·.1)) ++ priv))
  simp only [List.map_nil, List.sum_nil, List.length_nil] at h1
  omega

theorem limitOf_le (transfers : List Transfer) (reports : List Report) (always : List (Nat × Nat)) (svc : Nat) :
    limitOf transfers reports always svc ≤ (always.map (·.2)).sum + totalGas reports + (transfers.map (·.gas)).sum := by
  have := limits_sum transfers reports always [svc] (by simp)
  simpa using this

end Fastroll.Acc
