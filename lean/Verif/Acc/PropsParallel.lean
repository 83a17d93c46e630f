import Verif.Acc.Props

/-
What one round of accumulation runs: which services, with how much gas and which transfers.
-/
namespace Fastroll.Acc

/-- The transfers of a round that go to a service. -/
def sentTo (transfers : List Transfer) (v : Nat) : List Transfer :=
  transfers.filter fun t => decide (t.dst = v)

/-- All the gas a round has for a service: what it is always given, what its digests ask for and what
the transfers to it carry. -/
def gasFor (transfers : List Transfer) (reports : List Report) (always : List (Nat × Nat)) (v : Nat) : Nat :=
  ((always.filter fun p => decide (p.1 = v)).map Prod.snd).sum +
    (reports.map fun r => ((r.digests.filter fun d => decide (d.svc = v)).map Digest.gas).sum).sum +
    ((sentTo transfers v).map Transfer.gas).sum

/-- The round has work for a service. -/
def Touched (transfers : List Transfer) (reports : List Report) (always : List (Nat × Nat)) (v : Nat) : Prop :=
  (∃ r ∈ reports, ∃ d ∈ r.digests, d.svc = v) ∨ (∃ t ∈ transfers, t.dst = v) ∨ ∃ p ∈ always, p.1 = v

theorem mapGet_sum : ∀ (m : List (Nat × Nat)) (v : Nat), (m.map Prod.fst).Nodup →
    mapGet m v = ((m.filter fun p => decide (p.1 = v)).map Prod.snd).sum
  | [], _, _ => rfl
  | p :: m, v, h => by
    rw [List.map_cons, List.nodup_cons] at h
    by_cases hp : p.1 = v
    · have hn : m.filter (fun q => decide (q.1 = v)) = [] := by
        rw [List.filter_eq_nil_iff]
        intro q hq hqv
        exact h.1 (List.mem_map.2 ⟨q, hq, (of_decide_eq_true hqv).trans hp.symm⟩)
      rw [List.filter_cons_of_pos (by simp [hp]), hn]
      simp [mapGet, List.find?_cons, hp]
    · rw [List.filter_cons_of_neg (by simp [hp]), ← mapGet_sum m v h.2]
      have : (p.1 == v) = false := by simp [hp]
      simp [mapGet, List.find?_cons, this]

theorem digests_for (v : Nat) : ∀ reports : List Report,
    (((reports.flatMap (·.digests)).filter fun d => d.svc == v).map (·.gas)).sum =
      (reports.map fun r => ((r.digests.filter fun d => decide (d.svc = v)).map Digest.gas).sum).sum
  | [] => rfl
  | r :: rs => by
    rw [List.flatMap_cons, List.filter_append, List.map_append, List.sum_append, digests_for v rs,
      List.map_cons, List.sum_cons]
    rfl

theorem gasFor_eq (transfers : List Transfer) (reports : List Report) (always : List (Nat × Nat)) (v : Nat)
    (h : (always.map Prod.fst).Nodup) :
    limitOf transfers reports always v = gasFor transfers reports always v := by
  unfold limitOf gasFor
  rw [mapGet_sum always v h, digests_for]
  rfl

theorem parallelLoop_runs {σ : Type} (exec : Exec σ) (s : σ) (transfers : List Transfer)
    (reports : List Report) (always : List (Nat × Nat)) (metered : List Nat) : ∀ S gas new gas' new',
    parallelLoop exec s transfers reports always metered S gas new = some (gas', new') →
    S.Pairwise (· < ·) →
    ∃ L : List (Nat × SvcResult), (L.map Prod.fst).Pairwise (· < ·) ∧
      (∀ v r, (v, r) ∈ L ↔ v ∈ S ∧ v ∈ metered ∧
        exec s v (limitOf transfers reports always v) (sentTo transfers v) reports = some r) ∧
      gas' = gas ++ L.map (fun p => (p.1, p.2.used)) ∧ new' = new ++ L.flatMap (fun p => p.2.transfers) := by
  intro S
  induction S with
  | nil =>
    intro gas new gas' new' h _
    cases h
    exact ⟨[], by simp⟩
  | cons svc S ih =>
    intro gas new gas' new' h hs
    rw [List.pairwise_cons] at hs
    have hf : (transfers.filter fun t => t.dst == svc) = sentTo transfers svc := rfl
    unfold parallelLoop at h
    split at h
    · cases h
    · rename_i limit hl
      have hlim := serviceGas_some hl
      rw [hf, hlim] at h
      split at h
      · rename_i hr
        obtain ⟨L, h1, h2, h3, h4⟩ := ih _ _ _ _ h hs.2
        refine ⟨L, h1, fun v r => ?_, h3, h4⟩
        rw [h2, List.mem_cons]
        constructor
        · rintro ⟨a, b, c⟩
          exact ⟨.inr a, b, c⟩
        · rintro ⟨rfl | a, b, c⟩
          · rw [hr] at c; cases c
          · exact ⟨a, b, c⟩
      · rename_i r0 hr
        split at h
        · rename_i hm
          obtain ⟨L, h1, h2, h3, h4⟩ := ih _ _ _ _ h hs.2
          refine ⟨(svc, r0) :: L, ?_, fun v r => ?_, ?_, ?_⟩
          · rw [List.map_cons, List.pairwise_cons]
            refine ⟨fun v hv => ?_, h1⟩
            obtain ⟨⟨v', r'⟩, hp, rfl⟩ := List.mem_map.1 hv
            exact hs.1 _ ((h2 _ _).1 hp).1
          · rw [List.mem_cons, h2, List.mem_cons]
            constructor
            · rintro (e | ⟨a, b, c⟩)
              · injection e with e1 e2
                subst e1 e2
                exact ⟨.inl rfl, by simpa using hm, hr⟩
              · exact ⟨.inr a, b, c⟩
            · rintro ⟨rfl | a, b, c⟩
              · rw [hr] at c; cases c; exact .inl rfl
              · exact .inr ⟨a, b, c⟩
          · rw [h3]; simp
          · rw [h4]; simp
        · rename_i hm
          obtain ⟨L, h1, h2, h3, h4⟩ := ih _ _ _ _ h hs.2
          refine ⟨L, h1, fun v r => ?_, h3, h4⟩
          rw [h2, List.mem_cons]
          constructor
          · rintro ⟨a, b, c⟩
            exact ⟨.inr a, b, c⟩
          · rintro ⟨rfl | a, b, c⟩
            · exact absurd (by simpa using b) hm
            · exact ⟨a, b, c⟩

theorem parallelLoop_none {σ : Type} (exec : Exec σ) (s : σ) (transfers : List Transfer)
    (reports : List Report) (always : List (Nat × Nat)) (metered : List Nat) : ∀ S gas new,
    parallelLoop exec s transfers reports always metered S gas new = none →
    ∃ v ∈ S, U64 ≤ limitOf transfers reports always v := by
  intro S gas new h
  by_cases hall : ∀ v ∈ S, limitOf transfers reports always v < U64
  · obtain ⟨r, hr⟩ := parallelLoop_ok exec s transfers reports always metered S gas new hall
    rw [hr] at h; cases h
  · simp only [Classical.not_forall, Nat.not_lt] at hall
    obtain ⟨v, hv, hl⟩ := hall
    exact ⟨v, hv, hl⟩

theorem serviceGas_lt {transfers : List Transfer} {reports : List Report} {always : List (Nat × Nat)} {svc v : Nat}
    (h : serviceGas transfers reports always svc = some v) : v < U64 := by
  unfold serviceGas at h
  split at h
  · cases h
  · split at h
    · cases h
    · split at h
      · cases h
      · exact (checkedAdd_some h).1 ▸ (checkedAdd_some h).2

theorem parallelLoop_some {σ : Type} (exec : Exec σ) (s : σ) (transfers : List Transfer)
    (reports : List Report) (always : List (Nat × Nat)) (metered : List Nat) : ∀ S gas new r,
    parallelLoop exec s transfers reports always metered S gas new = some r →
    ∀ v ∈ S, limitOf transfers reports always v < U64 := by
  intro S
  induction S with
  | nil => intro gas new r _ v hv; cases hv
  | cons svc S ih =>
    intro gas new r h
    unfold parallelLoop at h
    split at h
    · cases h
    · rename_i limit hl
      have hlt := serviceGas_lt hl
      rw [serviceGas_some hl] at hlt
      have key : ∀ v ∈ S, limitOf transfers reports always v < U64 := by
        split at h
        · exact ih _ _ _ h
        · split at h
          · exact ih _ _ _ h
          · exact ih _ _ _ h
      intro v hv
      rcases List.mem_cons.1 hv with rfl | hv
      · exact hlt
      · exact key v hv

theorem touched_iff (transfers : List Transfer) (reports : List Report) (always : List (Nat × Nat)) (v : Nat) :
    v ∈ toSet ((reports.flatMap (·.digests)).map (·.svc) ++ transfers.map (·.dst) ++ always.map (·.1)) ↔
      Touched transfers reports always v := by
  rw [toSet_mem]
  simp only [List.mem_append, List.mem_map, List.mem_flatMap, Touched]
  constructor
  · rintro ((⟨d, ⟨r, hr, hd⟩, e⟩ | x) | x)
    · exact .inl ⟨r, hr, d, hd, e⟩
    · exact .inr (.inl x)
    · exact .inr (.inr x)
  · rintro (⟨r, hr, d, hd, e⟩ | x | x)
    · exact .inl (.inl ⟨d, ⟨r, hr, hd⟩, e⟩)
    · exact .inl (.inr x)
    · exact .inr x

/-- **C15.** A round runs every service it has work for once, with all the gas there is for it and
exactly the transfers sent to it, in their order. The gas used and the new transfers are what those
runs return, in the order of the services' numbers; nothing is reported for other services. -/
theorem C15_parallel {σ : Type} (exec : Exec σ) (s : σ) (priv : List Nat) (transfers : List Transfer)
    (reports : List Report) (always : List (Nat × Nat)) (hal : (always.map Prod.fst).Nodup)
    (gas : List (Nat × Nat)) (new : List Transfer)
    (h : accumulateParallel exec s priv transfers reports always = some (gas, new)) :
    ∃ L : List (Nat × SvcResult), (L.map Prod.fst).Pairwise (· < ·) ∧
      (∀ v r, (v, r) ∈ L ↔ Touched transfers reports always v ∧
        exec s v (gasFor transfers reports always v) (sentTo transfers v) reports = some r) ∧
      gas = L.map (fun p => (p.1, p.2.used)) ∧ new = L.flatMap (fun p => p.2.transfers) := by
  obtain ⟨L, h1, h2, h3, h4⟩ := parallelLoop_runs exec s transfers reports always _ _ _ _ _ _ h (toSet_sorted _)
  refine ⟨L, h1, fun v r => ?_, by simpa using h3, by simpa using h4⟩
  have ht := touched_iff transfers reports always v
  rw [h2, gasFor_eq _ _ _ _ hal, toSet_mem, List.mem_append, ht]
  constructor
  · rintro ⟨_, b, c⟩; exact ⟨b, c⟩
  · rintro ⟨b, c⟩; exact ⟨.inl b, b, c⟩

/-- A service that uses up its gas but for what it sends on to service 9. -/
def sender : Exec Unit := fun _ svc gas ts _ => some ⟨gas, ts.map fun t => ⟨svc, 9, t.amount, 1⟩⟩

example : accumulateParallel sender () [4] [⟨1, 5, 7, 20⟩, ⟨1, 6, 8, 30⟩, ⟨2, 5, 9, 40⟩] [rep 1 [] [100]] [(6, 3)] =
    some ([(1, 100), (5, 60), (6, 33)], [⟨5, 9, 7, 1⟩, ⟨5, 9, 9, 1⟩, ⟨6, 9, 8, 1⟩]) := by decide

/-- **C15.** A round is refused exactly when the gas for a service it runs does not fit 64 bits. -/
theorem C15_parallel_refused {σ : Type} (exec : Exec σ) (s : σ) (priv : List Nat) (transfers : List Transfer)
    (reports : List Report) (always : List (Nat × Nat)) (hal : (always.map Prod.fst).Nodup) :
    accumulateParallel exec s priv transfers reports always = none ↔
      ∃ v, (Touched transfers reports always v ∨ v ∈ priv) ∧ 2 ^ 64 ≤ gasFor transfers reports always v := by
  constructor
  · intro h
    obtain ⟨v, hv, hl⟩ := parallelLoop_none _ _ _ _ _ _ _ _ _ h
    rw [toSet_mem, List.mem_append, touched_iff] at hv
    rw [gasFor_eq _ _ _ _ hal] at hl
    exact ⟨v, hv, hl⟩
  · rintro ⟨v, hv, hl⟩
    cases h : accumulateParallel exec s priv transfers reports always with
    | none => rfl
    | some r =>
      have := parallelLoop_some _ _ _ _ _ _ _ _ _ _ h v
        (by rw [toSet_mem, List.mem_append, touched_iff]; exact hv)
      rw [gasFor_eq _ _ _ _ hal] at this
      exact absurd this (Nat.not_lt.2 hl)

example : accumulateParallel sender () [] [⟨1, 5, 7, 2 ^ 63⟩, ⟨2, 5, 9, 2 ^ 63⟩] [] [] = none ∧
    (accumulateParallel sender () [] [⟨1, 5, 7, 2 ^ 63⟩, ⟨2, 6, 9, 2 ^ 63⟩] [] []).isSome = true := by decide

end Fastroll.Acc
