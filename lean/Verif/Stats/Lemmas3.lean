import Verif.Stats.Lemmas2

/-! # Lemmas on the statistics of services and of accumulation. -/
namespace Fastroll.Stats

/-- Keys strictly ascending. -/
def Sorted (m : List (Nat × SvcEntry)) : Prop := m.Pairwise (fun a b => a.1 < b.1)

theorem upd_keys (m : List (Nat × SvcEntry)) (id : Nat) (f : SvcEntry → SvcEntry) (p : Nat × SvcEntry)
    (hp : p ∈ upd m id f) : p.1 = id ∨ ∃ q ∈ m, q.1 = p.1 := by
  induction m with
  | nil => simp [upd] at hp; left; rw [hp]
  | cons a m ih =>
    obtain ⟨k, e⟩ := a
    simp only [upd] at hp
    split at hp
    · rename_i h
      simp only [List.mem_cons] at hp
      rcases hp with rfl | hp
      · left; exact h.symm
      · right; exact ⟨p, by simp [hp], rfl⟩
    · split at hp
      · simp only [List.mem_cons] at hp
        rcases hp with rfl | rfl | hp
        · left; rfl
        · right; exact ⟨(k, e), by simp, rfl⟩
        · right; exact ⟨p, by simp [hp], rfl⟩
      · simp only [List.mem_cons] at hp
        rcases hp with rfl | hp
        · right; exact ⟨(k, e), by simp, rfl⟩
        · rcases ih hp with h | ⟨q, hq, h⟩
          · left; exact h
          · right; exact ⟨q, by simp [hq], h⟩

theorem upd_sorted (m : List (Nat × SvcEntry)) (id : Nat) (f : SvcEntry → SvcEntry) (h : Sorted m) :
    Sorted (upd m id f) := by
  induction m with
  | nil => simp [upd, Sorted]
  | cons a m ih =>
    obtain ⟨k, e⟩ := a
    unfold Sorted at h ih ⊢
    rw [List.pairwise_cons] at h
    simp only [upd]
    split
    · exact List.pairwise_cons.mpr h
    · split
      · rename_i h1 h2
        refine List.pairwise_cons.mpr ⟨?_, List.pairwise_cons.mpr h⟩
        intro b hb
        simp only [List.mem_cons] at hb
        rcases hb with rfl | hb
        · exact h2
        · exact Nat.lt_trans h2 (h.1 b hb)
      · rename_i h1 h2
        refine List.pairwise_cons.mpr ⟨?_, ih h.2⟩
        intro b hb
        rcases upd_keys m id f b hb with hb | ⟨q, hq, hb⟩
        · simp only; omega
        · rw [← hb]; exact h.1 q hq

theorem entryOf_cons (k : Nat) (e : SvcEntry) (m : List (Nat × SvcEntry)) (id : Nat) :
    entryOf ((k, e) :: m) id = if k = id then some e else entryOf m id := by
  unfold entryOf
  rw [List.find?_cons]
  by_cases h : k = id <;> simp [h]

theorem entryOf_none (m : List (Nat × SvcEntry)) (id : Nat) (h : ∀ p ∈ m, p.1 ≠ id) : entryOf m id = none := by
  unfold entryOf
  rw [Option.map_eq_none_iff, List.find?_eq_none]
  intro p hp
  simpa using h p hp

theorem upd_entry (m : List (Nat × SvcEntry)) (id : Nat) (f : SvcEntry → SvcEntry) (h : Sorted m) (j : Nat) :
    entryOf (upd m id f) j = if id = j then some (f ((entryOf m j).getD {})) else entryOf m j := by
  induction m with
  | nil =>
    simp only [upd, entryOf_cons]
    rfl
  | cons a m ih =>
    obtain ⟨k, e⟩ := a
    unfold Sorted at h ih
    rw [List.pairwise_cons] at h
    simp only [upd]
    by_cases h1 : id = k
    · rw [if_pos h1, entryOf_cons, entryOf_cons, h1]
      by_cases h3 : k = j <;> simp [h3]
    · rw [if_neg h1]
      by_cases h2 : id < k
      · rw [if_pos h2, entryOf_cons, entryOf_cons]
        by_cases h3 : id = j
        · rw [if_pos h3, if_pos h3, if_neg (by omega), entryOf_none]
          · rfl
          · intro p hp
            have := h.1 p hp
            simp only at this
            omega
        · rw [if_neg h3, if_neg h3]
      · rw [if_neg h2, entryOf_cons, entryOf_cons, ih h.2]
        by_cases h3 : k = j
        · rw [if_pos h3, if_pos h3, if_neg (by omega)]
        · rw [if_neg h3, if_neg h3]

/-- A run of updates. -/
def updAll (us : List (Nat × (SvcEntry → SvcEntry))) (m : List (Nat × SvcEntry)) : List (Nat × SvcEntry) :=
  us.foldl (fun m u => upd m u.1 u.2) m

theorem updAll_spec (us : List (Nat × (SvcEntry → SvcEntry))) (m : List (Nat × SvcEntry)) (h : Sorted m) :
    Sorted (updAll us m) ∧ ∀ j, entryOf (updAll us m) j =
      if (us.any (fun u => decide (u.1 = j))) = true then
        some ((us.filter (fun u => decide (u.1 = j))).foldl (fun e u => u.2 e) ((entryOf m j).getD {}))
      else entryOf m j := by
  induction us generalizing m with
  | nil => exact ⟨h, fun j => by simp [updAll]⟩
  | cons u us ih =>
    obtain ⟨i1, i2⟩ := ih (upd m u.1 u.2) (upd_sorted m u.1 u.2 h)
    refine ⟨i1, fun j => ?_⟩
    have hu : updAll (u :: us) m = updAll us (upd m u.1 u.2) := rfl
    rw [hu, i2 j, upd_entry m u.1 u.2 h j, List.any_cons, List.filter_cons]
    by_cases hj : u.1 = j
    · simp only [hj, if_true, decide_true, Bool.true_or, List.foldl_cons, Option.getD_some]
      split
      · rfl
      · rename_i hn
        have : us.filter (fun u => decide (u.1 = j)) = [] := by
          rw [List.filter_eq_nil_iff]
          intro x hx hd
          exact hn (List.any_eq_true.mpr ⟨x, hx, hd⟩)
        rw [this]
        rfl
    · simp only [hj, if_false, decide_false, Bool.false_or]
      rfl

/-- The updates of a block. -/
def updates {K : Type} (b : Block K) : List (Nat × (SvcEntry → SvcEntry)) :=
  (b.guarantees.flatMap Report.digests).map (fun d => (d.service, svcDigest d)) ++
    b.preimages.map (fun p => (p.service, svcPreimage p)) ++
    b.accStats.map (fun a => (a.1, svcAcc a.2.1 a.2.2))

theorem svcStats_updates {K : Type} (b : Block K) : svcStats b = updAll (updates b) [] := by
  unfold svcStats updAll updates
  rw [List.foldl_append, List.foldl_append, List.foldl_map, List.foldl_map, List.foldl_map]

theorem digests_fold (ds : List Digest) (e : SvcEntry) :
    ds.foldl (fun e d => svcDigest d e) e =
      { e with
        digests := e.digests + UInt32.ofNat ds.length
        gas := e.gas + UInt64.ofNat (ds.map (fun d => d.gas.toNat)).sum
        imports := e.imports + UInt32.ofNat (ds.map (fun d => d.imports.toNat)).sum
        xts := e.xts + UInt32.ofNat (ds.map (fun d => d.xts.toNat)).sum
        xtOctets := e.xtOctets + UInt32.ofNat (ds.map (fun d => d.xtOctets.toNat)).sum
        exports := e.exports + UInt32.ofNat (ds.map (fun d => d.exports.toNat)).sum } := by
  induction ds generalizing e with
  | nil => simp
  | cons d ds ih =>
    rw [List.foldl_cons, ih]
    have h16 : ∀ x : UInt16, UInt32.ofNat x.toNat = x.toUInt32 := fun x => by
      apply UInt32.toNat_inj.mp
      have := x.toNat_lt
      simp
    simp only [svcDigest, List.map_cons, List.sum_cons, List.length_cons, Nat.add_comm ds.length 1,
      UInt32.ofNat_add, UInt64.ofNat_add, UInt32.add_assoc, UInt64.add_assoc, UInt32.ofNat_toNat,
      UInt64.ofNat_toNat, h16]
    rfl

theorem preimages_fold (ps : List Preimage) (e : SvcEntry) :
    ps.foldl (fun e p => svcPreimage p e) e =
      { e with
        preimages := e.preimages + UInt16.ofNat ps.length
        preimageOctets := e.preimageOctets + UInt32.ofNat (ps.map Preimage.len).sum } := by
  induction ps generalizing e with
  | nil => simp
  | cons p ps ih =>
    rw [List.foldl_cons, ih]
    simp only [svcPreimage, List.map_cons, List.sum_cons, List.length_cons, Nat.add_comm ps.length 1,
      UInt16.ofNat_add, UInt32.ofNat_add, UInt16.add_assoc, UInt32.add_assoc]
    rfl

theorem acc_fold (as : List (Nat × UInt64 × UInt32)) (e : SvcEntry) :
    as.foldl (fun e a => svcAcc a.2.1 a.2.2 e) e =
      { e with
        accGas := e.accGas + UInt64.ofNat (as.map (fun a => a.2.1.toNat)).sum
        accDigests := e.accDigests + UInt32.ofNat (as.map (fun a => a.2.2.toNat)).sum } := by
  induction as generalizing e with
  | nil => simp
  | cons a as ih =>
    rw [List.foldl_cons, ih]
    simp only [svcAcc, List.map_cons, List.sum_cons, UInt32.ofNat_add, UInt64.ofNat_add, UInt64.add_assoc,
      UInt32.add_assoc, UInt32.ofNat_toNat, UInt64.ofNat_toNat]

theorem updates_fold {K : Type} (b : Block K) (id : Nat) :
    ((updates b).filter (fun u => decide (u.1 = id))).foldl (fun e u => u.2 e) ({} : SvcEntry) =
      (b.accStats.filter (fun a => decide (a.1 = id))).foldl (fun e a => svcAcc a.2.1 a.2.2 e)
        ((svcPreimages id b).foldl (fun e p => svcPreimage p e)
          ((svcDigests id b).foldl (fun e d => svcDigest d e) {})) := by
  unfold updates svcPreimages svcDigests
  rw [List.filter_append, List.filter_append, List.foldl_append, List.foldl_append, List.filter_map,
    List.filter_map, List.filter_map, List.foldl_map, List.foldl_map, List.foldl_map]
  rfl

/-! ## Accumulation -/

theorem bump_keys {α : Type} [Add α] (m : List (Nat × α)) (k : Nat) (x zero : α) :
    (bump m k x zero).map Prod.fst = if k ∈ m.map Prod.fst then m.map Prod.fst else m.map Prod.fst ++ [k] := by
  induction m with
  | nil => simp [bump]
  | cons a m ih =>
    obtain ⟨j, y⟩ := a
    simp only [bump]
    by_cases h : k = j
    · simp [h]
    · rw [if_neg h, List.map_cons, ih, List.map_cons]
      by_cases h2 : k ∈ m.map Prod.fst
      · rw [if_pos h2, if_pos (List.mem_cons_of_mem _ h2)]
      · rw [if_neg h2, if_neg (by simp only [List.mem_cons, not_or]; exact ⟨h, h2⟩)]
        rfl

theorem bump_get {α : Type} [Add α] (m : List (Nat × α)) (k : Nat) (x zero : α) (j : Nat) :
    getOr (bump m k x zero) j zero = if k = j then getOr m j zero + x else getOr m j zero := by
  induction m with
  | nil =>
    simp only [bump, getOr]
    by_cases h : k = j
    · rw [if_pos h.symm, if_pos h]
    · rw [if_neg (fun e => h e.symm), if_neg h]
  | cons a m ih =>
    obtain ⟨i, y⟩ := a
    simp only [bump]
    by_cases h : k = i
    · rw [if_pos h]
      simp only [getOr]
      by_cases h2 : j = i
      · rw [if_pos h2, if_pos h2, if_pos (by omega)]
      · rw [if_neg h2, if_neg h2, if_neg (by omega)]
    · rw [if_neg h]
      simp only [getOr, ih]
      by_cases h2 : j = i
      · rw [if_pos h2, if_pos h2, if_neg (by omega)]
      · rw [if_neg h2, if_neg h2]

theorem bump_nodup {α : Type} [Add α] (m : List (Nat × α)) (k : Nat) (x zero : α)
    (h : (m.map Prod.fst).Nodup) : ((bump m k x zero).map Prod.fst).Nodup := by
  rw [bump_keys]
  split
  · exact h
  · rename_i hk
    refine List.nodup_append.mpr ⟨h, by simp, ?_⟩
    intro a ha b hb
    simp only [List.mem_singleton] at hb
    subst hb
    intro e
    exact hk (e ▸ ha)

theorem digestCounts_spec (ds : List Digest) (m : List (Nat × Nat)) (h : (m.map Prod.fst).Nodup) :
    let r := ds.foldl (fun m d => bump m d.service 1 0) m
    (r.map Prod.fst).Nodup ∧ (∀ k, k ∈ r.map Prod.fst ↔ k ∈ m.map Prod.fst ∨ ∃ d ∈ ds, d.service = k) ∧
    ∀ k, getOr r k 0 = getOr m k 0 + countIf (fun d => decide (d.service = k)) ds := by
  induction ds generalizing m with
  | nil => exact ⟨h, fun k => by simp, fun k => by simp [countIf]⟩
  | cons d ds ih =>
    obtain ⟨i1, i2, i3⟩ := ih (bump m d.service 1 0) (bump_nodup m d.service 1 0 h)
    refine ⟨i1, fun k => ?_, fun k => ?_⟩
    · rw [List.foldl_cons, i2 k, bump_keys]
      by_cases hd : d.service ∈ m.map Prod.fst
      · rw [if_pos hd]
        constructor
        · rintro (h | ⟨x, hx, rfl⟩)
          · exact Or.inl h
          · exact Or.inr ⟨x, by simp [hx], rfl⟩
        · rintro (h | ⟨x, hx, rfl⟩)
          · exact Or.inl h
          · simp only [List.mem_cons] at hx
            rcases hx with rfl | hx
            · exact Or.inl hd
            · exact Or.inr ⟨x, hx, rfl⟩
      · rw [if_neg hd]
        constructor
        · rintro (h | ⟨x, hx, rfl⟩)
          · simp only [List.mem_append, List.mem_singleton] at h
            rcases h with h | rfl
            · exact Or.inl h
            · exact Or.inr ⟨d, by simp, rfl⟩
          · exact Or.inr ⟨x, by simp [hx], rfl⟩
        · rintro (h | ⟨x, hx, rfl⟩)
          · exact Or.inl (by simp only [List.mem_append]; exact Or.inl h)
          · simp only [List.mem_cons] at hx
            rcases hx with rfl | hx
            · exact Or.inl (by simp)
            · exact Or.inr ⟨x, hx, rfl⟩
    · rw [List.foldl_cons, i3 k, bump_get, count_cons]
      by_cases hd : d.service = k
      · simp only [hd, if_true, decide_true]; omega
      · simp [hd]

theorem gasTotals_spec (gs : List (Nat × UInt64)) (m : List (Nat × UInt64)) (h : (m.map Prod.fst).Nodup) :
    let r := gs.foldl (fun m p => bump m p.1 p.2 0) m
    (r.map Prod.fst).Nodup ∧ (∀ k, k ∈ r.map Prod.fst ↔ k ∈ m.map Prod.fst ∨ ∃ d ∈ gs, d.1 = k) ∧
    ∀ k, getOr r k 0 = getOr m k 0 + UInt64.ofNat (accGas k gs) := by
  induction gs generalizing m with
  | nil => exact ⟨h, fun k => by simp, fun k => by simp [accGas, sumIf]⟩
  | cons d ds ih =>
    obtain ⟨i1, i2, i3⟩ := ih (bump m d.1 d.2 0) (bump_nodup m d.1 d.2 0 h)
    refine ⟨i1, fun k => ?_, fun k => ?_⟩
    · rw [List.foldl_cons, i2 k, bump_keys]
      by_cases hd : d.1 ∈ m.map Prod.fst
      · rw [if_pos hd]
        constructor
        · rintro (h | ⟨x, hx, rfl⟩)
          · exact Or.inl h
          · exact Or.inr ⟨x, by simp [hx], rfl⟩
        · rintro (h | ⟨x, hx, rfl⟩)
          · exact Or.inl h
          · simp only [List.mem_cons] at hx
            rcases hx with rfl | hx
            · exact Or.inl hd
            · exact Or.inr ⟨x, hx, rfl⟩
      · rw [if_neg hd]
        constructor
        · rintro (h | ⟨x, hx, rfl⟩)
          · simp only [List.mem_append, List.mem_singleton] at h
            rcases h with h | rfl
            · exact Or.inl h
            · exact Or.inr ⟨d, by simp, rfl⟩
          · exact Or.inr ⟨x, by simp [hx], rfl⟩
        · rintro (h | ⟨x, hx, rfl⟩)
          · exact Or.inl (by simp only [List.mem_append]; exact Or.inl h)
          · simp only [List.mem_cons] at hx
            rcases hx with rfl | hx
            · exact Or.inl (by simp)
            · exact Or.inr ⟨x, hx, rfl⟩
    · rw [List.foldl_cons, i3 k, bump_get]
      unfold accGas
      rw [sum_filter_cons, UInt64.ofNat_add]
      by_cases hd : d.1 = k
      · simp only [hd, if_true, decide_true, UInt64.ofNat_toNat, UInt64.add_assoc]
      · simp [hd]

theorem unionKeys_spec (ks js : List Nat) (hk : ks.Nodup) (hj : js.Nodup) :
    (unionKeys ks js).Nodup ∧ ∀ x, x ∈ unionKeys ks js ↔ x ∈ ks ∨ x ∈ js := by
  unfold unionKeys
  refine ⟨List.nodup_append.mpr ⟨hk, hj.filter _, ?_⟩, fun x => ?_⟩
  · intro a ha b hb e
    subst e
    simp [ha] at hb
  · simp only [List.mem_append, List.mem_filter, Bool.not_eq_true', List.contains_eq_mem,
      decide_eq_false_iff_not]
    by_cases h : x ∈ ks <;> simp [h]

/-- What `from_accumulated_reports` holds: one entry for each service with gas or digests (as words). -/
theorem fromAccumulated_mem (reports : List Report) (gs : List (Nat × UInt64)) :
    ((fromAccumulated reports gs).map Prod.fst).Nodup ∧
    ∀ k g n, (k, g, n) ∈ fromAccumulated reports gs ↔
      g = UInt64.ofNat (accGas k gs) ∧ n = UInt32.ofNat (accDigests k reports) ∧ (g ≠ 0 ∨ n ≠ 0) := by
  have h1 := digestCounts_spec (reports.flatMap Report.digests) [] (by simp)
  have h2 := gasTotals_spec gs [] (by simp)
  dsimp only at h1 h2
  obtain ⟨a1, a2, a3⟩ := h1
  obtain ⟨b1, b2, b3⟩ := h2
  have hu := unionKeys_spec _ _ a1 b1
  obtain ⟨u1, u2⟩ := hu
  have ec : ∀ k, getOr (digestCounts (reports.flatMap Report.digests)) k 0 = accDigests k reports := by
    intro k
    have := a3 k
    simp only [getOr, Nat.zero_add] at this
    exact this
  have eg : ∀ k, getOr (gasTotals gs) k 0 = UInt64.ofNat (accGas k gs) := by
    intro k
    have := b3 k
    simp only [getOr, UInt64.zero_add] at this
    exact this
  unfold fromAccumulated
  dsimp only
  constructor
  · have hf : ∀ l : List Nat, l.Nodup → ((l.filterMap (fun k =>
        if (decide (getOr (gasTotals gs) k 0 > 0) ||
          decide (UInt32.ofNat (getOr (digestCounts (reports.flatMap Report.digests)) k 0) > 0)) = true then
          some (k, getOr (gasTotals gs) k 0,
            UInt32.ofNat (getOr (digestCounts (reports.flatMap Report.digests)) k 0)) else none)).map
        Prod.fst).Nodup := by
      intro l hl
      have hsub : ∀ l : List Nat, ((l.filterMap (fun k =>
        if (decide (getOr (gasTotals gs) k 0 > 0) ||
          decide (UInt32.ofNat (getOr (digestCounts (reports.flatMap Report.digests)) k 0) > 0)) = true then
          some (k, getOr (gasTotals gs) k 0,
            UInt32.ofNat (getOr (digestCounts (reports.flatMap Report.digests)) k 0)) else none)).map
        Prod.fst).Sublist l := by
        intro l
        induction l with
        | nil => simp
        | cons k l ih =>
          rw [List.filterMap_cons]
          split
          · exact ih.cons k
          · rename_i h
            split at h
            · simp only [Option.some.injEq] at h
              subst h
              exact ih.cons_cons k
            · simp at h
      exact (hsub l).nodup hl
    exact hf _ u1
  · intro k g n
    rw [List.mem_filterMap]
    have hpos : ∀ k, ((decide (getOr (gasTotals gs) k 0 > 0) ||
          decide (UInt32.ofNat (getOr (digestCounts (reports.flatMap Report.digests)) k 0) > 0)) = true) ↔
          (UInt64.ofNat (accGas k gs) ≠ 0 ∨ UInt32.ofNat (accDigests k reports) ≠ 0) := by
      intro k
      rw [ec, eg, Bool.or_eq_true, decide_eq_true_eq, decide_eq_true_eq, gt_iff_lt, gt_iff_lt,
        UInt64.pos_iff_ne_zero, UInt32.pos_iff_ne_zero]
    constructor
    · rintro ⟨j, hj, h⟩
      by_cases hc : (UInt64.ofNat (accGas j gs) ≠ 0 ∨ UInt32.ofNat (accDigests j reports) ≠ 0)
      · rw [if_pos ((hpos j).mpr hc)] at h
        simp only [Option.some.injEq, Prod.mk.injEq] at h
        obtain ⟨rfl, rfl, rfl⟩ := h
        rw [eg, ec]
        exact ⟨rfl, rfl, hc⟩
      · rw [if_neg (fun h => hc ((hpos j).mp h))] at h
        simp at h
    · rintro ⟨rfl, rfl, hc⟩
      refine ⟨k, ?_, ?_⟩
      · refine (u2 k).mpr ?_
        rcases hc with hc | hc
        · right
          refine (b2 k).mpr (Or.inr ?_)
          apply Classical.byContradiction
          intro hno
          apply hc
          have : accGas k gs = 0 := by
            unfold accGas sumIf
            rw [List.filter_eq_nil_iff.mpr]
            · rfl
            · intro p hp hd
              exact hno ⟨p, hp, by simpa using hd⟩
          rw [this]; rfl
        · left
          refine (a2 k).mpr (Or.inr ?_)
          apply Classical.byContradiction
          intro hno
          apply hc
          have : accDigests k reports = 0 := by
            unfold accDigests countIf
            rw [List.filter_eq_nil_iff.mpr]
            · rfl
            · intro p hp hd
              exact hno ⟨p, hp, by simpa using hd⟩
          rw [this]; rfl
      · rw [if_pos ((hpos k).mpr hc), eg, ec]

theorem filter_unique (l : List (Nat × UInt64 × UInt32)) (h : (l.map Prod.fst).Nodup) (a : Nat × UInt64 × UInt32)
    (ha : a ∈ l) : l.filter (fun x => decide (x.1 = a.1)) = [a] := by
  induction l with
  | nil => simp at ha
  | cons x l ih =>
    rw [List.map_cons, List.nodup_cons] at h
    rw [List.filter_cons]
    simp only [List.mem_cons] at ha
    rcases ha with rfl | ha
    · rw [if_pos (by simp), List.filter_eq_nil_iff.mpr]
      intro y hy hd
      exact h.1 (by rw [← (by simpa using hd : y.1 = a.1)]; exact List.mem_map_of_mem hy)
    · have hne : x.1 ≠ a.1 := fun e => h.1 (by rw [e]; exact List.mem_map_of_mem ha)
      rw [if_neg (by simpa using hne)]
      exact ih h.2 ha

theorem acc_part (as : List (Nat × UInt64 × UInt32)) (reports : List Report) (gs : List (Nat × UInt64))
    (hp : as.Perm (fromAccumulated reports gs)) (id : Nat) :
    UInt64.ofNat ((as.filter (fun a => decide (a.1 = id))).map (fun a => a.2.1.toNat)).sum =
      UInt64.ofNat (accGas id gs) ∧
    UInt32.ofNat ((as.filter (fun a => decide (a.1 = id))).map (fun a => a.2.2.toNat)).sum =
      UInt32.ofNat (accDigests id reports) ∧
    ((∀ a ∈ as, a.1 ≠ id) ↔ UInt64.ofNat (accGas id gs) = 0 ∧ UInt32.ofNat (accDigests id reports) = 0) := by
  obtain ⟨n1, m1⟩ := fromAccumulated_mem reports gs
  have hn : (as.map Prod.fst).Nodup := (hp.map Prod.fst).nodup_iff.mpr n1
  by_cases hz : UInt64.ofNat (accGas id gs) = 0 ∧ UInt32.ofNat (accDigests id reports) = 0
  · have hno : ∀ a ∈ as, a.1 ≠ id := by
      rintro ⟨k, g, n⟩ ha rfl
      obtain ⟨e1, e2, e3⟩ := (m1 _ _ _).mp (hp.mem_iff.mp ha)
      dsimp only at hz
      rcases e3 with e3 | e3
      · exact e3 (e1.trans hz.1)
      · exact e3 (e2.trans hz.2)
    have hf : as.filter (fun a => decide (a.1 = id)) = [] := by
      rw [List.filter_eq_nil_iff]
      intro a ha hd
      exact hno a ha (by simpa using hd)
    rw [hf]
    exact ⟨hz.1.symm, hz.2.symm, fun _ => hz, fun _ => hno⟩
  · have hmem : (id, UInt64.ofNat (accGas id gs), UInt32.ofNat (accDigests id reports)) ∈ as := by
      rw [hp.mem_iff, m1]
      refine ⟨rfl, rfl, ?_⟩
      by_cases hg : UInt64.ofNat (accGas id gs) = 0
      · right; exact fun h => hz ⟨hg, h⟩
      · left; exact hg
    have hf := filter_unique as hn _ hmem
    dsimp only at hf
    rw [hf]
    refine ⟨?_, ?_, fun h => absurd rfl (h _ hmem), fun h => absurd h hz⟩
    · simp only [List.map_cons, List.map_nil, List.sum_cons, List.sum_nil, Nat.add_zero, UInt64.ofNat_toNat]
    · simp only [List.map_cons, List.map_nil, List.sum_cons, List.sum_nil, Nat.add_zero, UInt32.ofNat_toNat]

theorem svcStats_right {K : Type} (b : Block K) (reports : List Report) (gs : List (Nat × UInt64))
    (hp : b.accStats.Perm (fromAccumulated reports gs)) :
    Sorted (svcStats b) ∧ ∀ id,
      (∀ e, entryOf (svcStats b) id = some e → SvcRight id b reports gs e) ∧
      (entryOf (svcStats b) id = none ↔ svcDigests id b = [] ∧ svcPreimages id b = [] ∧
        accDigests id reports % 2 ^ 32 = 0 ∧ accGas id gs % 2 ^ 64 = 0) := by
  obtain ⟨h1, h2⟩ := updAll_spec (updates b) [] List.Pairwise.nil
  rw [← svcStats_updates] at h1 h2
  refine ⟨h1, fun id => ?_⟩
  obtain ⟨p1, p2, p3⟩ := acc_part b.accStats reports gs hp id
  have h0 : entryOf ([] : List (Nat × SvcEntry)) id = none := rfl
  have he := h2 id
  rw [h0, Option.getD_none, updates_fold] at he
  have hany : (updates b).any (fun u => decide (u.1 = id)) = false ↔
      svcDigests id b = [] ∧ svcPreimages id b = [] ∧ ∀ a ∈ b.accStats, a.1 ≠ id := by
    unfold updates svcDigests svcPreimages
    rw [List.any_append, List.any_append, Bool.or_eq_false_iff, Bool.or_eq_false_iff, List.filter_eq_nil_iff,
      List.filter_eq_nil_iff, List.any_map, List.any_map, List.any_map, List.any_eq_false, List.any_eq_false,
      List.any_eq_false, and_assoc]
    simp only [Function.comp, decide_eq_true_eq, ne_eq]
  have hz : (UInt64.ofNat (accGas id gs) = 0 ∧ UInt32.ofNat (accDigests id reports) = 0) ↔
      (accDigests id reports % 2 ^ 32 = 0 ∧ accGas id gs % 2 ^ 64 = 0) := by
    rw [← UInt64.toNat_inj, ← UInt32.toNat_inj, u64_mod, u32_mod]
    exact And.comm
  constructor
  · intro e hs
    rw [he] at hs
    split at hs
    · simp only [Option.some.injEq] at hs
      rw [digests_fold, preimages_fold, acc_fold] at hs
      rw [p1, p2] at hs
      subst hs
      constructor <;> simp
    · simp at hs
  · rw [he, ← hz, ← p3, ← hany]
    cases (updates b).any (fun u => decide (u.1 = id)) <;> simp

end Fastroll.Stats
