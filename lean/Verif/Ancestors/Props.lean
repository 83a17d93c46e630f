import Verif.Ancestors.Lemmas
/-!
# C35: the ancestor set holds the most recent headers
-/
namespace Fastroll.Ancestors

namespace Spec

/-- The later header: a greater slot, or the same slot and a greater hash. -/
def Later (a b : Entry) : Prop := b.1 < a.1 ∨ (b.1 = a.1 ∧ b.2 < a.2)

/-- `kept` are the `capacity` latest of the distinct entries of `added` (all of them, if they are fewer). -/
structure Latest (capacity : Nat) (added kept : List Entry) : Prop where
  nodup : kept.Nodup
  size : kept.length = min capacity added.eraseDups.length
  sub : ∀ e ∈ kept, e ∈ added
  latest : ∀ k ∈ kept, ∀ d ∈ added, d ∉ kept → Later k d

/-- Insertion into a list from the latest to the earliest. -/
def insertDesc (e : Entry) : List Entry → List Entry
  | [] => [e]
  | x :: xs => if x.1 < e.1 ∨ (x.1 = e.1 ∧ x.2 < e.2) then e :: x :: xs else x :: insertDesc e xs

/-- What a bounded record of the latest entries does. -/
def step (capacity : Nat) (l : List Entry) : Op → List Entry
  | .add e => if e ∈ l then l else (insertDesc e l).take capacity
  | .remove e => l.filter (fun x => decide (x ≠ e))

end Spec

open Spec

theorem later_iff (a b : Entry) : Later a b ↔ lt b a = true := by
  rw [lt_iff]; exact Iff.rfl

/-- **C35.**  After any sequence of additions to an empty ancestor set of any capacity, whatever the heap
does, the entries held are the latest of the distinct entries added, and membership answers and the length
agree with them. -/
theorem C35_latest_kept (H : Heap) (capacity : Nat) (es : List Entry) :
    Latest capacity es ((new capacity).addMany H es).heap ∧
    ∀ e, ((new capacity).addMany H es).contains e = true ↔ e ∈ ((new capacity).addMany H es).heap := by
  have h := kept_addMany H es (kept_new capacity)
  rw [List.nil_append] at h
  have hl := kept_length h
  rw [addMany_capacity] at hl
  refine ⟨⟨h.agree.nodup, hl, h.sub, ?_⟩, ?_⟩
  · intro k hk d hd hn
    rw [later_iff]
    exact h.top d hd hn k hk
  · intro e
    rw [← h.agree.same e]
    simp [Set'.contains]

/-- **C35, answers.**  An entry is reported as an ancestor exactly when it was added and fewer than
`capacity` distinct entries added are later than it. -/
theorem C35_contains_iff (H : Heap) (capacity : Nat) (es : List Entry) (e : Entry) :
    ((new capacity).addMany H es).contains e = true ↔
      e ∈ es ∧ (es.eraseDups.filter (fun x => lt e x)).length < capacity := by
  obtain ⟨hL, hc⟩ := C35_latest_kept H capacity es
  rw [hc]
  generalize ((new capacity).addMany H es).heap = kept at hL
  have nd := nodup_eraseDups es
  constructor
  · intro he
    refine ⟨hL.sub e he, ?_⟩
    -- the later entries are all kept, and so is `e`
    have hsub : ∀ x ∈ e :: es.eraseDups.filter (fun x => lt e x), x ∈ kept := by
      intro x hx
      rcases List.mem_cons.1 hx with hx | hx
      · rw [hx]; exact he
      · obtain ⟨hx, hlt⟩ := List.mem_filter.1 hx
        refine Decidable.byContradiction fun hn => ?_
        have := (later_iff _ _).1 (hL.latest e he x (List.mem_eraseDups.1 hx) hn)
        have := lt_trans' hlt this
        rw [lt_irrefl] at this
        cases this
    have hnd : (e :: es.eraseDups.filter (fun x => lt e x)).Nodup := by
      refine List.nodup_cons.2 ⟨?_, nd.sublist List.filter_sublist⟩
      intro hx
      have := (List.mem_filter.1 hx).2
      rw [lt_irrefl] at this
      cases this
    have := List.Nodup.length_le_of_subset hnd hsub
    have hs := hL.size
    simp only [List.length_cons] at this
    omega
  · rintro ⟨he, hlt⟩
    refine Decidable.byContradiction fun hn => ?_
    have hsub : ∀ x ∈ kept, x ∈ es.eraseDups.filter (fun x => lt e x) := by
      intro x hx
      exact List.mem_filter.2 ⟨List.mem_eraseDups.2 (hL.sub x hx), (later_iff _ _).1 (hL.latest x hx e he hn)⟩
    have h1 := List.Nodup.length_le_of_subset hL.nodup hsub
    have h2 : kept.length < es.eraseDups.length := by
      have hsub' : ∀ x ∈ e :: kept, x ∈ es.eraseDups := by
        intro x hx
        rcases List.mem_cons.1 hx with hx | hx
        · rw [hx]; exact List.mem_eraseDups.2 he
        · exact List.mem_eraseDups.2 (hL.sub x hx)
      have := List.Nodup.length_le_of_subset (List.nodup_cons.2 ⟨hn, hL.nodup⟩) hsub'
      simp only [List.length_cons] at this
      omega
    have hs := hL.size
    omega

/-! ## Additions and removals -/

theorem mem_insert (e x : Entry) (l : List Entry) : x ∈ insertDesc e l ↔ x = e ∨ x ∈ l := by
  induction l with
  | nil => simp [insertDesc]
  | cons y ys ih =>
    simp only [insertDesc]
    split
    · simp
    · simp only [List.mem_cons, ih]
      constructor <;> (intro h; rcases h with h | h | h <;> simp [h])

theorem insert_length (e : Entry) (l : List Entry) : (insertDesc e l).length = l.length + 1 := by
  induction l with
  | nil => rfl
  | cons y ys ih =>
    simp only [insertDesc]
    split
    · rfl
    · simp [ih]

/-- From the latest to the earliest. -/
def Desc (l : List Entry) : Prop := l.Pairwise (fun a b => lt b a = true)

theorem desc_insert (e : Entry) (l : List Entry) (h : Desc l) (hn : e ∉ l) : Desc (insertDesc e l) := by
  induction l with
  | nil => exact List.pairwise_singleton _ _
  | cons y ys ih =>
    have hp := List.pairwise_cons.1 h
    simp only [insertDesc]
    split
    · rename_i hlt
      refine List.pairwise_cons.2 ⟨?_, h⟩
      intro x hx
      rcases List.mem_cons.1 hx with hx | hx
      · rw [hx]; exact (lt_iff _ _).2 hlt
      · exact lt_trans' (hp.1 x hx) ((lt_iff _ _).2 hlt)
    · rename_i hlt
      have hye : lt y e = false := by
        cases hc : lt y e with
        | false => rfl
        | true => exact absurd ((lt_iff _ _).1 hc) hlt
      refine List.pairwise_cons.2 ⟨?_, ih hp.2 (fun hx => hn (List.mem_cons_of_mem _ hx))⟩
      intro x hx
      rcases (mem_insert e x ys).1 hx with hx | hx
      · rw [hx]; exact lt_total (fun hx => hn (hx ▸ List.mem_cons_self ..)) hye
      · exact hp.1 x hx

theorem desc_nodup {l : List Entry} (h : Desc l) : l.Nodup := by
  refine List.Pairwise.imp ?_ h
  intro a b hab e
  rw [e, lt_irrefl] at hab
  cases hab

/-- The ancestor set and the record it should be. -/
structure Sim (s : Set') (l : List Entry) : Prop where
  agree : Agree s
  mem : ∀ e, e ∈ s.heap ↔ e ∈ l
  desc : Desc l

theorem Sim.length {s : Set'} {l : List Entry} (h : Sim s l) : s.heap.length = l.length :=
  Nat.le_antisymm
    (List.Nodup.length_le_of_subset h.agree.nodup (fun e he => (h.mem e).1 he))
    (List.Nodup.length_le_of_subset (desc_nodup h.desc) (fun e he => (h.mem e).2 he))

/-- What of a strictly descending list one longer than `n` is lost by `take n` is its least element. -/
theorem take_desc {l : List Entry} {n : Nat} (h : Desc l) (hl : l.length = n + 1) (m : Entry) (hm : m ∈ l)
    (hmin : ∀ x ∈ l, x ≠ m → lt m x = true) (x : Entry) : x ∈ l.take n ↔ x ∈ l ∧ x ≠ m := by
  rcases List.eq_nil_or_concat l with hnil | ⟨front, z, hz⟩
  · rw [hnil] at hl; cases hl
  · rw [List.concat_eq_append] at hz
    have hn : front.length = n := by
      rw [hz] at hl; simpa using hl
    have ht : l.take n = front := by
      rw [hz, ← hn]; simp
    have hpz : ∀ y ∈ front, lt z y = true := by
      intro y hy
      have := h
      unfold Desc at this
      rw [hz, List.pairwise_append] at this
      exact this.2.2 y hy z (List.mem_singleton.2 rfl)
    have hmz : m = z := by
      refine Decidable.byContradiction fun hne => ?_
      have h1 := hmin z (by rw [hz]; simp) (fun e => hne e.symm)
      have hmf : m ∈ front := by
        rw [hz] at hm
        rcases List.mem_append.1 hm with h | h
        · exact h
        · exact absurd (List.mem_singleton.1 h) hne
      have := lt_trans' h1 (hpz m hmf)
      rw [lt_irrefl] at this
      cases this
    rw [ht, hmz]
    constructor
    · intro hx
      refine ⟨by rw [hz]; exact List.mem_append_left _ hx, fun e => ?_⟩
      have := hpz x hx
      rw [e, lt_irrefl] at this
      cases this
    · rintro ⟨hx, hne⟩
      rw [hz] at hx
      rcases List.mem_append.1 hx with h | h
      · exact h
      · exact absurd (List.mem_singleton.1 h) hne

theorem sim_add (H : Heap) {s : Set'} {l : List Entry} (h : Sim s l) (e : Entry) :
    Sim (s.add H e) (step s.capacity l (.add e)) := by
  have ha := agree_add H h.agree e
  have hlen := h.length
  have hdesc : ∀ hn : e ∉ l, Desc ((insertDesc e l).take s.capacity) := fun hn =>
    List.Pairwise.sublist (List.take_sublist _ _) (desc_insert e l h.desc hn)
  unfold step
  unfold Set'.add at ha ⊢
  by_cases hc : s.contains e = true
  · rw [if_pos hc]
    have he : e ∈ s.heap := (h.agree.same e).1 (by simpa [Set'.contains] using hc)
    dsimp only
    rw [if_pos ((h.mem e).1 he)]
    exact h
  · rw [if_neg hc] at ha ⊢
    have hn : e ∉ s.heap := fun hm => hc (by simpa [Set'.contains] using (h.agree.same e).2 hm)
    have hnl : e ∉ l := fun hm => hn ((h.mem e).2 hm)
    dsimp only
    rw [if_neg hnl]
    by_cases hf : (!s.isFull) = true
    · rw [if_pos hf] at ha ⊢
      have hf : s.heap.length ≠ s.capacity := by simpa [Set'.isFull] using hf
      have hb := h.agree.bound
      refine ⟨ha, ?_, hdesc hnl⟩
      intro x
      rw [List.take_of_length_le (by rw [insert_length]; omega), mem_insert, ← h.mem]
      simp
    · rw [if_neg hf] at ha ⊢
      have hfull : s.heap.length = s.capacity := by simpa [Set'.isFull] using hf
      have hil : (insertDesc e l).length = s.capacity + 1 := by rw [insert_length]; omega
      cases hp : H.peek s.heap with
      | none =>
        have hnil := H.empty _ hp
        have h0 : s.capacity = 0 := by rw [hnil] at hfull; exact hfull.symm
        refine ⟨h.agree, ?_, hdesc hnl⟩
        intro x
        dsimp only
        rw [hnil, h0]
        simp
      | some m =>
        rw [hp] at ha
        dsimp only at ha ⊢
        have hm := H.mem _ _ hp
        by_cases hl : lt m e = true
        · rw [if_pos hl] at ha ⊢
          refine ⟨ha, ?_, hdesc hnl⟩
          intro x
          have hme : e ≠ m := fun hx => hn (hx ▸ hm)
          rw [take_desc (desc_insert e l h.desc hnl) hil m ((mem_insert _ _ _).2 (Or.inr ((h.mem m).1 hm)))]
          · simp only [List.mem_cons, h.agree.nodup.mem_erase_iff, mem_insert, ← h.mem]
            constructor
            · rintro (hx | hx)
              · exact ⟨Or.inl hx, hx ▸ hme⟩
              · exact ⟨Or.inr hx.2, hx.1⟩
            · rintro ⟨hx | hx, hne⟩
              · exact Or.inl hx
              · exact Or.inr ⟨hne, hx⟩
          · intro y hy hym
            rcases (mem_insert _ _ _).1 hy with hy | hy
            · rw [hy]; exact hl
            · exact lt_total hym (H.least _ _ _ hp ((h.mem y).2 hy))
        · rw [if_neg hl] at ha ⊢
          have hem : lt e m = true := lt_total (fun hx => hn (hx ▸ hm)) (by simpa using hl)
          refine ⟨ha, ?_, hdesc hnl⟩
          intro x
          rw [take_desc (desc_insert e l h.desc hnl) hil e ((mem_insert _ _ _).2 (Or.inl rfl))]
          · simp only [mem_insert, ← h.mem]
            constructor
            · exact fun hx => ⟨Or.inr hx, fun e' => hn (e' ▸ hx)⟩
            · rintro ⟨hx | hx, hne⟩
              · exact absurd hx hne
              · exact hx
          · intro y hy hye
            rcases (mem_insert _ _ _).1 hy with hy | hy
            · exact absurd hy hye
            · have hy' := (h.mem y).2 hy
              by_cases hym : y = m
              · rw [hym]; exact hem
              · exact lt_trans' hem (lt_total hym (H.least _ _ _ hp hy'))

theorem sim_remove {s : Set'} {l : List Entry} (h : Sim s l) (e : Entry)
    (hu : ∀ x ∈ s.heap, x.2 = e.2 → x = e) :
    Sim (s.remove e).1 (step s.capacity l (.remove e)) ∧ ((s.remove e).2 = true ↔ e ∈ l) := by
  have ha := agree_remove h.agree e hu
  unfold step
  unfold Set'.remove at ha ⊢
  split at ha
  · rename_i hc
    have he : e ∈ s.heap := (h.agree.same e).1 (by simpa using hc)
    rw [if_pos hc]
    refine ⟨⟨ha, ?_, h.desc.sublist List.filter_sublist⟩, ⟨fun _ => (h.mem e).1 he, fun _ => rfl⟩⟩
    intro x
    simp only [List.mem_filter, decide_eq_true_eq, ← h.mem]
    constructor
    · exact fun hx => ⟨hx.1, fun e' => hx.2 (by rw [e'])⟩
    · exact fun hx => ⟨hx.1, fun e' => hx.2 (hu x hx.1 e')⟩
  · rename_i hc
    have he : e ∉ s.heap := fun hm => hc (by simpa using (h.agree.same e).2 hm)
    rw [if_neg hc]
    refine ⟨⟨h.agree, ?_, h.desc.sublist List.filter_sublist⟩, ⟨fun hx => (by cases hx), fun hx => absurd ((h.mem e).2 hx) he⟩⟩
    intro x
    simp only [List.mem_filter, decide_eq_true_eq, ← h.mem]
    exact ⟨fun hx => ⟨hx, fun e' => he (e' ▸ hx)⟩, fun hx => hx.1⟩

theorem remove_capacity (s : Set') (e : Entry) : (s.remove e).1.capacity = s.capacity := by
  unfold Set'.remove
  split <;> rfl

/-- **C35, with removals.**  For every sequence of additions and removals in which a header hash goes with
one slot only, the ancestor set is the bounded record of the latest entries: same members, same length, and
the next removal answers whether the entry was held. -/
theorem C35_refines_record (H : Heap) (capacity : Nat) (ops : List Op)
    (hu : ∀ a b, (Op.add a ∈ ops ∨ Op.remove a ∈ ops) → (Op.add b ∈ ops ∨ Op.remove b ∈ ops) →
      a.2 = b.2 → a = b) :
    (∀ e, ((new capacity).run H ops).contains e = true ↔ e ∈ ops.foldl (step capacity) []) ∧
    ((new capacity).run H ops).heap.length = (ops.foldl (step capacity) []).length ∧
    (∀ e, (∀ a, Op.add a ∈ ops → a.2 = e.2 → a = e) →
      (((new capacity).run H ops).remove e).2 = decide (e ∈ ops.foldl (step capacity) [])) := by
  have key : ∀ (os : List Op) (s : Set') (l : List Entry), Sim s l → s.capacity = capacity →
      (∀ o ∈ os, o ∈ ops) → (∀ x ∈ s.heap, Op.add x ∈ ops) →
      Sim (s.run H os) (os.foldl (step capacity) l) ∧ ∀ x ∈ (s.run H os).heap, Op.add x ∈ ops := by
    intro os
    induction os with
    | nil => intro s l h _ _ hx; exact ⟨h, hx⟩
    | cons o os ih =>
      intro s l h hc ho hx
      have ho' : ∀ o' ∈ os, o' ∈ ops := fun o' h' => ho o' (List.mem_cons_of_mem _ h')
      have hom := ho o (List.mem_cons_self ..)
      cases o with
      | add e =>
        simp only [Set'.run, List.foldl_cons]
        have hs := sim_add H h e
        rw [hc] at hs
        refine ih _ _ hs (by rw [add_capacity, hc]) ho' ?_
        intro x hxm
        have hxm := (hs.mem x).1 hxm
        unfold step at hxm
        dsimp only at hxm
        split at hxm
        · exact hx x ((h.mem x).2 hxm)
        · rcases (mem_insert _ _ _).1 (List.mem_of_mem_take hxm) with hxe | hxl
          · rw [hxe]; exact hom
          · exact hx x ((h.mem x).2 hxl)
      | remove e =>
        simp only [Set'.run, List.foldl_cons]
        have hs := (sim_remove h e (fun x hxm hxe => hu x e (Or.inl (hx x hxm)) (Or.inr hom) hxe)).1
        rw [hc] at hs
        refine ih _ _ hs (by rw [remove_capacity, hc]) ho' ?_
        intro x hxm
        have hxm := (hs.mem x).1 hxm
        exact hx x ((h.mem x).2 (List.mem_filter.1 hxm).1)
  obtain ⟨hs, hx⟩ := key ops (new capacity) [] ⟨agree_new _, fun _ => Iff.rfl, List.Pairwise.nil⟩ rfl
    (fun _ h => h) (fun x h => by cases h)
  refine ⟨?_, hs.length, ?_⟩
  · intro e
    rw [← hs.mem, ← hs.agree.same]
    simp [Set'.contains]
  · intro e he
    have := (sim_remove hs e (fun x hxm hxe => he x (hx x hxm) hxe)).2
    rw [Bool.eq_iff_iff, this, decide_eq_true_eq]

/-! ## Examples -/

theorem scan_none (h : List Entry) (hs : scan h = none) : h = [] := by
  cases h with
  | nil => rfl
  | cons e es =>
    simp only [scan] at hs
    split at hs
    · cases hs
    · split at hs <;> cases hs

theorem scan_some (h : List Entry) : ∀ e, scan h = some e → e ∈ h ∧ ∀ x ∈ h, lt x e = false := by
  induction h with
  | nil => intro e hs; cases hs
  | cons y ys ih =>
    intro e hs
    simp only [scan] at hs
    split at hs
    · rename_i hn
      cases hs
      have := scan_none _ hn
      subst this
      exact ⟨List.mem_cons_self .., fun x hx => by rw [List.mem_singleton.1 hx, lt_irrefl]⟩
    · rename_i m hm
      have := ih m hm
      split at hs
      · rename_i hl
        cases hs
        refine ⟨List.mem_cons_of_mem _ this.1, fun x hx => ?_⟩
        rcases List.mem_cons.1 hx with hx | hx
        · rw [hx]
          cases hc : lt y e with
          | false => rfl
          | true => have := lt_trans' hc hl; rw [lt_irrefl] at this; cases this
        · exact this.2 x hx
      · rename_i hl
        injection hs with hs
        subst hs
        refine ⟨List.mem_cons_self .., fun x hx => ?_⟩
        rcases List.mem_cons.1 hx with hx | hx
        · rw [hx, lt_irrefl]
        · cases hc : lt x y with
          | false => rfl
          | true =>
            by_cases hem : m = x
            · rw [hem] at hl; exact absurd hc hl
            · exact absurd (lt_trans' (lt_total (fun h => hem h.symm) (this.2 x hx)) hc) hl

/-- A heap that scans for the least element: the contract can be met. -/
def scanHeap : Heap :=
  ⟨scan, fun h e hs => (scan_some h e hs).1, fun h e x hs hx => (scan_some h e hs).2 x hx, scan_none⟩

example : ((new 3).addMany scanHeap [(10, 1), (30, 3), (20, 2), (20, 9), (5, 4), (20, 2), (20, 9)]).heap =
    [(20, 9), (20, 2), (30, 3)] := by decide

example : Latest 3 [(10, 1), (30, 3), (20, 2), (20, 9)] [(20, 9), (20, 2), (30, 3)] :=
  (C35_latest_kept scanHeap 3 [(10, 1), (30, 3), (20, 2), (20, 9)]).1

example : ((new 2).run scanHeap [.add (1, 1), .add (2, 2), .add (3, 3), .remove (2, 2), .add (1, 1)]).heap =
    [(1, 1), (3, 3)] := by decide

/-- **C35, counterexample.**  Removal drops every heap entry with the hash, whatever its slot, while the set
loses the entry itself only: with two entries of the same hash, one removal leaves an entry that is reported
as an ancestor but is not in the heap, is not counted, and is never evicted however many entries are added
(its slot says nothing any more). -/
theorem C35_removal_by_hash_disagrees :
    ∃ (ops : List Op) (e : Entry),
      ((new 2).run scanHeap ops).contains e = true ∧ e ∉ ((new 2).run scanHeap ops).heap ∧
      ((new 2).run scanHeap ops).heap.length < ((new 2).run scanHeap ops).set.length ∧
      e.1 + 2 < 9 ∧ Op.add (8, 8) ∈ ops ∧ Op.add (9, 9) ∈ ops :=
  ⟨[.add (1, 7), .add (2, 7), .remove (2, 7), .add (8, 8), .add (9, 9)], (1, 7), by decide +kernel⟩

end Fastroll.Ancestors
