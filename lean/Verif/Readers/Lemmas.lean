import Verif.Readers.Spec
/-
The writes of a batch, and the invariants of the two kinds of writers.
-/
namespace Fastroll.Readers
open Fastroll StateCache
variable {K V : Type} [DecidableEq K] {leaf : V → Leaf V} {s : Sys K V} {es : List (K × Entry V)}

/-! ### Batches -/

theorem writeLeaf_other (t : K → Option (Leaf V)) (p : K × Entry V) {k : K} (h : k ≠ p.1) : writeLeaf leaf t p k = t k := by
  unfold writeLeaf
  cases hst : p.2.status with
  | clean => rfl
  | dirty m => cases m <;> simp [upd, h]

theorem leaves_other : ∀ (es : List (K × Entry V)) (t : K → Option (Leaf V)) {k : K}, k ∉ es.map Prod.fst →
    es.foldl (writeLeaf leaf) t k = t k
  | [], _, _, _ => rfl
  | p :: es, t, k, h => by
    rw [List.map_cons, List.mem_cons, not_or] at h
    rw [List.foldl_cons, leaves_other es _ h.2, writeLeaf_other _ _ h.1]

theorem leaves_here : ∀ (es : List (K × Entry V)) (t : K → Option (Leaf V)), (es.map Prod.fst).Nodup → ∀ p ∈ es,
    p.2.status ≠ .clean → es.foldl (writeLeaf leaf) t p.1 = if p.2.status = .dirty .remove then none else some (leaf p.2.value)
  | [], _, _, _, hp, _ => by cases hp
  | q :: es, t, hn, p, hp, hc => by
    rw [List.map_cons, List.nodup_cons] at hn
    rw [List.foldl_cons]
    rcases List.mem_cons.1 hp with rfl | hp
    · rw [leaves_other es _ hn.1]
      unfold writeLeaf
      cases hst : p.2.status with
      | clean => exact absurd hst hc
      | dirty m => cases m <;> simp [upd]
    · exact leaves_here es _ hn.2 p hp hc

theorem writeSdb_keep (d : Nat → Option V) (p : K × Entry V) {h : Nat} {v : V} (hd : d h = some v)
    (hp : leaf p.2.value = .hashed h → p.2.value = v) : writeSdb leaf d p h = some v := by
  have put : ∀ h', leaf p.2.value = .hashed h' → upd d h' (some p.2.value) h = some v := fun h' hl => by
    unfold upd
    split
    · rename_i e
      rw [hp (e ▸ hl)]
    · exact hd
  unfold writeSdb
  cases hst : p.2.status with
  | clean => exact hd
  | dirty m =>
    cases hl : leaf p.2.value with
    | embedded w => cases m <;> exact hd
    | hashed h' =>
      cases m with
      | remove => exact hd
      | _ => exact put h' hl

theorem sdb_keep : ∀ (es : List (K × Entry V)) (d : Nat → Option V) {h : Nat} {v : V}, d h = some v →
    (∀ p ∈ es, leaf p.2.value = .hashed h → p.2.value = v) → es.foldl (writeSdb leaf) d h = some v
  | [], _, _, _, hd, _ => hd
  | p :: es, d, h, v, hd, hp => by
    rw [List.foldl_cons]
    exact sdb_keep es _ (writeSdb_keep d p hd (hp p (List.mem_cons_self ..))) (fun q hq => hp q (List.mem_cons_of_mem _ hq))

theorem sdb_here : ∀ (es : List (K × Entry V)) (d : Nat → Option V) {h : Nat}, ∀ p ∈ es, p.2.status ≠ .clean →
    p.2.status ≠ .dirty .remove → leaf p.2.value = .hashed h → (∀ q ∈ es, leaf q.2.value = .hashed h → q.2.value = p.2.value) →
    es.foldl (writeSdb leaf) d h = some p.2.value
  | [], _, _, _, hp, _, _, _, _ => by cases hp
  | q :: es, d, h, p, hp, hc, hr, hl, hq => by
    rw [List.foldl_cons]
    rcases List.mem_cons.1 hp with rfl | hp
    · refine sdb_keep es _ ?_ (fun x hx => hq x (List.mem_cons_of_mem _ hx))
      unfold writeSdb
      cases hst : p.2.status with
      | clean => exact absurd hst hc
      | dirty m =>
        rw [hl]
        cases m with
        | remove => exact absurd hst hr
        | _ => simp [upd]
    · exact sdb_here es _ p hp hc hr hl (fun x hx => hq x (List.mem_cons_of_mem _ hx))

theorem keep (ha : Apart leaf s es) {h : Nat} {v : V} (hd : s.sdb h = some v) : es.foldl (writeSdb leaf) s.sdb h = some v :=
  sdb_keep es _ hd fun p hp hl => ((ha p hp h hl).1 v hd).symm

/-- Under the key of a batch entry the databases hold the entry's outcome once all is written. -/
theorem stored_here (hl : LeafOk leaf) (hn : (es.map Prod.fst).Nodup) (ha : Apart leaf s es) (p : K × Entry V) (hp : p ∈ es)
    (hc : p.2.status ≠ .clean) :
    (∀ v, es.foldl (writeLeaf leaf) s.trie p.1 = some (.embedded v) → outcome p.2 = some v) ∧
    (∀ h, es.foldl (writeLeaf leaf) s.trie p.1 = some (.hashed h) → ∃ v, es.foldl (writeSdb leaf) s.sdb h = some v ∧ outcome p.2 = some v) ∧
    (es.foldl (writeLeaf leaf) s.trie p.1 = none → outcome p.2 = none) := by
  rw [leaves_here es s.trie hn p hp hc]
  unfold outcome
  by_cases hr : p.2.status = .dirty .remove
  · rw [if_pos hr, if_pos hr]
    exact ⟨fun v h => (by cases h), fun h hh => (by cases hh), fun _ => rfl⟩
  · rw [if_neg hr, if_neg hr]
    refine ⟨fun v h => ?_, fun h hh => ?_, fun h => (by cases h)⟩
    · injection h with h
      rw [hl _ _ h]
    · injection hh with hh
      exact ⟨_, sdb_here es _ p hp hc hr hh fun q hq hql => (ha p hp h hh).2 q hq hql, rfl⟩

/-! ### What a read may find on its way

`A k` are the values a read of `k` may answer; `T` and `D` are what the trie and the state database are after the batch. -/

/-- Keys whose dirty entries the writer has not yet dealt with. -/
def unsynced (es : List (K × Entry V)) : WPc K V → List K
  | .trie => es.map Prod.fst
  | .sdb => es.map Prod.fst
  | .cache rest => rest.map Prod.fst
  | .clear => []
  | .finished => []

/-- The databases in the phase the writer is in. -/
def phase (leaf : V → Leaf V) (s : Sys K V) (es : List (K × Entry V)) (c : Sys K V) : WPc K V → Prop
  | .trie => c.trie = s.trie ∧ c.sdb = s.sdb
  | .sdb => c.trie = es.foldl (writeLeaf leaf) s.trie ∧ c.sdb = s.sdb
  | _ => c.trie = es.foldl (writeLeaf leaf) s.trie ∧ c.sdb = es.foldl (writeSdb leaf) s.sdb

theorem phase_sdb {c : Sys K V} {w : WPc K V} (ha : Apart leaf s es) (h : phase leaf s es c w) {n : Nat} {v : V} :
    (s.sdb n = some v → c.sdb n = some v) ∧ (c.sdb n = some v → es.foldl (writeSdb leaf) s.sdb n = some v) := by
  have key : c.sdb = s.sdb ∨ c.sdb = es.foldl (writeSdb leaf) s.sdb := by
    cases w <;> first | exact .inl h.2 | exact .inr h.2
  rcases key with e | e
  · rw [e]
    exact ⟨id, keep ha⟩
  · rw [e]
    exact ⟨keep ha, id⟩

theorem phase_trie {c : Sys K V} {w : WPc K V} (h : phase leaf s es c w) {k : K} (hk : k ∉ es.map Prod.fst) :
    c.trie k = s.trie k := by
  have key : c.trie = s.trie ∨ c.trie = es.foldl (writeLeaf leaf) s.trie := by
    cases w <;> first | exact .inl h.1 | exact .inr h.1
  rcases key with e | e
  · rw [e]
  · rw [e, leaves_other es _ hk]

theorem phase_cong {c c' : Sys K V} {w : WPc K V} (h : phase leaf s es c w) (h1 : c'.trie = c.trie) (h2 : c'.sdb = c.sdb) :
    phase leaf s es c' w := by
  cases w <;> (unfold phase at *; rw [h1, h2]; exact h)

/-! ### A commit of the dirty cache -/

/-- Where a read may be. -/
def ReadOk (s : Sys K V) (es : List (K × Entry V)) (c : Sys K V) (w : WPc K V) : Pc K V → Prop
  | .start _ => True
  | .missed k => k ∉ unsynced es w
  | .found k h => k ∉ unsynced es w ∧ ∃ v, c.sdb h = some v ∧ visible s k = some v
  | .loaded k v => k ∉ unsynced es w ∧ visible s k = some v
  | .done k a => a = .value (visible s k)

/-- The invariant of a commit. -/
structure Inv (leaf : V → Leaf V) (s : Sys K V) (es : List (K × Entry V)) (c : Conf K V) : Prop where
  phase : phase leaf s es c.sys c.writer
  suffix : ∀ rest, c.writer = .cache rest → (rest.map Prod.fst).Nodup ∧ ∀ p ∈ rest, p ∈ es
  pending : ∀ k ∈ unsynced es c.writer, c.sys.cache k = s.cache k
  settled : ∀ k, k ∉ unsynced es c.writer → ∀ e, c.sys.cache k = some e → e.status = .clean ∧ visible s k = some e.value
  readers : ∀ pc ∈ c.readers, ReadOk s es c.sys c.writer pc
  dirty : c.writer = .finished → c.sys.dirty = []

/-- What a batch collected from a good state is. -/
structure Batch (s : Sys K V) (es : List (K × Entry V)) : Prop where
  nodup : (es.map Prod.fst).Nodup
  entry : ∀ p ∈ es, s.cache p.1 = some p.2 ∧ p.2.status ≠ .clean
  all : ∀ k e, s.cache k = some e → e.status ≠ .clean → k ∈ es.map Prod.fst

theorem filterMap_keys (f : K → Option (Entry V)) : ∀ l : List K, (∀ k ∈ l, (f k).isSome = true) →
    (l.filterMap fun k => (f k).map fun e => (k, e)).map Prod.fst = l
  | [], _ => rfl
  | k :: l, h => by
    obtain ⟨e, he⟩ := Option.isSome_iff_exists.1 (h k (List.mem_cons_self ..))
    rw [List.filterMap_cons, he]
    show k :: _ = _
    rw [filterMap_keys f l fun x hx => h x (List.mem_cons_of_mem _ hx)]

theorem batch_collect (h : Good s) : Batch s (collect s) := by
  have hk : (collect s).map Prod.fst = s.dirty := filterMap_keys s.cache s.dirty fun k hk => by
    obtain ⟨e, he, _⟩ := (h.dirty k).1 hk
    rw [he]
    rfl
  refine ⟨hk ▸ h.nodup, fun p hp => ?_, fun k e he hc => hk ▸ (h.dirty k).2 ⟨e, he, hc⟩⟩
  unfold collect at hp
  obtain ⟨k, hkd, hp⟩ := List.mem_filterMap.1 hp
  obtain ⟨e, he, rfl⟩ := Option.map_eq_some_iff.1 hp
  obtain ⟨e', he', hc⟩ := (h.dirty k).1 hkd
  rw [he] at he'
  injection he' with he'
  subst he'
  exact ⟨he, hc⟩

theorem visible_entry (hb : Batch s es) {p : K × Entry V} (hp : p ∈ es) : visible s p.1 = outcome p.2 := by
  unfold visible
  rw [(hb.entry p hp).1]
  rfl

theorem visible_other (hg : Good s) (hb : Batch s es) {k : K} (hk : k ∉ es.map Prod.fst) : visible s k = stored s k := by
  unfold visible
  cases hc : s.cache k with
  | none => rfl
  | some e =>
    by_cases h : e.status = .clean
    · rw [hg.clean k e hc h]
      dsimp only
      rw [h, if_neg (by decide)]
    · exact absurd (hb.all k e hc h) hk

theorem unsynced_sub {c : Conf K V} (hi : Inv leaf s es c) {k : K} (h : k ∉ es.map Prod.fst) : k ∉ unsynced es c.writer := by
  have hs := hi.suffix
  cases hw : c.writer with
  | trie => exact h
  | sdb => exact h
  | cache rest =>
    intro hk
    obtain ⟨p, hp, rfl⟩ := List.mem_map.1 hk
    exact h (List.mem_map.2 ⟨p, (hs rest hw).2 p hp, rfl⟩)
  | clear => exact List.not_mem_nil
  | finished => exact List.not_mem_nil

/-- What a read finds in the databases under a key the writer is done with, or does not touch. -/
theorem lookup_ok (hg : Good s) (hl : LeafOk leaf) (hb : Batch s es) (ha : Apart leaf s es) {c : Conf K V} (hi : Inv leaf s es c)
    {k : K} (hk : k ∉ unsynced es c.writer) :
    (c.sys.trie k = none → visible s k = none) ∧ (∀ v, c.sys.trie k = some (.embedded v) → visible s k = some v) ∧
    (∀ h, c.sys.trie k = some (.hashed h) → ∃ v, c.sys.sdb h = some v ∧ visible s k = some v) := by
  by_cases hm : k ∈ es.map Prod.fst
  · obtain ⟨p, hp, rfl⟩ := List.mem_map.1 hm
    have hph : c.sys.trie = es.foldl (writeLeaf leaf) s.trie ∧ c.sys.sdb = es.foldl (writeSdb leaf) s.sdb := by
      have := hi.phase
      cases hw : c.writer with
      | trie => rw [hw] at hk; exact absurd hm hk
      | sdb => rw [hw] at hk; exact absurd hm hk
      | cache rest => rw [hw] at this; exact this
      | clear => rw [hw] at this; exact this
      | finished => rw [hw] at this; exact this
    obtain ⟨h1, h2, h3⟩ := stored_here hl hb.nodup ha p hp (hb.entry p hp).2
    rw [hph.1, hph.2, visible_entry hb hp]
    exact ⟨h3, h1, h2⟩
  · rw [phase_trie hi.phase hm, visible_other hg hb hm]
    unfold stored
    refine ⟨fun h => by rw [h], fun v h => by rw [h], fun h hh => ?_⟩
    obtain ⟨v, hv⟩ := Option.isSome_iff_exists.1 (hg.complete k h hh)
    exact ⟨v, (phase_sdb ha hi.phase).1 hv, by rw [hh]; exact hv⟩

/-! Steps -/

theorem readOk_mono {c c' : Sys K V} {w w' : WPc K V} {pc : Pc K V} (h : ReadOk s es c w pc)
    (hw : ∀ k, k ∉ unsynced es w → k ∉ unsynced es w') (hc : ∀ n v, c.sdb n = some v → c'.sdb n = some v) :
    ReadOk s es c' w' pc := by
  cases pc with
  | start k => trivial
  | missed k => exact hw k h
  | found k n =>
    obtain ⟨h1, v, h2, h3⟩ := h
    exact ⟨hw k h1, v, hc n v h2, h3⟩
  | loaded k v => exact ⟨hw k h.1, h.2⟩
  | done k a => exact h

theorem evict_inv {c : Conf K V} (hb : Batch s es) (hi : Inv leaf s es c) (k : K) : Inv leaf s es (step leaf true es c (.evict k)) := by
  unfold step
  dsimp only
  split
  · rename_i e he
    split
    · exact hi
    · rename_i hd
      have hns : k ∉ unsynced es c.writer := fun hk => by
        have h1 := hi.pending k hk
        have hm : k ∈ es.map Prod.fst := Decidable.byContradiction fun hm => unsynced_sub hi hm hk
        obtain ⟨p, hp, rfl⟩ := List.mem_map.1 hm
        obtain ⟨h2, h3⟩ := hb.entry p hp
        rw [h1, h2] at he
        injection he with he
        subst he
        apply hd
        unfold Entry.isDirty
        split
        · rename_i h
          exact absurd h h3
        · rfl
      refine ⟨phase_cong hi.phase rfl rfl, hi.suffix, fun k' hk' => ?_, fun k' hk' e' he' => ?_, fun pc hpc => ?_, hi.dirty⟩
      · have hne : k' ≠ k := fun h => hns (h ▸ hk')
        show upd c.sys.cache k none k' = _
        unfold upd
        rw [if_neg hne]
        exact hi.pending k' hk'
      · change upd c.sys.cache k none k' = some e' at he'
        unfold upd at he'
        split at he'
        · cases he'
        · exact hi.settled k' hk' e' he'
      · exact readOk_mono (hi.readers pc hpc) (fun _ h => h) (fun _ _ h => h)
  · exact hi

theorem reader_inv {c : Conf K V} (hg : Good s) (hl : LeafOk leaf) (hb : Batch s es) (ha : Apart leaf s es) (hi : Inv leaf s es c)
    (i : Nat) : Inv leaf s es (step leaf true es c (.reader i)) := by
  unfold step
  dsimp only
  split
  · exact hi
  · rename_i pc hpc
    have hr := hi.readers pc (List.mem_of_getElem? hpc)
    have same : ∀ pc', ReadOk s es c.sys c.writer pc' → Inv leaf s es { c with readers := c.readers.set i pc' } := fun pc' h' =>
      ⟨hi.phase, hi.suffix, hi.pending, hi.settled, fun q hq => by
        rcases List.mem_or_eq_of_mem_set hq with hq | rfl
        · exact hi.readers q hq
        · exact h', hi.dirty⟩
    cases pc with
    | start k =>
      unfold readStep
      dsimp only
      cases hc : c.sys.cache k with
      | none =>
        refine same _ fun hk => ?_
        have h1 := hi.pending k hk
        have hm : k ∈ es.map Prod.fst := Decidable.byContradiction fun hm => unsynced_sub hi hm hk
        obtain ⟨p, hp, rfl⟩ := List.mem_map.1 hm
        rw [hc, (hb.entry p hp).1] at h1
        cases h1
      | some e =>
        refine same _ ?_
        show Ans.value _ = _
        by_cases hk : k ∈ unsynced es c.writer
        · have h1 := hi.pending k hk
          unfold visible
          rw [← h1, hc]
        · obtain ⟨h1, h2⟩ := hi.settled k hk e hc
          rw [h1, h2, if_neg (by decide)]
    | missed k =>
      obtain ⟨h1, h2, h3⟩ := lookup_ok hg hl hb ha hi hr
      unfold readStep
      dsimp only
      split
      · rename_i h
        exact same _ (by show Ans.value none = _; rw [h1 h])
      · rename_i v h
        exact same _ ⟨hr, h2 v h⟩
      · rename_i n h
        exact same _ ⟨hr, h3 n h⟩
    | found k n =>
      obtain ⟨h1, v, h2, h3⟩ := hr
      unfold readStep
      dsimp only
      rw [h2]
      exact same _ ⟨h1, h3⟩
    | loaded k v =>
      obtain ⟨h1, h2⟩ := hr
      unfold readStep
      dsimp only
      refine ⟨phase_cong hi.phase rfl rfl, hi.suffix, fun k' hk' => ?_, fun k' hk' e' he' => ?_, fun q hq => ?_, hi.dirty⟩
      · have hne : k' ≠ k := fun h => h1 (h ▸ hk')
        show upd c.sys.cache k _ k' = _
        unfold upd
        rw [if_neg hne]
        exact hi.pending k' hk'
      · change upd c.sys.cache k _ k' = some e' at he'
        unfold upd at he'
        split at he'
        · rename_i h
          injection he' with he'
          subst he'
          rw [h]
          exact ⟨rfl, h2⟩
        · exact hi.settled k' hk' e' he'
      · rcases List.mem_or_eq_of_mem_set hq with hq | rfl
        · exact readOk_mono (hi.readers q hq) (fun _ h => h) (fun _ _ h => h)
        · show Ans.value _ = _
          rw [h2]
    | done k a => exact same _ hr

theorem writer_inv {c : Conf K V} (hb : Batch s es) (ha : Apart leaf s es) (hi : Inv leaf s es c) :
    Inv leaf s es (step leaf true es c .writer) := by
  obtain ⟨cs, w, rs⟩ := c
  have mono := fun (pc : Pc K V) (h : pc ∈ rs) => hi.readers pc h
  cases w with
  | trie =>
    exact ⟨⟨by show List.foldl _ cs.trie es = _; rw [hi.phase.1], hi.phase.2⟩, fun _ h => (by cases h), hi.pending, hi.settled,
      fun pc h => readOk_mono (mono pc h) (fun _ h => h) (fun _ _ h => h), fun h => (by cases h)⟩
  | sdb =>
    refine ⟨⟨hi.phase.1, by show List.foldl _ cs.sdb es = _; rw [hi.phase.2]⟩, fun rest h => ?_, hi.pending, hi.settled,
      fun pc h => readOk_mono (mono pc h) (fun _ h => h) (fun n v h => ?_), fun h => (by cases h)⟩
    · injection h with h
      subst h
      exact ⟨hb.nodup, fun _ h => h⟩
    · have e : cs.sdb = s.sdb := hi.phase.2
      show List.foldl _ cs.sdb es n = _
      rw [e] at h ⊢
      exact keep ha h
  | cache rest =>
    cases rest with
    | nil => exact ⟨hi.phase, fun _ h => (by cases h), hi.pending, hi.settled,
        fun pc h => readOk_mono (mono pc h) (fun _ h => h) (fun _ _ h => h), fun h => (by cases h)⟩
    | cons p rest =>
      obtain ⟨hn, hsub⟩ := hi.suffix _ rfl
      rw [List.map_cons, List.nodup_cons] at hn
      have hp := hsub p (List.mem_cons_self ..)
      have hcp : cs.cache p.1 = s.cache p.1 := hi.pending p.1 (List.mem_cons_self ..)
      obtain ⟨he, hst⟩ := hb.entry p hp
      refine ⟨hi.phase, fun r h => ?_, fun k hk => ?_, fun k hk e hek => ?_, fun pc h => readOk_mono (mono pc h) ?_ (fun _ _ h => h),
        fun h => (by cases h)⟩
      · injection h with h
        subst h
        exact ⟨hn.2, fun q hq => hsub q (List.mem_cons_of_mem _ hq)⟩
      · have hne : k ≠ p.1 := fun h => hn.1 (h ▸ hk)
        show directStep cs.cache p k = _
        unfold directStep upd
        rw [if_neg hne]
        exact hi.pending k (List.mem_cons_of_mem _ hk)
      · change directStep cs.cache p k = some e at hek
        unfold directStep upd at hek
        split at hek
        · rename_i h
          subst h
          rw [hcp, he] at hek
          unfold settled at hek
          split at hek
          · cases hek
          · rename_i hr
            injection hek with hek
            subst hek
            refine ⟨rfl, ?_⟩
            rw [visible_entry hb hp]
            unfold outcome
            rw [if_neg hr]
            rfl
        · rename_i hne
          exact hi.settled k (fun h => (List.mem_cons.1 h).elim hne hk) e hek
      · exact fun k h h' => h (List.mem_cons_of_mem _ h')
  | clear => exact ⟨hi.phase, fun _ h => (by cases h), hi.pending, hi.settled,
      fun pc h => readOk_mono (mono pc h) (fun _ h => h) (fun _ _ h => h), fun _ => rfl⟩
  | finished => exact hi

theorem initial_inv (hg : Good s) (hb : Batch s es) (ks : List K) : Inv leaf s es (initial s ks) := by
  refine ⟨⟨rfl, rfl⟩, fun _ h => (by cases h), fun _ _ => rfl, fun k hk e he => ?_, fun pc h => ?_, fun h => (by cases h)⟩
  · have hc : e.status = .clean := Decidable.byContradiction fun hc => hk (hb.all k e he hc)
    refine ⟨hc, ?_⟩
    change s.cache k = some e at he
    unfold visible
    rw [he]
    dsimp only
    rw [hc, if_neg (by decide)]
  · obtain ⟨k, _, rfl⟩ := List.mem_map.1 h
    trivial

theorem run_inv (hg : Good s) (hl : LeafOk leaf) (hb : Batch s es) (ha : Apart leaf s es) : ∀ (evs : List (Ev K)) {c : Conf K V},
    Inv leaf s es c → Inv leaf s es (run leaf true es c evs)
  | [], _, h => h
  | ev :: evs, c, h => by
    refine run_inv hg hl hb ha evs (c := step leaf true es c ev) ?_
    cases ev with
    | writer => exact writer_inv hb ha h
    | reader i => exact reader_inv hg hl hb ha h i
    | evict k => exact evict_inv hb h k

end Fastroll.Readers
