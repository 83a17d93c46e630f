import Verif.Readers.Lemmas
/-
The finalization of a staged block, read meanwhile.
-/
namespace Fastroll.Readers
open Fastroll StateCache
variable {K V : Type} [DecidableEq K] {leaf : V → Leaf V} {s : Sys K V} {es : List (K × Entry V)}

/-- What a read of a key may give: the value before, or the one the block has. -/
def Fine (s : Sys K V) (es : List (K × Entry V)) (k : K) (o : Option V) : Prop :=
  o = visible s k ∨ ∃ e, (k, e) ∈ es ∧ o = outcome e

/-- Where a read may be. -/
def ReadFine (leaf : V → Leaf V) (s : Sys K V) (es : List (K × Entry V)) (c : Sys K V) : Pc K V → Prop
  | .start _ => True
  | .missed _ => True
  | .found k h => (k ∉ es.map Prod.fst → (c.sdb h).isSome = true) ∧
      ∃ v, es.foldl (writeSdb leaf) s.sdb h = some v ∧ Fine s es k (some v)
  | .loaded k v => Fine s es k (some v)
  | .done k a => (∃ o, a = .value o ∧ Fine s es k o) ∨ k ∈ es.map Prod.fst ∧ a = .missing

/-- The invariant of a finalization. -/
structure FInv (leaf : V → Leaf V) (s : Sys K V) (es : List (K × Entry V)) (c : Conf K V) : Prop where
  phase : phase leaf s es c.sys c.writer
  suffix : ∀ rest, c.writer = .cache rest → ∀ p ∈ rest, p ∈ es
  cache : ∀ k e, c.sys.cache k = some e → e.status = .clean ∧ Fine s es k (some e.value)
  readers : ∀ pc ∈ c.readers, ReadFine leaf s es c.sys pc

theorem fine_other {k : K} {o : Option V} (hk : k ∉ es.map Prod.fst) (h : Fine s es k o) : o = visible s k := by
  rcases h with h | ⟨e, he, _⟩
  · exact h
  · exact absurd (List.mem_map.2 ⟨_, he, rfl⟩) hk

theorem visible_clean (hg : Good s) (hd : s.dirty = []) (k : K) : visible s k = stored s k := by
  unfold visible
  cases hc : s.cache k with
  | none => rfl
  | some e =>
    have h : e.status = .clean := Decidable.byContradiction fun h => by
      have := (hg.dirty k).2 ⟨e, hc, h⟩
      rw [hd] at this
      cases this
    rw [hg.clean k e hc h]
    dsimp only
    rw [h, if_neg (by decide)]

omit [DecidableEq K] in
theorem key_unique : ∀ {es : List (K × Entry V)}, (es.map Prod.fst).Nodup → ∀ {k : K} {e e' : Entry V}, (k, e) ∈ es → (k, e') ∈ es →
    e = e'
  | p :: es, hn, k, e, e', h1, h2 => by
    rw [List.map_cons, List.nodup_cons] at hn
    rcases List.mem_cons.1 h1 with a | a <;> rcases List.mem_cons.1 h2 with b | b
    · rw [← b] at a
      injection a
    · exact absurd (List.mem_map.2 ⟨(k, e'), b, by rw [← a]⟩) hn.1
    · exact absurd (List.mem_map.2 ⟨(k, e), a, by rw [← b]⟩) hn.1
    · exact key_unique hn.2 a b

/-- What a read finds in the databases. -/
theorem flookup (hg : Good s) (hd : s.dirty = []) (hl : LeafOk leaf) (hn : (es.map Prod.fst).Nodup)
    (hc : ∀ p ∈ es, p.2.status ≠ .clean) (ha : Apart leaf s es) {c : Conf K V} (hi : FInv leaf s es c) (k : K) :
    (c.sys.trie k = none → Fine s es k none) ∧ (∀ v, c.sys.trie k = some (.embedded v) → Fine s es k (some v)) ∧
    (∀ h, c.sys.trie k = some (.hashed h) → (k ∉ es.map Prod.fst → (c.sys.sdb h).isSome = true) ∧
      ∃ v, es.foldl (writeSdb leaf) s.sdb h = some v ∧ Fine s es k (some v)) := by
  have key : c.sys.trie k = s.trie k ∨ k ∈ es.map Prod.fst ∧ c.sys.trie = es.foldl (writeLeaf leaf) s.trie := by
    by_cases hm : k ∈ es.map Prod.fst
    · have h := hi.phase
      cases hw : c.writer <;> rw [hw] at h <;> first | exact .inl (congrFun h.1 k) | exact .inr ⟨hm, h.1⟩
    · exact .inl (phase_trie hi.phase hm)
  rcases key with e | ⟨hm, e⟩
  · have hv := visible_clean hg hd k
    unfold stored at hv
    rw [e]
    refine ⟨fun h => ?_, fun v h => ?_, fun h hh => ?_⟩
    · rw [h] at hv
      exact .inl hv.symm
    · rw [h] at hv
      exact .inl hv.symm
    · rw [hh] at hv
      obtain ⟨v, hsv⟩ := Option.isSome_iff_exists.1 (hg.complete k h hh)
      refine ⟨fun _ => ?_, v, keep ha hsv, .inl (by rw [hv]; exact hsv.symm)⟩
      rw [(phase_sdb ha hi.phase).1 hsv]
      rfl
  · obtain ⟨p, hp, rfl⟩ := List.mem_map.1 hm
    obtain ⟨h1, h2, h3⟩ := stored_here hl hn ha p hp (hc p hp)
    rw [e]
    refine ⟨fun h => .inr ⟨p.2, hp, (h3 h).symm⟩, fun v h => .inr ⟨p.2, hp, (h1 v h).symm⟩, fun h hh => ⟨fun hx => absurd hm hx, ?_⟩⟩
    obtain ⟨v, hv, ho⟩ := h2 h hh
    exact ⟨v, hv, .inr ⟨p.2, hp, ho.symm⟩⟩

theorem readFine_mono {c c' : Sys K V} {pc : Pc K V} (h : ReadFine leaf s es c pc)
    (hc : ∀ n, (c.sdb n).isSome = true → (c'.sdb n).isSome = true) : ReadFine leaf s es c' pc := by
  cases pc with
  | start k => trivial
  | missed k => trivial
  | found k n => exact ⟨fun hk => hc n (h.1 hk), h.2⟩
  | loaded k v => exact h
  | done k a => exact h

theorem fstep (hg : Good s) (hd : s.dirty = []) (hl : LeafOk leaf) (hn : (es.map Prod.fst).Nodup)
    (hc : ∀ p ∈ es, p.2.status ≠ .clean) (ha : Apart leaf s es) {c : Conf K V} (hi : FInv leaf s es c) (ev : Ev K) :
    FInv leaf s es (step leaf false es c ev) := by
  cases ev with
  | writer =>
    obtain ⟨cs, w, rs⟩ := c
    have mono := fun (pc : Pc K V) (h : pc ∈ rs) => hi.readers pc h
    cases w with
    | trie => exact ⟨⟨by show List.foldl _ cs.trie es = _; rw [hi.phase.1], hi.phase.2⟩, fun _ h => (by cases h), hi.cache,
        fun pc h => readFine_mono (mono pc h) (fun _ h => h)⟩
    | sdb =>
      refine ⟨⟨hi.phase.1, by show List.foldl _ cs.sdb es = _; rw [hi.phase.2]⟩, fun rest h => ?_, hi.cache,
        fun pc h => readFine_mono (mono pc h) (fun n h => ?_)⟩
      · injection h with h
        subst h
        exact fun _ h => h
      · obtain ⟨v, hv⟩ := Option.isSome_iff_exists.1 h
        have e : cs.sdb = s.sdb := hi.phase.2
        show (List.foldl _ cs.sdb es n).isSome = true
        rw [e] at hv ⊢
        rw [keep ha hv]
        rfl
    | cache rest =>
      cases rest with
      | nil => exact ⟨hi.phase, fun _ h => (by cases h), hi.cache, fun pc h => readFine_mono (mono pc h) (fun _ h => h)⟩
      | cons p rest =>
        have hsub := hi.suffix _ rfl
        have hp := hsub p (List.mem_cons_self ..)
        refine ⟨hi.phase, fun r h => ?_, fun k e hek => ?_, fun pc h => readFine_mono (mono pc h) (fun _ h => h)⟩
        · injection h with h
          subst h
          exact fun q hq => hsub q (List.mem_cons_of_mem _ hq)
        · change deferredStep cs.cache p k = some e at hek
          unfold deferredStep upd at hek
          split at hek
          · rename_i h
            subst h
            unfold installed at hek
            cases hst : p.2.status with
            | clean => exact absurd hst (hc p hp)
            | dirty m =>
              rw [hst] at hek
              cases m with
              | remove => cases hek
              | add =>
                injection hek with hek
                subst hek
                exact ⟨rfl, .inr ⟨p.2, hp, by unfold outcome; rw [hst, if_neg (by decide)]; rfl⟩⟩
              | update =>
                injection hek with hek
                subst hek
                exact ⟨rfl, .inr ⟨p.2, hp, by unfold outcome; rw [hst, if_neg (by decide)]; rfl⟩⟩
          · exact hi.cache k e hek
    | clear => exact ⟨hi.phase, fun _ h => (by cases h), hi.cache, fun pc h => readFine_mono (mono pc h) (fun _ h => h)⟩
    | finished => exact hi
  | reader i =>
    unfold step
    dsimp only
    split
    · exact hi
    · rename_i pc hpc
      have hr := hi.readers pc (List.mem_of_getElem? hpc)
      have same : ∀ pc', ReadFine leaf s es c.sys pc' → FInv leaf s es { c with readers := c.readers.set i pc' } := fun pc' h' =>
        ⟨hi.phase, hi.suffix, hi.cache, fun q hq => by
          rcases List.mem_or_eq_of_mem_set hq with hq | rfl
          · exact hi.readers q hq
          · exact h'⟩
      cases pc with
      | start k =>
        unfold readStep
        dsimp only
        cases hck : c.sys.cache k with
        | none => exact same _ trivial
        | some e =>
          obtain ⟨h1, h2⟩ := hi.cache k e hck
          refine same _ (.inl ⟨some e.value, ?_, h2⟩)
          rw [h1, if_neg (by decide)]
      | missed k =>
        obtain ⟨h1, h2, h3⟩ := flookup hg hd hl hn hc ha hi k
        unfold readStep
        dsimp only
        split
        · rename_i h
          exact same _ (.inl ⟨none, rfl, h1 h⟩)
        · rename_i v h
          exact same _ (h2 v h)
        · rename_i n h
          exact same _ (h3 n h)
      | found k n =>
        obtain ⟨h1, v, h2, h3⟩ := hr
        unfold readStep
        dsimp only
        split
        · rename_i h
          refine same _ (.inr ⟨Decidable.byContradiction fun hm => ?_, rfl⟩)
          have := h1 hm
          rw [h] at this
          cases this
        · rename_i w h
          have := (phase_sdb ha hi.phase).2 h
          rw [h2] at this
          injection this with this
          subst this
          exact same _ h3
      | loaded k v =>
        unfold readStep
        dsimp only
        refine ⟨phase_cong hi.phase rfl rfl, hi.suffix, fun k' e' he' => ?_, fun q hq => ?_⟩
        · change upd c.sys.cache k _ k' = some e' at he'
          unfold upd at he'
          split at he'
          · rename_i h
            injection he' with he'
            subst he'
            rw [h]
            exact ⟨rfl, hr⟩
          · exact hi.cache k' e' he'
        · rcases List.mem_or_eq_of_mem_set hq with hq | rfl
          · exact readFine_mono (hi.readers q hq) (fun _ h => h)
          · exact .inl ⟨_, rfl, hr⟩
      | done k a => exact same _ hr
  | evict k =>
    unfold step
    dsimp only
    split
    · split
      · exact hi
      · refine ⟨phase_cong hi.phase rfl rfl, hi.suffix, fun k' e' he' => ?_,
          fun pc hpc => readFine_mono (hi.readers pc hpc) (fun _ h => h)⟩
        change upd c.sys.cache k none k' = some e' at he'
        unfold upd at he'
        split at he'
        · cases he'
        · exact hi.cache k' e' he'
    · exact hi

theorem initial_finv (hg : Good s) (hd : s.dirty = []) (ks : List K) : FInv leaf s es (initial s ks) := by
  refine ⟨⟨rfl, rfl⟩, fun _ h => (by cases h), fun k e he => ?_, fun pc h => ?_⟩
  · change s.cache k = some e at he
    have h : e.status = .clean := Decidable.byContradiction fun h => by
      have := (hg.dirty k).2 ⟨e, he, h⟩
      rw [hd] at this
      cases this
    exact ⟨h, .inl (by unfold visible; rw [he]; dsimp only; rw [h, if_neg (by decide)])⟩
  · obtain ⟨k, _, rfl⟩ := List.mem_map.1 h
    trivial

theorem run_finv (hg : Good s) (hd : s.dirty = []) (hl : LeafOk leaf) (hn : (es.map Prod.fst).Nodup)
    (hc : ∀ p ∈ es, p.2.status ≠ .clean) (ha : Apart leaf s es) : ∀ (evs : List (Ev K)) {c : Conf K V},
    FInv leaf s es c → FInv leaf s es (run leaf false es c evs)
  | [], _, h => h
  | ev :: evs, c, h => run_finv hg hd hl hn hc ha evs (c := step leaf false es c ev) (fstep hg hd hl hn hc ha h ev)

/-! ### No reader of the block's keys -/

/-- The key a reader is after. -/
def Pc.key : Pc K V → K
  | .start k => k
  | .missed k => k
  | .found k _ => k
  | .loaded k _ => k
  | .done k _ => k

theorem readStep_key (c : Sys K V) (pc : Pc K V) : (readStep c pc).2.key = pc.key := by
  cases pc <;> unfold readStep <;> dsimp only <;> (try split) <;> rfl

theorem readStep_cache (c : Sys K V) (pc : Pc K V) {k : K} (h : k ≠ pc.key) : (readStep c pc).1.cache k = c.cache k := by
  cases pc <;> unfold readStep <;> dsimp only <;> (try split) <;> first | rfl | (unfold upd; exact if_neg h)

/-- Readers keep off the block's keys, and what is cached under a key the writer is done with is the block's. -/
structure Quiet (es : List (K × Entry V)) (c : Conf K V) : Prop where
  off : ∀ pc ∈ c.readers, pc.key ∉ es.map Prod.fst
  sub : ∀ rest, c.writer = .cache rest → ∀ p ∈ rest, p ∈ es
  new : ∀ k ∈ es.map Prod.fst, k ∉ unsynced es c.writer → ∀ e, c.sys.cache k = some e →
    ∃ e0, (k, e0) ∈ es ∧ some e.value = outcome e0

theorem quiet_step (hc : ∀ p ∈ es, p.2.status ≠ .clean) {c : Conf K V} (hq : Quiet es c) (ev : Ev K) :
    Quiet es (step leaf false es c ev) := by
  cases ev with
  | writer =>
    obtain ⟨cs, w, rs⟩ := c
    cases w with
    | trie => exact ⟨hq.off, fun _ h => (by cases h), hq.new⟩
    | sdb =>
      refine ⟨hq.off, fun rest h => ?_, hq.new⟩
      injection h with h
      subst h
      exact fun _ h => h
    | cache rest =>
      cases rest with
      | nil => exact ⟨hq.off, fun _ h => (by cases h), hq.new⟩
      | cons p rest =>
        have hsub := hq.sub _ rfl
        have hp := hsub p (List.mem_cons_self ..)
        refine ⟨hq.off, fun r h => ?_, fun k hk hun e hek => ?_⟩
        · injection h with h
          subst h
          exact fun q hq => hsub q (List.mem_cons_of_mem _ hq)
        · change deferredStep cs.cache p k = some e at hek
          unfold deferredStep upd at hek
          split at hek
          · rename_i h
            subst h
            unfold installed at hek
            refine ⟨p.2, hp, ?_⟩
            unfold outcome
            cases hst : p.2.status with
            | clean => exact absurd hst (hc p hp)
            | dirty m =>
              rw [hst] at hek
              cases m with
              | remove => cases hek
              | add =>
                injection hek with hek
                subst hek
                rfl
              | update =>
                injection hek with hek
                subst hek
                rfl
          · rename_i hne
            exact hq.new k hk (fun h => (List.mem_cons.1 h).elim hne hun) e hek
    | clear => exact ⟨hq.off, fun _ h => (by cases h), hq.new⟩
    | finished => exact hq
  | reader i =>
    unfold step
    dsimp only
    split
    · exact hq
    · rename_i pc hpc
      have ho := hq.off pc (List.mem_of_getElem? hpc)
      refine ⟨fun q hqm => ?_, hq.sub, fun k hk hun e he => ?_⟩
      · rcases List.mem_or_eq_of_mem_set hqm with h | rfl
        · exact hq.off q h
        · rw [readStep_key]
          exact ho
      · change (readStep c.sys pc).1.cache k = some e at he
        rw [readStep_cache c.sys pc (fun h => ho (h ▸ hk))] at he
        exact hq.new k hk hun e he
  | evict k =>
    unfold step
    dsimp only
    split
    · split
      · exact hq
      · refine ⟨hq.off, hq.sub, fun k' hk hun e he => ?_⟩
        change upd c.sys.cache k none k' = some e at he
        unfold upd at he
        split at he
        · cases he
        · exact hq.new k' hk hun e he
    · exact hq

theorem quiet_run (hc : ∀ p ∈ es, p.2.status ≠ .clean) : ∀ (evs : List (Ev K)) {c : Conf K V}, Quiet es c →
    Quiet es (run leaf false es c evs)
  | [], _, h => h
  | ev :: evs, c, h => quiet_run hc evs (c := step leaf false es c ev) (quiet_step hc h ev)

/-- A finalization leaves the list of dirty keys alone. -/
theorem dirty_step (c : Conf K V) (hw : c.writer ≠ .clear) (ev : Ev K) :
    (step leaf false es c ev).sys.dirty = c.sys.dirty ∧ (step leaf false es c ev).writer ≠ .clear := by
  cases ev with
  | writer =>
    obtain ⟨cs, w, rs⟩ := c
    cases w with
    | cache rest => cases rest <;> exact ⟨rfl, fun h => (by cases h)⟩
    | clear => exact absurd rfl hw
    | _ => exact ⟨rfl, fun h => (by cases h)⟩
  | reader i =>
    unfold step
    dsimp only
    split
    · exact ⟨rfl, hw⟩
    · rename_i pc _
      refine ⟨?_, hw⟩
      cases pc <;> unfold readStep <;> dsimp only <;> (try split) <;> rfl
  | evict k =>
    unfold step
    dsimp only
    split
    · split
      · exact ⟨rfl, hw⟩
      · exact ⟨rfl, hw⟩
    · exact ⟨rfl, hw⟩

theorem dirty_run : ∀ (evs : List (Ev K)) (c : Conf K V), c.writer ≠ .clear → (run leaf false es c evs).sys.dirty = c.sys.dirty
  | [], _, _ => rfl
  | ev :: evs, c, h => by
    obtain ⟨h1, h2⟩ := dirty_step (leaf := leaf) (es := es) c h ev
    exact (dirty_run evs (step leaf false es c ev) h2).trans h1

end Fastroll.Readers
