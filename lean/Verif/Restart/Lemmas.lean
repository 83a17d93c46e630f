import Verif.Restart.Root
import Verif.Restart.Spec
/-
Adding the genesis entries to an empty store and to one that has them.
-/
namespace Fastroll.Restart
open Fastroll Store StateCache

variable {V : Type} {env : Trie.Env} {C : Codec V}

/-! ### A key that is there -/

theorem add_fails (S : Store.Sys V) (k : Key) (v : V) (ha : S.alive = true) (hc : S.cache k = none)
    (hr : Trie.retrieve S.trie k.1 ≠ .absent) : ∃ x, (Store.step env C S (.add k v)).1 = .err x := by
  show ∃ x, (atKey C S k (.add k v)).1 = .err x
  unfold atKey
  rw [hc, if_neg (by simp)]
  unfold fetch
  rw [if_pos ha]
  cases h : Trie.retrieve S.trie k.1 with
  | absent => exact absurd h hr
  | missing => exact ⟨.missing, rfl⟩
  | value b =>
    dsimp only
    cases C.dec k b with
    | none => exact ⟨.codec, rfl⟩
    | some w =>
      refine ⟨.cache .exists, ?_⟩
      unfold onCache StateCache.step StateCache.add StateCache.get Store.over
      dsimp only
      rw [hc]
      rfl

theorem onCache_alive (S : Store.Sys V) (r : StateCache.Out V × St Key V) : (onCache S r).2.alive = S.alive := rfl

theorem add_alive (S : Store.Sys V) (k : Key) (v : V) : (Store.step env C S (.add k v)).2.alive = S.alive := by
  show (atKey C S k (.add k v)).2.alive = _
  unfold atKey
  split
  · rfl
  · split <;> rfl

theorem cache_insert_other (s : St Key V) (k k' : Key) (x : StateCache.Entry V) (h : k ≠ k') :
    (StateCache.insertEntry s k' x).cache k = s.cache k := by simp [StateCache.insertEntry, upd, h]

theorem cache_get_other (s : St Key V) (k k' : Key) (h : k ≠ k') : (StateCache.get s k').1.cache k = s.cache k := by
  unfold StateCache.get
  split
  · rfl
  · split
    · rfl
    · exact cache_insert_other s k k' _ h

theorem cache_add_other (s : St Key V) (k k' : Key) (v : V) (h : k ≠ k') : (StateCache.add s k' v).2.cache k = s.cache k := by
  have hg := cache_get_other s k k' h
  unfold StateCache.add
  generalize StateCache.get s k' = q at hg
  obtain ⟨t, o⟩ := q
  cases o with
  | none => exact (cache_insert_other t k k' _ h).trans hg
  | some w => exact hg

theorem add_other (S : Store.Sys V) (k k' : Key) (v : V) (h : k ≠ k') :
    (Store.step env C S (.add k' v)).2.cache k = S.cache k := by
  show (atKey C S k' (.add k' v)).2.cache k = _
  unfold atKey
  split
  · exact cache_add_other (Store.over S none) k k' v h
  · split
    · rfl
    · exact cache_add_other (Store.over S _) k k' v h

theorem addAll_fails (k : Key) : ∀ (es : List (Key × V)) (S : Store.Sys V), S.alive = true → S.cache k = none →
    Trie.retrieve S.trie k.1 ≠ .absent → k ∈ es.map Prod.fst →
    (∃ x, (addAll env C S es).1 = .error x) ∧ (addAll env C S es).2.trie = S.trie
  | [], _, _, _, _, hk => by cases hk
  | e :: es, S, ha, hc, hr, hk => by
    have ht : (Store.step env C S (.add e.1 e.2)).2.trie = S.trie := atKey_trie C S e.1 _
    have ha' := add_alive (env := env) (C := C) S e.1 e.2
    unfold addAll
    by_cases hek : k = e.1
    · obtain ⟨x, hx⟩ := add_fails (env := env) (C := C) S e.1 e.2 ha (by rw [← hek]; exact hc) (by rw [← hek]; exact hr)
      generalize Store.step env C S (.add e.1 e.2) = q at hx ht
      obtain ⟨o, S'⟩ := q
      dsimp only at hx ht
      subst hx
      exact ⟨⟨x, rfl⟩, ht⟩
    · have hc' := add_other (env := env) (C := C) S k e.1 e.2 hek
      have hk' : k ∈ es.map Prod.fst := by
        rcases List.mem_cons.1 hk with h | h
        · exact absurd h hek
        · exact h
      generalize Store.step env C S (.add e.1 e.2) = q at hc' ht ha'
      obtain ⟨o, S'⟩ := q
      dsimp only at hc' ht ha'
      have ih := addAll_fails k es S' (by rw [ha', ha]) (by rw [hc', hc]) (by rw [ht]; exact hr) hk'
      rw [ht] at ih
      cases o with
      | value w => exact ih
      | done => exact ih
      | err x => exact ⟨⟨x, rfl⟩, ht⟩

theorem start_fails (g : Genesis V) (d : Disk V) (k : Key) (hk : k ∈ g.entries.map Prod.fst)
    (hr : Trie.retrieve d.store.trie k.1 ≠ .absent) :
    (∃ x, (start env C g d.reopen).1 = .error x) ∧ (start env C g d.reopen).2.store.trie = d.store.trie.reopen ∧
    (start env C g d.reopen).2.roots = d.roots := by
  obtain ⟨⟨x, hx⟩, ht⟩ := addAll_fails (env := env) (C := C) k g.entries (reopenStore d.store) rfl rfl hr hk
  unfold start writeGenesis
  have hst : d.reopen.store = reopenStore d.store := rfl
  rw [hst]
  generalize addAll env C (reopenStore d.store) g.entries = q at hx ht
  obtain ⟨r, S⟩ := q
  dsimp only at hx ht
  subst hx
  exact ⟨⟨x, rfl⟩, ht, rfl⟩

theorem lives_fail (g : Genesis V) (k : Key) (hk : k ∈ g.entries.map Prod.fst) : ∀ (oss : List (List (Store.Op V))) (d : Disk V),
    Trie.retrieve d.store.trie k.1 ≠ .absent →
    (∀ a ∈ (lives env C g d oss).1, ∃ x, a = .error x) ∧ SameData (lives env C g d oss).2.store d.store ∧
    (lives env C g d oss).2.roots = d.roots
  | [], d, _ => ⟨fun a ha => (by cases ha), ⟨rfl, rfl, rfl⟩, rfl⟩
  | os :: oss, d, hr => by
    obtain ⟨⟨x, hx⟩, ht, hro⟩ := start_fails (env := env) (C := C) g d k hk hr
    have hl : life env C g d os = (.error x, (start env C g d.reopen).2) := by
      unfold life
      generalize start env C g d.reopen = q at hx
      obtain ⟨r, d'⟩ := q
      dsimp only at hx
      subst hx
      rfl
    obtain ⟨h1, h2, h3⟩ := lives_fail g k hk oss (start env C g d.reopen).2 (by rw [ht]; exact hr)
    unfold lives
    rw [hl]
    refine ⟨fun a ha => ?_, ?_, h3.trans hro⟩
    · rcases List.mem_cons.1 ha with h | h
      · exact ⟨x, h⟩
      · exact h1 a h
    · unfold SameData at h2 ⊢
      rw [ht] at h2
      exact h2

/-! ### An empty store -/

theorem addAll_run : ∀ (es : List (Key × V)) (S : Store.Sys V),
    (∀ o ∈ (Store.run env C S (es.map fun e => .add e.1 e.2)).1, o = .done) →
    addAll env C S es = (.ok (), (Store.run env C S (es.map fun e => .add e.1 e.2)).2)
  | [], _, _ => rfl
  | e :: es, S, h => by
    have h1 := h _ (List.mem_cons_self ..)
    have ih := addAll_run es (Store.step env C S (.add e.1 e.2)).2 (fun o ho => h o (List.mem_cons_of_mem _ ho))
    unfold addAll
    show _ = (Except.ok (), (Store.run env C (Store.step env C S (.add e.1 e.2)).2 (es.map fun e => .add e.1 e.2)).2)
    generalize Store.step env C S (.add e.1 e.2) = q at h1 ih ⊢
    obtain ⟨o, S'⟩ := q
    dsimp only at h1 ih ⊢
    subst h1
    exact ih

theorem run_append : ∀ (os os' : List (Store.Op V)) (S : Store.Sys V),
    Store.run env C S (os ++ os') =
      ((Store.run env C S os).1 ++ (Store.run env C (Store.run env C S os).2 os').1, (Store.run env C (Store.run env C S os).2 os').2)
  | [], _, _ => rfl
  | o :: os, os', S => by
    show ((Store.step env C S o).1 :: (Store.run env C (Store.step env C S o).2 (os ++ os')).1,
      (Store.run env C (Store.step env C S o).2 (os ++ os')).2) = _
    rw [run_append os os']
    rfl

theorem spec_append {K : Type} [DecidableEq K] : ∀ (os os' : List (StateCache.Op K V)) (a : StateCache.Spec.Abs K V),
    StateCache.Spec.run a (os ++ os') =
      ((StateCache.Spec.run a os).1 ++ (StateCache.Spec.run (StateCache.Spec.run a os).2 os').1,
        (StateCache.Spec.run (StateCache.Spec.run a os).2 os').2)
  | [], _, _ => rfl
  | o :: os, os', a => by
    show ((StateCache.Spec.step a o).1 :: (StateCache.Spec.run (StateCache.Spec.step a o).2 (os ++ os')).1,
      (StateCache.Spec.run (StateCache.Spec.step a o).2 (os ++ os')).2) = _
    rw [spec_append os os']
    rfl

/-- The transaction after entries were added to an empty map. -/
structure Added (b b' : StateCache.Spec.Abs Key V) (es : List (Key × V)) : Prop where
  committed : ∀ k, b'.committed k = none
  staged : b'.staged = []
  clash : b'.clash = false
  touched : es ≠ [] ∨ b.touched = true → b'.touched = true
  inn : ∀ k v, (k, v) ∈ es → b'.pend k = some (.added v)
  out : ∀ k, k ∉ es.map Prod.fst → b'.pend k = b.pend k

theorem adds_spec {T : Key → V → Prop} {k0 : Key} : ∀ (es : List (Key × V)) (b : StateCache.Spec.Abs Key V), (∀ k, b.committed k = none) →
    b.staged = [] → b.clash = false → (∀ e ∈ es, b.pend e.1 = none) → (es.map Prod.fst).Nodup → (∀ e ∈ es, T e.1 e.2) →
    Proper T k0 b (es.map fun e => .add e.1 e.2) ∧
    (∀ o ∈ (StateCache.Spec.run b ((es.map fun e => Store.Op.add e.1 e.2).map Op.plain)).1, o = .done) ∧
    Added b (StateCache.Spec.run b ((es.map fun e => Store.Op.add e.1 e.2).map Op.plain)).2 es
  | [], b, hc, hs, hcl, _, _, _ =>
    ⟨trivial, fun o ho => (by cases ho), ⟨hc, hs, hcl, fun h => (by rcases h with h | h; exact absurd rfl h; exact h),
      fun _ _ h => (by cases h), fun _ _ => rfl⟩⟩
  | e :: es, b, hc, hs, hcl, hp, hn, hT => by
    have hv : StateCache.Spec.visible b e.1 = none := by
      unfold StateCache.Spec.visible
      rw [hp e (List.mem_cons_self ..)]
      exact hc e.1
    have hstep : StateCache.Spec.step b (.add e.1 e.2) =
        (.done, { b with pend := upd b.pend e.1 (some (.added e.2)), touched := true, clash := b.clash || (b.committed e.1).isSome }) := by
      unfold StateCache.Spec.step
      dsimp only
      rw [hv]
      rfl
    obtain ⟨hn1, hn2⟩ := List.nodup_cons.1 hn
    obtain ⟨h1, h2, h3⟩ := adds_spec (T := T) (k0 := k0) es
      { b with pend := upd b.pend e.1 (some (.added e.2)), touched := true, clash := b.clash || (b.committed e.1).isSome }
      hc hs (by dsimp only; rw [hcl, hc]; rfl)
      (fun e' he' => by
        show upd b.pend e.1 _ e'.1 = none
        have : e'.1 ≠ e.1 := fun h => hn1 (h ▸ List.mem_map_of_mem he')
        unfold upd
        rw [if_neg this]
        exact hp e' (List.mem_cons_of_mem _ he'))
      hn2 (fun e' he' => hT e' (List.mem_cons_of_mem _ he'))
    have hrun : StateCache.Spec.run b (((e :: es).map fun e => Store.Op.add e.1 e.2).map Op.plain) =
        (.done :: (StateCache.Spec.run { b with pend := upd b.pend e.1 (some (.added e.2)), touched := true,
                                                clash := b.clash || (b.committed e.1).isSome }
          ((es.map fun e => Store.Op.add e.1 e.2).map Op.plain)).1,
          (StateCache.Spec.run { b with pend := upd b.pend e.1 (some (.added e.2)), touched := true,
                                        clash := b.clash || (b.committed e.1).isSome }
          ((es.map fun e => Store.Op.add e.1 e.2).map Op.plain)).2) := by
      show ((StateCache.Spec.step b (.add e.1 e.2)).1 :: _, _) = _
      show ((StateCache.Spec.step b (.add e.1 e.2)).1 :: (StateCache.Spec.run (StateCache.Spec.step b (.add e.1 e.2)).2 _).1,
        (StateCache.Spec.run (StateCache.Spec.step b (.add e.1 e.2)).2 _).2) = _
      rw [hstep]
    refine ⟨⟨rfl, ?_, hT e (List.mem_cons_self ..), .inl hc, ?_⟩, ?_, ?_⟩
    · show (StateCache.Spec.step b (.add e.1 e.2)).1 ≠ _
      rw [hstep]
      intro h
      cases h
    · show Proper T k0 (StateCache.Spec.step b (.add e.1 e.2)).2 _
      rw [hstep]
      exact h1
    · rw [hrun]
      intro o ho
      rcases List.mem_cons.1 ho with h | h
      · exact h
      · exact h2 o h
    · rw [hrun]
      refine ⟨h3.committed, h3.staged, h3.clash, fun _ => h3.touched (.inr rfl), fun k v h => ?_, fun k hk => ?_⟩
      · rcases List.mem_cons.1 h with h | h
        · subst h
          rw [h3.out k hn1]
          show upd b.pend k _ k = _
          unfold upd
          rw [if_pos rfl]
        · exact h3.inn k v h
      · have hk1 : k ≠ e.1 := fun h => hk (by rw [h]; exact List.mem_cons_self ..)
        rw [h3.out k (fun h => hk (List.mem_cons_of_mem _ h))]
        show upd b.pend e.1 _ k = _
        unfold upd
        rw [if_neg hk1]

/-- The map after the genesis. -/
theorem visible_added {b' : StateCache.Spec.Abs Key V} {es : List (Key × V)} (h : Added empty b' es) (k : Key) (v : V) :
    StateCache.Spec.visible b' k = some v ↔ (k, v) ∈ es := by
  unfold StateCache.Spec.visible
  by_cases hk : k ∈ es.map Prod.fst
  · obtain ⟨⟨k', w⟩, hw, e⟩ := List.mem_map.1 hk
    dsimp only at e
    subst e
    rw [h.inn _ w hw]
    dsimp only [StateCache.Spec.Pend.see]
    refine ⟨fun e => ?_, fun hv => ?_⟩
    · injection e with e
      rw [← e]
      exact hw
    · have := (h.inn _ w hw).symm.trans (h.inn _ v hv)
      injection this with this
      injection this with this
      rw [this]
  · rw [h.out k hk]
    show b'.committed k = some v ↔ _
    rw [h.committed k]
    exact ⟨fun e => (by cases e), fun hv => absurd (List.mem_map_of_mem (f := Prod.fst) hv) hk⟩

end Fastroll.Restart
