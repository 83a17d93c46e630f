import Verif.Store.Lemmas2
/-
Commits, staged blocks and whole histories.
-/
namespace Fastroll.Store
open Fastroll StateCache
variable {V : Type}

theorem safe_of_rel {s : St Key V} {b : Spec.Abs Key V} (h : Rel s b) {k0 : Key}
    (hk : (∀ k, b.committed k = none) ∨ (b.committed k0).isSome = true ∧ (Spec.visible b k0).isSome = true) :
    Safe k0 s.db (collectDirty s) := by
  rcases hk with hk | ⟨h1, h2⟩
  · refine .inl fun p hp hst => ?_
    obtain ⟨k, e⟩ := p
    obtain ⟨h3, h4⟩ := (mem_collect h k e).1 hp
    have hrel := h.key k
    rw [h4] at hrel
    cases hpend : b.pend k with
    | none => rw [hpend] at h3; cases h3
    | some q =>
      rw [hpend] at hrel
      cases q with
      | added v => rw [hrel.1] at hst; cases hst
      | updated v => rw [hrel.1] at hst; cases hst
      | removed => have := hrel.2; rw [hk k] at this; cases this
  · refine .inr ⟨by rw [h.db]; exact h1, fun p hp hst e => ?_⟩
    obtain ⟨k, e'⟩ := p
    dsimp only at e hst
    subst e
    obtain ⟨h3, h4⟩ := (mem_collect h k e').1 hp
    have hrel := h.key k
    rw [h4] at hrel
    unfold Spec.visible at h2
    cases hpend : b.pend k with
    | none => rw [hpend] at h3; cases h3
    | some q =>
      rw [hpend] at hrel h2
      cases q with
      | added v => rw [hrel.1] at hst; cases hst
      | updated v => rw [hrel.1] at hst; cases hst
      | removed => cases h2

theorem collect_same {S : Sys V} {s : St Key V} (hc : S.cache = s.cache) (hd : S.dirty = s.dirty) :
    collectDirty (over S none) = collectDirty s := by
  unfold collectDirty over
  dsimp only
  rw [hc, hd]

theorem batch_ne (C : Codec V) {s : St Key V} {b : Spec.Abs Key V} (h : Rel s b) (hne : collectDirty s ≠ []) :
    (collectDirty s).filterMap (toTrie C) ≠ [] := by
  obtain ⟨⟨k, e⟩, l, hl⟩ := List.exists_cons_of_ne_nil hne
  obtain ⟨h3, h4⟩ := (mem_collect h k e).1 (by rw [hl]; exact List.mem_cons_self)
  have hrel := h.key k
  rw [h4] at hrel
  rw [hl]
  have : ∃ t, toTrie C (k, e) = some t := by
    unfold toTrie
    cases hpend : b.pend k with
    | none => rw [hpend] at h3; cases h3
    | some q =>
      rw [hpend] at hrel
      cases q with
      | added v => dsimp only; rw [hrel.1]; exact ⟨_, rfl⟩
      | updated v => dsimp only; rw [hrel.1]; exact ⟨_, rfl⟩
      | removed => dsimp only; rw [hrel.1]; exact ⟨_, rfl⟩
  obtain ⟨t, ht⟩ := this
  rw [List.filterMap_cons_some ht]
  exact List.cons_ne_nil _ _

variable {env : Trie.Env} {C : Codec V} {S : Sys V} {s : St Key V} {a : Trie.Spec.Abs} {b : Spec.Abs Key V} {k0 : Key}

theorem commit_sim (hfair : env.fair) (hH : ∀ x, (env.H x).length = 32) (h : Sim env C S s a) (hr : Rel s b)
    (hst : b.staged = []) (hnp : (Spec.step b (.commit true)).1 ≠ .err .panic)
    (hk : (∀ k, b.committed k = none) ∨ (b.committed k0).isSome = true ∧ (Spec.visible b k0).isSome = true) :
    (commit env C S).1 = Out.ofCache (StateCache.step s (.commit true)).1 ∧
    ∃ a', Sim env C (commit env C S).2 (StateCache.step s (.commit true)).2 a' := by
  have hw := writeAll_rel hr
  have hsafe := safe_of_rel hr hk
  have hcoll := collect_same (S := S) h.cache h.dirty
  show (commit env C S).1 = Out.ofCache (StateCache.Out.ofRes (StateCache.commit s true).1) ∧
    ∃ a', Sim env C (commit env C S).2 (StateCache.commit s true).2 a'
  have hcn := collect_nil hr
  unfold commit StateCache.commit
  rw [hcoll]
  cases hc : collectDirty s with
  | nil => exact ⟨rfl, a, h⟩
  | cons p ps =>
    have htouch : b.touched = true := by
      cases ht : b.touched with
      | true => rfl
      | false => rw [hcn.2 ht] at hc; cases hc
    have hclash : b.clash = false := by
      cases hcl : b.clash with
      | false => rfl
      | true =>
        exfalso; apply hnp
        simp [Spec.step, htouch, hcl]
    rw [hclash, hc] at hw
    rw [hc] at hsafe
    simp only [Bool.false_eq_true, if_false] at hw
    dsimp only
    rw [if_pos h.alive, hw]
    obtain ⟨kv', h1, h2⟩ := batch_repr C k0 (p :: ps) s.db _ a.kv hw h.repr hsafe
    have hstage : a.staged = [] := by
      apply List.eq_nil_of_length_eq_zero
      rw [h.len, hr.len, hst]; rfl
    have hsp : Trie.Spec.step a (.commit ((p :: ps).filterMap (toTrie C))) = some { a with kv := kv' } := by
      unfold Trie.Spec.step
      dsimp only
      rw [if_pos ⟨hstage, batch_len C _⟩, h1]
      rfl
    obtain ⟨e1, ok1⟩ := Trie.step_ok hfair hH h.ok hsp
    generalize hstep : Trie.step env S.trie (.commit ((p :: ps).filterMap (toTrie C))) = r at e1 ok1 ⊢
    obtain ⟨res, t⟩ := r
    dsimp only at e1
    subst e1
    dsimp only
    refine ⟨rfl, { a with kv := kv' }, ?_⟩
    exact { alive := h.alive, cache := by simp only [if_true]; rw [h.cache], dirty := rfl, ents := h.ents, ok := ok1, repr := h2,
            len := h.len, reprs := h.reprs }

theorem stage_sim (hfair : env.fair) (hH : ∀ x, (env.H x).length = 32) (h : Sim env C S s a) (hr : Rel s b)
    (hnp : (Spec.step b .stage).1 ≠ .err .panic)
    (hk : (∀ k, b.committed k = none) ∨ (b.committed k0).isSome = true ∧ (Spec.visible b k0).isSome = true) :
    (stage env C S).1 = Out.ofCache (StateCache.step s .stage).1 ∧
    ∃ a', Sim env C (stage env C S).2 (StateCache.step s .stage).2 a' := by
  have hw := writeAll_rel hr
  have hsafe := safe_of_rel hr hk
  have hcoll := collect_same (S := S) h.cache h.dirty
  have hne := batch_ne C hr
  show (stage env C S).1 = Out.ofCache (StateCache.Out.ofRes (StateCache.stage s).1) ∧
    ∃ a', Sim env C (stage env C S).2 (StateCache.stage s).2 a'
  have hcn := collect_nil hr
  unfold stage StateCache.stage
  rw [hcoll]
  cases hc : collectDirty s with
  | nil => exact ⟨rfl, a, h⟩
  | cons p ps =>
    have htouch : b.touched = true := by
      cases ht : b.touched with
      | true => rfl
      | false => rw [hcn.2 ht] at hc; cases hc
    have hclash : b.clash = false := by
      cases hcl : b.clash with
      | false => rfl
      | true =>
        exfalso; apply hnp
        simp [Spec.step, htouch, hcl]
    rw [hc] at hne hsafe
    rw [hclash, hc] at hw
    simp only [Bool.false_eq_true, if_false] at hw
    dsimp only
    rw [if_pos h.alive, hw]
    obtain ⟨kv', h1, h2⟩ := batch_repr C k0 (p :: ps) s.db _ a.kv hw h.repr hsafe
    have hsp : Trie.Spec.step a (.stage ((p :: ps).filterMap (toTrie C))) = some { a with staged := a.staged ++ [kv'] } := by
      unfold Trie.Spec.step
      dsimp only
      rw [if_pos (batch_len C _), h1]
      rfl
    obtain ⟨e1, ok1⟩ := Trie.step_ok hfair hH h.ok hsp
    obtain ⟨w, e2, _⟩ := Trie.prepare_stored hfair hH h.ok.db.toStored (hne (List.cons_ne_nil _ _)) (Trie.all_len (batch_len C _)) h1
    have hcs := h.ok.cs
    unfold Trie.step at ok1
    dsimp only at ok1
    rw [hcs, e2] at ok1 ⊢
    dsimp only at ok1 ⊢
    refine ⟨rfl, { a with staged := a.staged ++ [kv'] }, ?_⟩
    refine { alive := h.alive, cache := ?_, dirty := rfl, ents := ?_, ok := ok1, repr := h.repr, len := ?_, reprs := ?_ }
    · show S.dirty.foldl rollbackStep S.cache = s.dirty.foldl rollbackStep s.cache
      rw [h.cache, h.dirty]
    · show (p :: ps) :: S.staged = _
      rw [h.ents]; rfl
    · show (a.staged ++ [kv']).length = (s.staged.length + 1)
      rw [List.length_append, h.len]; rfl
    · intro i kv x hkv hx
      dsimp only at hkv
      rw [List.reverse_append] at hkv
      cases i with
      | zero =>
        injection hkv with hkv
        have : (⟨p :: ps, Spec.visible b⟩ : Artifact Key V) = x := by injection hx
        rw [← hkv, ← this]
        exact h2
      | succ i => exact h.reprs i kv x hkv hx

theorem finalize_sim (hfair : env.fair) (hH : ∀ x, (env.H x).length = 32) (h : Sim env C S s a) (i : Nat) :
    (finalize env S i).1 = Out.ofCache (StateCache.step s (.finalize i)).1 ∧
    ∃ a', Sim env C (finalize env S i).2 (StateCache.step s (.finalize i)).2 a' := by
  show (finalize env S i).1 = Out.ofCache (StateCache.Out.ofRes (StateCache.finalize s i).1) ∧
    ∃ a', Sim env C (finalize env S i).2 (StateCache.finalize s i).2 a'
  have hget : S.staged[i]? = s.staged[i]?.map Artifact.entries := by rw [h.ents, List.getElem?_map]
  unfold finalize StateCache.finalize
  rw [hget]
  cases hx : s.staged[i]? with
  | none => exact ⟨rfl, a, h⟩
  | some x =>
    dsimp only [Option.map]
    rw [if_pos h.alive]
    have hi : i < s.staged.length := (List.getElem?_eq_some_iff.1 hx).1
    have hi' : i < a.staged.length := by rw [h.len]; exact hi
    obtain ⟨kv, hkv⟩ : ∃ kv, a.staged.reverse[i]? = some kv :=
      ⟨_, List.getElem?_eq_getElem (by rw [List.length_reverse]; exact hi')⟩
    have hidx : a.staged[S.staged.length - 1 - i]? = some kv := by
      rw [List.getElem?_reverse hi'] at hkv
      rw [h.ents, List.length_map, ← h.len]
      exact hkv
    have hsp : Trie.Spec.step a (.finalize (S.staged.length - 1 - i)) = some ⟨kv, []⟩ := by
      unfold Trie.Spec.step
      dsimp only
      rw [hidx]
    obtain ⟨_, ok1⟩ := Trie.step_ok hfair hH h.ok hsp
    refine ⟨rfl, ⟨kv, []⟩, ?_⟩
    exact { alive := h.alive, cache := by dsimp only; rw [h.cache], dirty := h.dirty, ents := rfl, ok := ok1,
            repr := h.reprs i kv x hkv hx, len := rfl, reprs := fun j kv' x' hj => by simp at hj }

theorem rollback_sim (h : Sim env C S s a) : Sim env C (rollback S) (StateCache.rollback s) a :=
  { alive := h.alive, cache := by show S.dirty.foldl rollbackStep S.cache = s.dirty.foldl rollbackStep s.cache
                                  rw [h.cache, h.dirty], dirty := rfl, ents := h.ents, ok := h.ok, repr := h.repr, len := h.len,
    reprs := h.reprs }

theorem step_sim (hfair : env.fair) (hH : ∀ x, (env.H x).length = 32) (h : Sim env C S s a) (hr : Rel s b)
    (hap : Apart env.H S) (hdec : ∀ k v, s.db k = some v → C.dec k (C.enc v) = some v) (o : Op V)
    (hal : Spec.allowed b o.plain = true) (hnp : (Spec.step b o.plain).1 ≠ .err .panic)
    (hk : (∀ k, b.committed k = none) ∨ (b.committed k0).isSome = true ∧ (Spec.visible b k0).isSome = true) :
    (step env C S o).1 = Out.ofCache (StateCache.step s o.plain).1 ∧
    ∃ a', Sim env C (step env C S o).2 (StateCache.step s o.plain).2 a' := by
  have hkey : ∀ (k : Key) (q : StateCache.Op Key V), keyOf q = some k →
      (atKey C S k q).1 = Out.ofCache (StateCache.step s q).1 ∧ ∃ a', Sim env C (atKey C S k q).2 (StateCache.step s q).2 a' := by
    intro k q hq
    obtain ⟨h1, h2⟩ := atKey_sim h hap hdec k q hq
    exact ⟨h1, a, by rw [h2]; exact key_sim h k q hq⟩
  cases o with
  | get k => exact hkey k _ rfl
  | getClean k => exact hkey k _ rfl
  | add k v => exact hkey k _ rfl
  | update k f => exact hkey k _ rfl
  | remove k => exact hkey k _ rfl
  | commit => exact commit_sim hfair hH h hr (by simpa [Op.plain, Spec.allowed] using hal) hnp hk
  | stage => exact stage_sim hfair hH h hr hnp hk
  | finalize i => exact finalize_sim hfair hH h i
  | rollback => exact ⟨rfl, a, rollback_sim h⟩
  | evict k =>
    have hl : (StateCache.evict (over S none) k).cache = (StateCache.evict s k).cache ∧
        (StateCache.evict (over S none) k).dirty = (StateCache.evict s k).dirty := by
      unfold StateCache.evict over
      dsimp only
      rw [h.cache, h.dirty]
      split
      · split <;> exact ⟨rfl, rfl⟩
      · exact ⟨rfl, rfl⟩
    refine ⟨rfl, a, ?_⟩
    show Sim env C { S with cache := (StateCache.evict (over S none) k).cache
                            dirty := (StateCache.evict (over S none) k).dirty } _ a
    rw [hl.1, hl.2]
    exact key_sim h k (.evict k) rfl

/-! ### The state database only grows -/

theorem applyCommit_grows (t : Trie.Sys) (w : Option Trie.Prepared) {x : Trie.Bytes × Trie.Bytes} (hx : x ∈ t.stateDb) :
    x ∈ (t.applyCommit w).stateDb := by
  cases w with
  | none => exact hx
  | some w => exact List.mem_append_right _ hx

theorem trie_grows (t : Trie.Sys) (o : Trie.Op) {x : Trie.Bytes × Trie.Bytes} (hx : x ∈ t.stateDb) :
    x ∈ (Trie.step env t o).2.stateDb := by
  cases o with
  | commit es =>
    unfold Trie.step
    dsimp only
    split
    · exact hx
    · exact applyCommit_grows _ _ hx
  | stage es =>
    unfold Trie.step
    dsimp only
    split <;> exact hx
  | finalize i =>
    unfold Trie.step
    dsimp only
    split
    · exact hx
    · exact applyCommit_grows _ _ hx

theorem refused_db (S : Sys V) (x : Trie.Err) (t : Trie.Sys) : (refused S x t).2.trie = t := by
  unfold refused
  split <;> rfl

theorem atKey_trie (C : Codec V) (S : Sys V) (k : Key) (o : StateCache.Op Key V) : (atKey C S k o).2.trie = S.trie := by
  unfold atKey
  split
  · rfl
  · split <;> rfl

theorem step_grows (C : Codec V) (S : Sys V) (o : Op V) {x : Trie.Bytes × Trie.Bytes} (hx : x ∈ S.trie.stateDb) :
    x ∈ (step env C S o).2.trie.stateDb := by
  cases o with
  | get k => show x ∈ (atKey C S k _).2.trie.stateDb; rw [atKey_trie]; exact hx
  | getClean k => show x ∈ (atKey C S k _).2.trie.stateDb; rw [atKey_trie]; exact hx
  | add k v => show x ∈ (atKey C S k _).2.trie.stateDb; rw [atKey_trie]; exact hx
  | update k f => show x ∈ (atKey C S k _).2.trie.stateDb; rw [atKey_trie]; exact hx
  | remove k => show x ∈ (atKey C S k _).2.trie.stateDb; rw [atKey_trie]; exact hx
  | commit =>
    show x ∈ (commit env C S).2.trie.stateDb
    unfold commit
    split
    · exact hx
    · split
      · rename_i p ps _ _
        have := trie_grows (env := env) S.trie (.commit ((p :: ps).filterMap (toTrie C))) hx
        generalize Trie.step env S.trie (.commit ((p :: ps).filterMap (toTrie C))) = r at this ⊢
        obtain ⟨res, t⟩ := r
        cases res with
        | error e => dsimp only; rw [refused_db]; exact this
        | ok u => exact this
      · exact hx
  | stage =>
    show x ∈ (stage env C S).2.trie.stateDb
    unfold stage
    split
    · exact hx
    · split
      · split
        · rw [refused_db]; exact hx
        · exact hx
        · exact hx
      · exact hx
  | finalize i =>
    show x ∈ (finalize env S i).2.trie.stateDb
    unfold finalize
    split
    · exact hx
    · split
      · exact trie_grows _ _ hx
      · exact hx
  | rollback => exact hx
  | evict k => exact hx

theorem run_grows (C : Codec V) : ∀ (os : List (Op V)) (S : Sys V) {x : Trie.Bytes × Trie.Bytes}, x ∈ S.trie.stateDb →
    x ∈ (run env C S os).2.trie.stateDb
  | [], _, _, hx => hx
  | o :: os, S, _, hx => run_grows C os _ (step_grows C S o hx)

/-! ### Values stay typed -/

/-- Everything committed, pending or staged is of its key's type. -/
structure AllTyped (T : Key → V → Prop) (b : Spec.Abs Key V) : Prop where
  committed : ∀ k v, b.committed k = some v → T k v
  visible : ∀ k v, Spec.visible b k = some v → T k v
  staged : ∀ m ∈ b.staged, ∀ k v, m k = some v → T k v

theorem step_typed {T : Key → V → Prop} (h : AllTyped T b) (o : Op V) (ho : Typed T o) :
    AllTyped T (Spec.step b o.plain).2 := by
  have hput : ∀ k p, (∀ v, Spec.Pend.see p = some v → T k v) → ∀ t c,
      AllTyped T { b with pend := upd b.pend k (some p), touched := t, clash := c } := by
    intro k p hp t c
    refine ⟨h.committed, fun k' v hv => ?_, h.staged⟩
    unfold Spec.visible upd at hv
    dsimp only at hv
    by_cases e : k' = k
    · rw [if_pos e] at hv
      exact e ▸ hp v hv
    · rw [if_neg e] at hv
      exact h.visible k' v hv
  cases o with
  | get k => exact h
  | getClean k => exact h
  | add k v =>
    show AllTyped T (Spec.step b (.add k v)).2
    unfold Spec.step
    dsimp only
    split
    · exact h
    · exact hput k _ (fun w hw => by injection hw with hw; exact hw ▸ ho) _ _
  | update k f =>
    show AllTyped T (Spec.step b (.update k f)).2
    unfold Spec.step
    dsimp only
    split
    · exact h
    · rename_i v hv
      split
      · exact h
      · rename_i v' hv'
        refine hput k _ (fun w hw => ?_) _ _
        have : w = v' := by
          unfold Spec.overwrite at hw
          split at hw <;> (injection hw with hw; exact hw.symm)
        rw [this]
        exact ho v v' (h.visible k v hv) hv'
  | remove k =>
    show AllTyped T (Spec.step b (.remove k)).2
    unfold Spec.step
    dsimp only
    split
    · exact h
    · exact hput k _ (fun w hw => by cases hw) _ _
  | commit =>
    show AllTyped T (Spec.step b (.commit true)).2
    unfold Spec.step
    dsimp only
    split
    · exact h
    · split
      · exact h
      · exact ⟨h.visible, h.visible, h.staged⟩
  | stage =>
    show AllTyped T (Spec.step b .stage).2
    unfold Spec.step
    dsimp only
    split
    · exact h
    · split
      · exact h
      · refine ⟨h.committed, h.committed, fun m hm => ?_⟩
        rcases List.mem_cons.1 hm with rfl | hm
        · exact h.visible
        · exact h.staged m hm
  | finalize i =>
    show AllTyped T (Spec.step b (.finalize i)).2
    unfold Spec.step
    dsimp only
    split
    · exact h
    · rename_i m hm
      have hm' := h.staged m (List.mem_of_getElem? hm)
      refine ⟨hm', fun k v hv => ?_, fun m' hm' => by cases hm'⟩
      unfold Spec.visible at hv
      dsimp only at hv
      split at hv
      · rename_i p hp
        exact h.visible k v (by unfold Spec.visible; rw [hp]; exact hv)
      · exact hm' k v hv
  | rollback => exact ⟨h.committed, h.committed, h.staged⟩
  | evict k => exact h

theorem run_sim {T : Key → V → Prop} (hfair : env.fair) (hH : ∀ x, (env.H x).length = 32)
    (hdec : ∀ k v, T k v → C.dec k (C.enc v) = some v) : ∀ (os : List (Op V)) {S : Sys V} {s : St Key V} {a : Trie.Spec.Abs}
    {b : Spec.Abs Key V}, Sim env C S s a → Rel s b → AllTyped T b → Proper T k0 b os → Apart env.H (run env C S os).2 →
    (run env C S os).1 = (Spec.run b (os.map Op.plain)).1.map Out.ofCache ∧
    ∃ s' a', Sim env C (run env C S os).2 s' a' ∧ Rel s' (Spec.run b (os.map Op.plain)).2
  | [], S, s, a, b, h, hr, _, _, _ => ⟨rfl, s, a, h, hr⟩
  | o :: os, S, s, a, b, h, hr, ht, hp, hap => by
    obtain ⟨hal, hnp, hty, hk, hrest⟩ := hp
    have hap0 : Apart env.H S := fun x hx y hy =>
      hap x (run_grows C (o :: os) S hx) y (run_grows C (o :: os) S hy)
    obtain ⟨h1, a1, h2⟩ := step_sim hfair hH h hr hap0
      (fun k v hv => hdec k v (ht.committed k v (by rw [← hr.db]; exact hv))) o hal hnp hk
    obtain ⟨hr1, hout⟩ := step_rel hr o.plain hal
    obtain ⟨h3, h4⟩ := run_sim hfair hH hdec os h2 hr1 (step_typed ht o hty) hrest hap
    refine ⟨?_, h4⟩
    show (step env C S o).1 :: (run env C (step env C S o).2 os).1 =
      Out.ofCache (Spec.step b o.plain).1 :: (Spec.run (Spec.step b o.plain).2 (os.map Op.plain)).1.map Out.ofCache
    rw [h1, h3, hout]

theorem sim_init (env : Trie.Env) (C : Codec V) : Sim env C (Sys.init : Sys V) (opened fun _ => none) ⟨[], []⟩ :=
  { alive := rfl, cache := rfl, dirty := rfl, ents := rfl, ok := Trie.sysOk_init env.H,
    repr := ⟨List.nodup_nil, fun p b => ⟨fun h => (by cases h), fun ⟨k, _, v, h, _⟩ => (by cases h)⟩⟩, len := rfl,
    reprs := fun i kv x h => by simp at h }

theorem typed_init (T : Key → V → Prop) : AllTyped T (empty : Spec.Abs Key V) :=
  ⟨fun _ _ h => (by cases h), fun _ _ h => (by cases h), fun _ h => (by cases h)⟩

end Fastroll.Store
