import Verif.Restart.Lemmas
/-
The first start, and a store opened again.
-/
namespace Fastroll.Restart
open Fastroll Store StateCache

variable {V : Type} {env : Trie.Env} {C : Codec V} {T : Key → V → Prop} {k0 : Key}

theorem adds_trie : ∀ (es : List (Key × V)) (S : Store.Sys V),
    (Store.run env C S (es.map fun e => .add e.1 e.2)).2.trie = S.trie
  | [], _ => rfl
  | e :: es, S => (adds_trie es _).trans (atKey_trie C S e.1 _)

theorem encoded_repr {g : Genesis V} (hg : g.Ok) {m : Key → Option V} (hm : ∀ k v, m k = some v ↔ (k, v) ∈ g.entries) :
    Represents C.enc (g.encoded C.enc) m := by
  refine ⟨?_, fun p b => ?_⟩
  · have : (g.encoded C.enc).map Prod.fst = (g.entries.map Prod.fst).map Subtype.val := by
      unfold Genesis.encoded
      rw [List.map_map, List.map_map]
      rfl
    rw [this]
    unfold List.Nodup
    rw [List.pairwise_map]
    exact hg.2.imp fun h e => h (Subtype.ext e)
  · unfold Genesis.encoded
    rw [List.mem_map]
    constructor
    · rintro ⟨⟨k, v⟩, he, e⟩
      injection e with e1 e2
      exact ⟨k, e1, v, (hm k v).2 he, e2.symm⟩
    · rintro ⟨k, e1, v, hv, e2⟩
      exact ⟨(k, v), (hm k v).1 hv, by rw [← e1, e2]⟩

/-- What the first start does. -/
theorem writeGenesis_first (hfair : env.fair) (hH : ∀ x, (env.H x).length = 32) (g : Genesis V) (hg : g.Ok)
    (hC : ∀ e ∈ g.entries, C.dec e.1 (C.enc e.2) = some e.2) :
    writeGenesis env C Store.Sys.init g.entries = (.ok (), (Store.run env C Store.Sys.init (genesisOps g)).2) ∧
    (∀ o ∈ (Store.run env C Store.Sys.init (genesisOps g)).1, o = .done) ∧
    root (Store.run env C Store.Sys.init (genesisOps g)).2 = .ok (Trie.Spec.root env.H (g.encoded C.enc)) ∧
    (∀ k v, (after (genesisOps g)).2.committed k = some v ↔ (k, v) ∈ g.entries) := by
  obtain ⟨hp, hd, hb⟩ := adds_spec (T := fun k v => (k, v) ∈ g.entries) (k0 := (g.entries.head hg.1).1) g.entries empty
    (fun _ => rfl) rfl rfl (fun _ _ => rfl) hg.2 (fun e he => he)
  have hap : Apart env.H (Store.run env C Store.Sys.init (g.entries.map fun e => .add e.1 e.2)).2 := by
    intro x hx
    rw [adds_trie] at hx
    cases hx
  obtain ⟨h1, s, a, hs, hr⟩ := run_sim hfair hH (fun k v h => hC (k, v) h) _ (sim_init env C) (rel_opened _) (typed_init _) hp hap
  have hdone : ∀ o ∈ (Store.run env C Store.Sys.init (g.entries.map fun e => .add e.1 e.2)).1, o = .done := by
    rw [h1]
    intro o ho
    obtain ⟨x, hx, e⟩ := List.mem_map.1 ho
    rw [← e, hd x hx]
    rfl
  have hadd := addAll_run _ _ hdone
  have hsplit : (after (genesisOps g)).2 = (StateCache.Spec.step (StateCache.Spec.run empty
      ((g.entries.map fun e => Store.Op.add e.1 e.2).map Op.plain)).2 (.commit true)).2 := by
    unfold after genesisOps
    rw [List.map_append, spec_append]
    rfl
  have hrsplit := run_append (env := env) (C := C) (g.entries.map fun e => .add e.1 e.2) [.commit] Store.Sys.init
  change StateCache.Rel s (StateCache.Spec.run empty ((g.entries.map fun e => Store.Op.add e.1 e.2).map Op.plain)).2 at hr
  generalize (StateCache.Spec.run empty ((g.entries.map fun e => Store.Op.add e.1 e.2).map Op.plain)).2 = b at hr hb hsplit
  have hstep : StateCache.Spec.step b (.commit true) =
      (.done, { StateCache.Spec.reset b with committed := StateCache.Spec.visible b }) := by
    unfold StateCache.Spec.step
    dsimp only
    rw [hb.touched (.inl hg.1), hb.clash]
    rfl
  have hnp : (StateCache.Spec.step b (.commit true)).1 ≠ .err .panic := by
    rw [hstep]
    intro h
    cases h
  obtain ⟨e1, a', hs'⟩ := commit_sim (k0 := (g.entries.head hg.1).1) hfair hH hs hr hb.staged hnp (.inl hb.committed)
  obtain ⟨hr', hout⟩ := step_rel hr (.commit true) (by show b.staged.isEmpty = true; rw [hb.staged]; rfl)
  rw [hout, hstep] at e1
  rw [hstep] at hr'
  have hcom : ∀ k v, (after (genesisOps g)).2.committed k = some v ↔ (k, v) ∈ g.entries := by
    intro k v
    rw [hsplit, hstep]
    exact visible_added hb k v
  refine ⟨?_, ?_, ?_, hcom⟩
  · unfold writeGenesis
    rw [hadd]
    dsimp only
    show (match Store.commit env C _ with | (.err x, s) => (Except.error x, s) | (_, s) => (Except.ok (), s)) = _
    have hr2 : (Store.run env C Store.Sys.init (genesisOps g)).2 =
        (Store.commit env C (Store.run env C Store.Sys.init (g.entries.map fun e => .add e.1 e.2)).2).2 := by
      unfold genesisOps
      rw [hrsplit]
      rfl
    rw [hr2]
    generalize Store.commit env C (Store.run env C Store.Sys.init (g.entries.map fun e => .add e.1 e.2)).2 = q at e1
    obtain ⟨o, S⟩ := q
    dsimp only [Store.Out.ofCache] at e1
    subst e1
    rfl
  · unfold genesisOps
    rw [hrsplit]
    intro o ho
    rcases List.mem_append.1 ho with h | h
    · exact hdone o h
    · have h : o ∈ [(Store.commit env C (Store.run env C Store.Sys.init (g.entries.map fun e => .add e.1 e.2)).2).1] := h
      rw [e1] at h
      exact List.mem_singleton.1 h
  · unfold genesisOps
    rw [hrsplit]
    show root (Store.commit env C (Store.run env C Store.Sys.init (g.entries.map fun e => .add e.1 e.2)).2).2 = _
    unfold root
    rw [hs'.alive, if_pos rfl, hs'.ok.db.root, Trie.hashAt_root]
    have h1 := hs'.repr
    rw [hr'.db] at h1
    have h2 : Represents C.enc (g.encoded C.enc) (StateCache.Spec.visible b) := encoded_repr hg fun k v => visible_added hb k v
    rw [root_perm env.H (h1.perm h2)]

/-- The start of a node whose databases are empty. -/
theorem start_first (hfair : env.fair) (hH : ∀ x, (env.H x).length = 32) (g : Genesis V) (hg : g.Ok)
    (hC : ∀ e ∈ g.entries, C.dec e.1 (C.enc e.2) = some e.2) :
    start env C g Disk.fresh.reopen = (.ok (), ⟨(Store.run env C Store.Sys.init (genesisOps g)).2, some g.hash, [g.hash],
      [(g.hash, Trie.Spec.root env.H (g.encoded C.enc))]⟩) := by
  obtain ⟨h1, _, h2, _⟩ := writeGenesis_first hfair hH g hg hC
  unfold start
  have : (Disk.fresh : Disk V).reopen.store = Store.Sys.init := rfl
  rw [this, h1]
  dsimp only
  rw [h2]
  rfl

/-! ### Opened again -/

theorem run_typed : ∀ (os : List (Store.Op V)) {b : StateCache.Spec.Abs Key V}, AllTyped T b → Proper T k0 b os →
    AllTyped T (StateCache.Spec.run b (os.map Op.plain)).2
  | [], _, h, _ => h
  | o :: os, _, h, hp => run_typed os (step_typed h o hp.2.2.1) hp.2.2.2.2

theorem apart_of (S : Store.Sys V) (h : ¬ Collision env.H S) : Apart env.H S := fun x hx y hy hxy => by
  apply Decidable.byContradiction
  intro hne
  exact h ⟨x, hx, y, hy, hne, hxy⟩

/-- The store opened again, with the root it has lost, holds the committed map. -/
theorem reopen_sim {S : Store.Sys V} {s : St Key V} {a : Trie.Spec.Abs} (h : Sim env C S s a) :
    Sim env C (withRoot S.trie.db.root (reopenStore S)) (opened s.db) ⟨a.kv, []⟩ := by
  refine { alive := rfl, cache := rfl, dirty := rfl, ents := rfl, ok := ?_, repr := h.repr, len := rfl,
           reprs := fun i kv x hx => by simp at hx }
  exact ⟨h.ok.db, rfl, rfl, fun i p kv hp => (by cases hp)⟩

theorem resume (hfair : env.fair) (hH : ∀ x, (env.H x).length = 32) (hC : ∀ k v, T k v → C.dec k (C.enc v) = some v)
    (os os' : List (Store.Op V)) (hp : Proper T k0 empty os) (hp' : Proper T k0 (resumed os) os')
    (hc : ¬ Collision env.H (Store.run env C (reopenStore (Store.run env C Store.Sys.init os).2) os').2) :
    (Store.run env C (reopenStore (Store.run env C Store.Sys.init os).2) os').1 =
      (StateCache.Spec.run (resumed os) (os'.map Op.plain)).1.map Store.Out.ofCache ∧
    ∃ S s a r, Sim env C S s a ∧ Rel s (StateCache.Spec.run (resumed os) (os'.map Op.plain)).2 ∧
      (Store.run env C (reopenStore (Store.run env C Store.Sys.init os).2) os').2 = withRoot r S := by
  have hap2 := apart_of _ hc
  have hap1 : Apart env.H (Store.run env C Store.Sys.init os).2 := fun x hx y hy =>
    hap2 x (run_grows C os' (reopenStore (Store.run env C Store.Sys.init os).2) hx) y
      (run_grows C os' (reopenStore (Store.run env C Store.Sys.init os).2) hy)
  obtain ⟨_, s, a, hs, hr⟩ := run_sim hfair hH hC os (sim_init env C) (rel_opened _) (typed_init T) hp hap1
  have ht := run_typed os (typed_init T) hp
  have hs' := reopen_sim hs
  generalize (Store.run env C Store.Sys.init os).2 = S at *
  obtain ⟨r, hroot⟩ := run_root (env := env) (C := C) os' Trie.zeroHash (withRoot S.trie.db.root (reopenStore S))
  have he : withRoot Trie.zeroHash (withRoot S.trie.db.root (reopenStore S)) = reopenStore S := rfl
  rw [he] at hroot
  have hap3 : Apart env.H (Store.run env C (withRoot S.trie.db.root (reopenStore S)) os').2 := by
    intro x hx y hy
    have := hap2 x
    rw [hroot] at this
    exact this hx y hy
  have hdb : s.db = (after os).2.committed := hr.db
  obtain ⟨h1, s1, a1, h2, h3⟩ := run_sim hfair hH hC os' hs' (by rw [hdb]; exact rel_opened _)
    (by
      have : AllTyped T (after os).2 := ht
      exact ⟨this.committed, this.committed, fun _ h => (by cases h)⟩ : AllTyped T (resumed os)) hp' hap3
  rw [hroot]
  exact ⟨h1, _, s1, a1, r, h2, h3, rfl⟩

/-- A commit that writes sets the right root. -/
theorem commit_heals (hfair : env.fair) (hH : ∀ x, (env.H x).length = 32) {S : Store.Sys V} {s : St Key V} {a : Trie.Spec.Abs}
    {b : StateCache.Spec.Abs Key V} (h : Sim env C S s a) (hr : Rel s b) (r : Trie.Bytes)
    (hst : b.staged = []) (ht : b.touched = true) (hcl : b.clash = false)
    (hk : (∀ k, b.committed k = none) ∨ (b.committed k0).isSome = true ∧ (StateCache.Spec.visible b k0).isSome = true) :
    (Store.step env C (withRoot r S) .commit).1 = .done ∧
    ∀ kv, Represents C.enc kv (StateCache.Spec.visible b) →
      root (Store.step env C (withRoot r S) .commit).2 = .ok (Trie.Spec.root env.H kv) := by
  have hstep : StateCache.Spec.step b (.commit true) =
      (.done, { StateCache.Spec.reset b with committed := StateCache.Spec.visible b }) := by
    unfold StateCache.Spec.step
    dsimp only
    rw [ht, hcl]
    rfl
  have hnp : (StateCache.Spec.step b (.commit true)).1 ≠ .err .panic := by
    rw [hstep]
    intro h
    cases h
  obtain ⟨e1, a', hs'⟩ := commit_sim hfair hH h hr hst hnp hk
  obtain ⟨hr', hout⟩ := step_rel hr (.commit true) (by show b.staged.isEmpty = true; rw [hst]; rfl)
  rw [hout, hstep] at e1
  rw [hstep] at hr'
  have heq : Store.commit env C (withRoot r S) = Store.commit env C S := by
    have hne := batch_ne C hr
    have hw := writeAll_rel hr
    have hsafe := safe_of_rel hr hk
    have hcn := collect_nil hr
    have hcoll := collect_same (S := S) h.cache h.dirty
    have hcoll' : collectDirty (Store.over (withRoot r S) none) = collectDirty s := hcoll
    unfold Store.commit
    rw [hcoll, hcoll']
    cases hc : collectDirty s with
    | nil => rw [hcn.1 hc] at ht; cases ht
    | cons p ps =>
      rw [hc] at hne hsafe
      rw [hcl, hc] at hw
      simp only [Bool.false_eq_true, if_false] at hw
      obtain ⟨kv', h1, h2⟩ := batch_repr C k0 (p :: ps) s.db _ a.kv hw h.repr hsafe
      obtain ⟨w, e2, _⟩ := Trie.prepare_stored hfair hH h.ok.db.toStored (hne (List.cons_ne_nil _ _)) (Trie.all_len (batch_len C _)) h1
      have hcs := h.ok.cs
      dsimp only
      have ha : (withRoot r S).alive = true := h.alive
      rw [if_pos h.alive, if_pos ha]
      unfold Trie.step
      dsimp only
      have hp : Trie.prepare env (withRoot r S).trie.db (withRoot r S).trie.cs ((p :: ps).filterMap (toTrie C)) =
        Trie.prepare env S.trie.db S.trie.cs ((p :: ps).filterMap (toTrie C)) := Trie.prepare_root env S.trie.db r _ _
      rw [hp, hcs, e2]
      rfl
  show (Store.commit env C (withRoot r S)).1 = _ ∧ ∀ kv, _ → root (Store.commit env C (withRoot r S)).2 = _
  rw [heq]
  refine ⟨e1, fun kv hkv => ?_⟩
  unfold root
  rw [hs'.alive, if_pos rfl, hs'.ok.db.root, Trie.hashAt_root]
  have h1 := hs'.repr
  rw [hr'.db] at h1
  rw [root_perm env.H (h1.perm hkv)]

end Fastroll.Restart
