import Verif.Trie.Finish
namespace Fastroll.Trie
open Spec (KV under)

/-- The databases hold a map. -/
structure Stored (H : Bytes → Bytes) (db : Db) (sdb : List (Bytes × Bytes)) (kv : KV) : Prop where
  inv : Inv H db sdb .empty kv
  sorted : Sorted db.nodes
  genuine : ∀ e ∈ sdb, e.1 = H e.2

/-- The databases hold a map, and the root in memory is its root. -/
structure DbOk (H : Bytes → Bytes) (db : Db) (sdb : List (Bytes × Bytes)) (kv : KV) : Prop extends Stored H db sdb kv where
  root : db.root = hashAt H kv []

theorem getNode_empty (db : Db) (p : Path) : getNode db .empty p = get db.nodes p := rfl

theorem dbOk_right {H : Bytes → Bytes} {db : Db} {sdb : List (Bytes × Bytes)} {kv : KV} (h : Stored H db sdb kv) (p : Path) :
    Right H kv p (get db.nodes p) := by
  refine ⟨h.inv.leaf p, fun hb => ?_, h.inv.none p⟩
  obtain ⟨b, hg⟩ := h.inv.branch p hb
  refine ⟨b, hg, fun side => ?_⟩
  rcases h.inv.slots p b side hg with h1 | h1
  · cases h1
  · exact h1

theorem dbOk_closed {H : Bytes → Bytes} {db : Db} {sdb : List (Bytes × Bytes)} {kv : KV} (h : Stored H db sdb kv) : Closed db := by
  intro p q hq hp
  have h1 := (isSome_iff_node h.inv p).1 hp
  by_cases e : q = p
  · subst e; exact hp
  · apply (isSome_iff_node h.inv q).2
    rcases h1 with h1 | ⟨k, h1⟩
    · exact Or.inl (br_prefix h1 hq)
    · rcases h1.2.2.2 with h2 | h2
      · subst h2; exact absurd (List.prefix_nil.1 hq) e
      · exact Or.inl (br_prefix h2 (prefix_dropLast hq e))

theorem dbOk_init (H : Bytes → Bytes) : DbOk H Sys.init.db [] [] := by
  have hno : ∀ k, ¬ Keys [] k := fun k h => by cases h
  refine ⟨⟨⟨List.nodup_nil, fun k h => absurd h (hno k), (fun p k v h => by cases h), ?_, fun p _ _ => rfl, ?_, ?_, ?_, ?_, ?_, ?_, ?_, rfl,
    List.nodup_nil, ?_⟩, List.Pairwise.nil, (fun e h => by cases h)⟩, ?_⟩
  · rintro p ⟨a, _, _, h, _⟩; exact absurd h (hno a)
  · intro k p
    exact ⟨fun h => by (cases h), fun h => absurd h.1 (hno k)⟩
  · rintro p ⟨w, h⟩; cases h
  · intro p h; cases h
  · intro p b side h; cases h
  · intro h; exact absurd rfl h
  · intro e h; cases h
  · intro k v h; cases h
  · intro x y _ h; cases h
  · rw [hashAt_none fun k h => absurd h (hno k)]; rfl

/-- The end of a commit: the databases hold the new map. -/
theorem finish_spec {env : Env} (hfair : env.fair) (hH : ∀ x, (env.H x).length = 32) {db : Db} {sdb : List (Bytes × Bytes)}
    {cs : ChangeSet} {kv kv' : KV} (hok : Stored env.H db sdb kv) (I : Inv env.H db sdb cs kv') (haff : [] ∈ cs.affected)
    (hne : kv' ≠ []) :
    ∃ p, finish env db cs = (.ok (some p), .empty) ∧
      DbOk env.H (applyPrepared db p) (p.stateWrites.reverse ++ sdb) kv' := by
  obtain ⟨s1, s2, s3⟩ := sortedAffected_spec hfair cs
  unfold finish
  generalize sortedAffected env cs = ps at s1 s2 s3
  dsimp only
  have hps : ps ≠ [] := fun h => by
    have := (s3 []).2 haff
    rw [h] at this; cases this
  rw [if_neg hps]
  have P0 : Proc env.H kv' cs { cs with affected := [] } [] := by
    refine ⟨fun _ _ => rfl, fun x w h => ?_, ?_, rfl, rfl⟩
    · have : cs.nodeWrites = [] := I.noWrites
      dsimp only at h
      rw [this] at h; cases h
    · show cs.nodeWrites.map _ = []
      rw [I.noWrites]; rfl
  obtain ⟨cs1, e1, P⟩ := processPaths_spec hH I ps P0 (by rw [List.nil_append]; exact s1) s2 (fun x => by rw [List.nil_append]; exact (s3 x).symm)
  rw [List.nil_append] at P
  rw [e1]
  dsimp only
  have hkeys : ∀ x, x ∈ cs1.nodeWrites.map (·.1) ↔ x ∈ cs.affected := fun x => by rw [P.keys]; exact s3 x
  have hnod : (cs1.nodeWrites.map (·.1)).Nodup := by rw [P.keys]; exact s1
  have hwrite : ∀ x, x ∈ cs.affected → ∃ w, (x, w) ∈ cs1.nodeWrites ∧ Right env.H kv' x w ∧ get cs1.nodes x = some w := by
    intro x hx
    obtain ⟨⟨y, w⟩, hy, he⟩ := List.mem_map.1 ((hkeys x).2 hx)
    dsimp only at he
    subst he
    exact ⟨w, hy, P.writes y w hy⟩
  -- the root
  obtain ⟨w0, hw0, hr0, hg0⟩ := hwrite [] haff
  have hkey : ∃ k, Keys kv' k := by
    cases kv' with
    | nil => exact absurd rfl hne
    | cons e kv' => exact ⟨e.1, List.mem_map.2 ⟨e, List.mem_cons_self, rfl⟩⟩
  obtain ⟨k0, hk0⟩ := hkey
  have hw0s : ∃ n, w0 = some n := by
    rcases node_exists (Or.inl rfl) hk0 List.nil_prefix with h | h
    · obtain ⟨b, h1, _⟩ := hr0.branch h
      exact ⟨_, h1⟩
    · obtain ⟨v, hv⟩ := mem_of_keys h.1
      exact ⟨_, hr0.leaf k0 v hv h⟩
  obtain ⟨n, hn⟩ := hw0s
  subst hn
  have hroot := right_hash hH I.nodup I.flat hr0 (Or.inl rfl)
  have hnr : newRoot env.H cs1 = .ok (n.hash env.H) := by
    unfold newRoot
    rw [hg0]
  rw [hnr]
  refine ⟨_, rfl, ?_⟩
  -- the new database
  have hget : ∀ x, Right env.H kv' x (get (cs1.nodeWrites.foldl write db.nodes) x) := by
    intro x
    obtain ⟨g1, g2⟩ := get_writes db.nodes cs1.nodeWrites hnod x
    by_cases hx : x ∈ cs.affected
    · obtain ⟨w, hw, hr, _⟩ := hwrite x hx
      rw [g1 w hw]; exact hr
    · rw [g2 fun h => hx ((hkeys x).1 h)]
      have hnt : get cs.nodes x = none := by
        cases h : get cs.nodes x with
        | none => rfl
        | some w => exact absurd (I.sub x ⟨w, h⟩) hx
      have hgn : getNode db cs x = get db.nodes x := by unfold getNode; rw [hnt]
      rw [← hgn]
      refine ⟨I.leaf x, fun hb => ?_, I.none x⟩
      obtain ⟨b, hb⟩ := I.branch x hb
      refine ⟨b, hb, fun side => (I.slots x b side hb).resolve_left fun h => hx (I.closed _ x (prefix_append_one x side) h)⟩
  have hlp : ∀ k, get (cs1.leafPaths.foldl write db.leafPaths) k = getLeafPath db cs k := by
    intro k
    rw [P.leafPaths]
    obtain ⟨g1, g2⟩ := get_writes db.leafPaths cs.leafPaths I.leafNodup k
    unfold getLeafPath
    cases h : get cs.leafPaths k with
    | none =>
      rw [g2]
      intro hm
      obtain ⟨v, hv⟩ := (mem_keys_iff cs.leafPaths k).1 hm
      rw [h] at hv; cases hv
    | some w => exact g1 w (mem_keys_of_get h)
  refine ⟨⟨⟨I.nodup, I.flat, fun p k v hv hl => (hget p).leaf k v hv hl, ?_, fun p => (hget p).none, ?_, ?_, ?_, ?_, ?_, ?_, ?_, rfl, List.nodup_nil, ?_⟩,
    sorted_writes hok.sorted _, ?_⟩, ?_⟩
  · intro p hb
    obtain ⟨b, h, _⟩ := (hget p).branch hb
    exact ⟨b, h⟩
  · intro k p
    show get (cs1.leafPaths.foldl write db.leafPaths) k = some p ↔ _
    rw [hlp]; exact I.leafPath k p
  · rintro p ⟨w, h⟩; cases h
  · intro p h; cases h
  · intro p b side hg
    refine Or.inr ?_
    have hg' : get (cs1.nodeWrites.foldl write db.nodes) p = some (.branch b) := hg
    have hbr : Br (Keys kv') p := by
      by_cases hb : Br (Keys kv') p
      · exact hb
      · by_cases hl : ∃ k, Lf (Keys kv') p k
        · obtain ⟨k, hl⟩ := hl
          obtain ⟨v, hv⟩ := mem_of_keys hl.1
          rw [(hget p).leaf k v hv hl] at hg'; cases hg'
        · rw [(hget p).none hb fun k h => hl ⟨k, h⟩] at hg'; cases hg'
    obtain ⟨b', h1, h2⟩ := (hget p).branch hbr
    rw [hg'] at h1
    injection h1 with h1; injection h1 with h1
    rw [h1]; exact h2 side
  · intro h; exact absurd rfl h
  · intro e h; cases h
  · intro k v hv hlen
    refine Or.inr ?_
    show (env.H v, v) ∈ cs1.stateWrites.reverse ++ sdb
    rw [P.stateWrites, List.mem_append, List.mem_reverse]
    exact I.stored k v hv hlen
  · intro x y _ h; cases h
  · intro e he
    have he' : e ∈ cs1.stateWrites.reverse ++ sdb := he
    rw [P.stateWrites, List.mem_append, List.mem_reverse] at he'
    exact he'.elim (I.genuine e) (hok.genuine e)
  · exact hroot

theorem apply1_ne {kv kv' : KV} {e : Entry} (hn : (kv.map (·.1)).Nodup) (h : Spec.apply1 kv e = some kv') : kv' ≠ [] := by
  unfold Spec.apply1 at h
  cases hk : e.kind with
  | add =>
    rw [hk] at h
    dsimp only at h
    split at h
    · cases h
    · injection h with h; rw [← h]; exact List.cons_ne_nil _ _
  | update =>
    rw [hk] at h
    dsimp only at h
    by_cases hh : Spec.has kv e.key = true
    · rw [if_pos hh] at h
      injection h with h
      rw [← h]
      intro h0
      have : kv = [] := List.map_eq_nil_iff.1 h0
      rw [this] at hh; cases hh
    · rw [if_neg hh] at h; cases h
  | remove =>
    rw [hk] at h
    dsimp only at h
    by_cases hh : (Spec.has kv e.key && decide (2 ≤ kv.length)) = true
    · rw [if_pos hh] at h
      injection h with h
      rw [Bool.and_eq_true, decide_eq_true_eq] at hh
      rw [← h]
      intro h0
      have hall : ∀ x ∈ kv.map (·.1), x ∈ [e.key] := by
        intro x hx
        obtain ⟨y, hy, he⟩ := List.mem_map.1 hx
        rw [List.mem_singleton]
        by_cases hxe : x = e.key
        · exact hxe
        · exfalso
          have : y ∈ delKV kv e.key := mem_delKV.2 ⟨hy, fun h => hxe (he.symm.trans h)⟩
          unfold delKV at this
          rw [h0] at this; cases this
      have := List.Nodup.length_le_of_subset hn hall
      rw [List.length_map, List.length_singleton] at this
      omega
    · rw [if_neg hh] at h; cases h

theorem insertEntries_affects {env : Env} {db : Db} (es : List Entry) : ∀ {cs cs' : ChangeSet}, es ≠ [] →
    insertEntries env db cs es = (.ok (), cs') → [] ∈ cs'.affected := by
  induction es with
  | nil => intro cs cs' h; exact absurd rfl h
  | cons e es ih =>
    intro cs cs' _ h
    unfold insertEntries at h
    cases h1 : insertEntry env db cs e with
    | error x => rw [h1] at h; injection h with h; cases h
    | ok cs1 =>
      rw [h1] at h
      dsimp only at h
      cases es with
      | nil =>
        injection h with _ h
        rw [← h]; exact entry_affects h1
      | cons e' es => exact ih (List.cons_ne_nil _ _) h

theorem apply_ne {env : Env} (hfair : env.fair) {db : Db} {sdb : List (Bytes × Bytes)} (hs : Sorted db.nodes) (hc : Closed db)
    (es : List Entry) : ∀ {cs : ChangeSet} {kv kv' : KV}, Inv env.H db sdb cs kv → (∀ e ∈ es, e.key.length = keyBits) → es ≠ [] →
    Spec.apply kv es = some kv' → kv' ≠ [] := by
  induction es with
  | nil => intro cs kv kv' _ _ h; exact absurd rfl h
  | cons e es ih =>
    intro cs kv kv' I hlen _ h
    unfold Spec.apply at h
    cases h1 : Spec.apply1 kv e with
    | none => rw [h1] at h; cases h
    | some kv1 =>
      rw [h1] at h
      obtain ⟨cs1, _, I1⟩ := inv_entry hfair hs hc I (hlen e List.mem_cons_self) h1
      cases es with
      | nil =>
        injection h with h
        rw [← h]; exact apply1_ne I.nodup h1
      | cons e' es => exact ih I1 (fun x hx => hlen x (List.mem_cons_of_mem _ hx)) (List.cons_ne_nil _ _) h

/-- The databases after a prepared commit. -/
def appliedDb (db : Db) : Option Prepared → Db
  | none => db
  | some p => applyPrepared db p

/-- The state database after a prepared commit. -/
def appliedSdb (sdb : List (Bytes × Bytes)) : Option Prepared → List (Bytes × Bytes)
  | none => sdb
  | some p => p.stateWrites.reverse ++ sdb

/-- A legal batch that is not empty leads to the new map, whatever the root in memory was. -/
theorem prepare_stored {env : Env} (hfair : env.fair) (hH : ∀ x, (env.H x).length = 32) {db : Db} {sdb : List (Bytes × Bytes)}
    {kv kv' : KV} {es : List Entry} (hok : Stored env.H db sdb kv) (he : es ≠ []) (hlen : ∀ e ∈ es, e.key.length = keyBits)
    (h : Spec.apply kv es = some kv') :
    ∃ p, prepare env db .empty es = (.ok (some p), .empty) ∧
      DbOk env.H (applyPrepared db p) (p.stateWrites.reverse ++ sdb) kv' := by
  unfold prepare
  rw [if_neg he]
  have hc := dbOk_closed hok
  obtain ⟨cs, e1, I⟩ := inv_entries hfair hok.sorted hc es hok.inv hlen h
  rw [e1]
  dsimp only
  exact finish_spec hfair hH hok I (insertEntries_affects es he e1) (apply_ne hfair hok.sorted hc es hok.inv hlen he h)

/-- A legal batch is prepared without error, leaves an empty change set, and leads to the new map. -/
theorem prepare_spec {env : Env} (hfair : env.fair) (hH : ∀ x, (env.H x).length = 32) {db : Db} {sdb : List (Bytes × Bytes)}
    {kv kv' : KV} {es : List Entry} (hok : DbOk env.H db sdb kv) (hlen : ∀ e ∈ es, e.key.length = keyBits)
    (h : Spec.apply kv es = some kv') :
    ∃ p, prepare env db .empty es = (.ok p, .empty) ∧ DbOk env.H (appliedDb db p) (appliedSdb sdb p) kv' := by
  by_cases he : es = []
  · unfold prepare
    rw [if_pos he]
    subst he
    injection h with h
    subst h
    exact ⟨none, rfl, hok⟩
  · obtain ⟨p, e1, h1⟩ := prepare_stored hfair hH hok.toStored he hlen h
    exact ⟨some p, e1, h1⟩

/-- The system holds the specification's state. -/
structure SysOk (H : Bytes → Bytes) (s : Sys) (a : Spec.Abs) : Prop where
  db : DbOk H s.db s.stateDb a.kv
  cs : s.cs = .empty
  length : s.staged.length = a.staged.length
  staged : ∀ (i : Nat) p kv, s.staged[i]? = some p → a.staged[i]? = some kv → DbOk H (appliedDb s.db p) (appliedSdb s.stateDb p) kv

theorem applyCommit_eq (s : Sys) (p : Option Prepared) :
    s.applyCommit p = { s with db := appliedDb s.db p, stateDb := appliedSdb s.stateDb p } := by
  cases p <;> rfl

theorem all_len {es : List Entry} (h : es.all (fun e => e.key.length == 248) = true) : ∀ e ∈ es, e.key.length = keyBits := by
  intro e he
  have := List.all_eq_true.1 h e he
  simpa [keyBits] using this

theorem step_ok {env : Env} (hfair : env.fair) (hH : ∀ x, (env.H x).length = 32) {s : Sys} {a a' : Spec.Abs} {o : Op}
    (hok : SysOk env.H s a) (h : Spec.step a o = some a') :
    (step env s o).1 = .ok () ∧ SysOk env.H (step env s o).2 a' := by
  cases o with
  | commit es =>
    unfold Spec.step at h
    dsimp only at h
    by_cases hc : a.staged = [] ∧ es.all (fun e => e.key.length == 248) = true
    · rw [if_pos hc] at h
      cases h1 : Spec.apply a.kv es with
      | none => rw [h1] at h; cases h
      | some kv' =>
        rw [h1] at h
        injection h with h
        obtain ⟨p, e1, h2⟩ := prepare_spec hfair hH hok.db (all_len hc.2) h1
        unfold step
        dsimp only
        rw [hok.cs, e1]
        dsimp only
        rw [applyCommit_eq]
        refine ⟨rfl, ?_⟩
        rw [← h]
        have hst : s.staged = [] := List.eq_nil_of_length_eq_zero (by rw [hok.length, hc.1]; rfl)
        refine ⟨h2, rfl, hok.length, fun i p kv hp => ?_⟩
        dsimp only at hp
        rw [hst] at hp
        cases hp
    · rw [if_neg hc] at h; cases h
  | stage es =>
    unfold Spec.step at h
    dsimp only at h
    by_cases hc : es.all (fun e => e.key.length == 248) = true
    · rw [if_pos hc] at h
      cases h1 : Spec.apply a.kv es with
      | none => rw [h1] at h; cases h
      | some kv' =>
        rw [h1] at h
        injection h with h
        obtain ⟨p, e1, h2⟩ := prepare_spec hfair hH hok.db (all_len hc) h1
        unfold step
        dsimp only
        rw [hok.cs, e1]
        refine ⟨rfl, ?_⟩
        rw [← h]
        refine ⟨hok.db, rfl, ?_, ?_⟩
        · dsimp only
          rw [List.length_append, List.length_append, hok.length]; rfl
        · intro i p' kv hp hkv
          dsimp only at hp hkv ⊢
          rcases Nat.lt_trichotomy i s.staged.length with hi | hi | hi
          · rw [List.getElem?_append_left hi] at hp
            rw [List.getElem?_append_left (by rw [← hok.length]; exact hi)] at hkv
            exact hok.staged i p' kv hp hkv
          · rw [List.getElem?_append_right (by omega), hi, Nat.sub_self] at hp
            rw [List.getElem?_append_right (by rw [← hok.length]; omega), ← hok.length, hi, Nat.sub_self] at hkv
            injection hp with hp
            injection hkv with hkv
            subst hp hkv
            exact h2
          · rw [List.getElem?_eq_none (by rw [List.length_append, List.length_singleton]; omega)] at hp
            cases hp
    · rw [if_neg hc] at h; cases h
  | finalize i =>
    unfold Spec.step at h
    dsimp only at h
    unfold step
    dsimp only
    cases hs : s.staged[i]? with
    | none =>
      have ha : a.staged[i]? = none := by
        rw [List.getElem?_eq_none_iff] at hs ⊢
        rw [← hok.length]; exact hs
      rw [ha] at h
      injection h with h
      rw [← h]
      exact ⟨rfl, hok⟩
    | some p =>
      have ha : ∃ kv, a.staged[i]? = some kv := by
        have hi := (List.getElem?_eq_some_iff.1 hs).1
        rw [hok.length] at hi
        exact ⟨_, List.getElem?_eq_getElem hi⟩
      obtain ⟨kv, ha⟩ := ha
      rw [ha] at h
      injection h with h
      rw [← h]
      dsimp only
      rw [applyCommit_eq]
      exact ⟨rfl, hok.staged i p kv hs ha, hok.cs, rfl, (fun j q kv' hj => by cases hj)⟩

theorem run_ok {env : Env} (hfair : env.fair) (hH : ∀ x, (env.H x).length = 32) (ops : List Op) : ∀ {s : Sys} {a a' : Spec.Abs},
    SysOk env.H s a → Spec.run a ops = some a' →
    (∀ x ∈ (run env s ops).1, x = .ok ()) ∧ SysOk env.H (run env s ops).2 a' := by
  induction ops with
  | nil =>
    intro s a a' hok h
    injection h with h
    subst h
    exact ⟨(fun x hx => by cases hx), hok⟩
  | cons o ops ih =>
    intro s a a' hok h
    unfold Spec.run at h
    cases h1 : Spec.step a o with
    | none => rw [h1] at h; cases h
    | some a1 =>
      rw [h1] at h
      obtain ⟨e1, ok1⟩ := step_ok hfair hH hok h1
      obtain ⟨e2, ok2⟩ := ih ok1 h
      refine ⟨fun x hx => ?_, ok2⟩
      rcases List.mem_cons.1 hx with rfl | hx
      · exact e1
      · exact e2 x hx

theorem sysOk_init (H : Bytes → Bytes) : SysOk H Sys.init ⟨[], []⟩ :=
  ⟨dbOk_init H, rfl, rfl, (fun i p kv h => by cases h)⟩

end Fastroll.Trie
