import Verif.Store.Lemmas3
import Verif.Trie.Props
/-
C76: the state manager with its cache, the trie and the databases is a transaction on a map with a Merkle root.
-/
namespace Fastroll.Store
open Fastroll StateCache

/-! ### Examples -/

/-- Numbers as one octet. -/
def exCodec : Codec Nat := ⟨fun v => [UInt8.ofNat v], fun _ b => match b with | [x] => some x.toNat | _ => none⟩

/-- Numbers that fit. -/
def exType : Key → Nat → Prop := fun _ v => v < 256

theorem exCodec_dec (k : Key) (v : Nat) (h : exType k v) : exCodec.dec k (exCodec.enc v) = some v := by
  show some (UInt8.ofNat v).toNat = some v
  unfold exType at h
  rw [UInt8.toNat_ofNat', Nat.mod_eq_of_lt (by omega)]

/-- Keys that start with the given bits. -/
def exK (p : Trie.Path) (h : p.length ≤ 248) : Key :=
  ⟨Trie.exKey p, by unfold Trie.exKey; rw [List.length_append, List.length_replicate]; omega⟩

/-- Three keys, two with a common prefix. -/
def exA : Key := exK [true, false, true] (by decide)
def exB : Key := exK [true, false, false] (by decide)
def exC : Key := exK [false, true] (by decide)

/-- A commit of two keys, an eviction, a block staged that is not finalized and one that is, and a rollback. -/
def exOps : List (Op Nat) :=
  [.add exA 1, .add exB 2, .get exA, .commit, .evict exA, .get exA, .update exA (fun _ => some 9), .stage, .get exA,
   .remove exB, .add exC 5, .stage, .finalize 0, .get exB, .get exA, .update exC (fun v => some (v + 1)), .rollback, .get exC]

theorem exOps_proper : Proper exType exA empty (exOps.take 15) := by
  have e : ∀ k, (empty : Spec.Abs Key Nat).committed k = none := fun _ => rfl
  refine ⟨by decide +kernel, by decide +kernel, by show 1 < 256; decide, .inl e, ?_⟩
  refine ⟨by decide +kernel, by decide +kernel, by show 2 < 256; decide, .inl fun _ => rfl, ?_⟩
  refine ⟨by decide +kernel, by decide +kernel, trivial, .inl fun _ => rfl, ?_⟩
  refine ⟨by decide +kernel, by decide +kernel, trivial, .inl fun _ => rfl, ?_⟩
  refine ⟨by decide +kernel, by decide +kernel, trivial, .inr (by decide +kernel), ?_⟩
  refine ⟨by decide +kernel, by decide +kernel, trivial, .inr (by decide +kernel), ?_⟩
  refine ⟨by decide +kernel, by decide +kernel, ?_, .inr (by decide +kernel), ?_⟩
  · intro v v' _ h
    injection h with h
    show v' < 256
    omega
  refine ⟨by decide +kernel, by decide +kernel, trivial, .inr (by decide +kernel), ?_⟩
  refine ⟨by decide +kernel, by decide +kernel, trivial, .inr (by decide +kernel), ?_⟩
  refine ⟨by decide +kernel, by decide +kernel, trivial, .inr (by decide +kernel), ?_⟩
  refine ⟨by decide +kernel, by decide +kernel, by show 5 < 256; decide, .inr (by decide +kernel), ?_⟩
  refine ⟨by decide +kernel, by decide +kernel, trivial, .inr (by decide +kernel), ?_⟩
  refine ⟨by decide +kernel, by decide +kernel, trivial, .inr (by decide +kernel), ?_⟩
  refine ⟨by decide +kernel, by decide +kernel, trivial, .inr (by decide +kernel), ?_⟩
  refine ⟨by decide +kernel, by decide +kernel, trivial, .inr (by decide +kernel), ?_⟩
  trivial

variable {V : Type} {env : Trie.Env} {C : Codec V} {T : Key → V → Prop} {k0 : Key}

/-! ### Representations of a map -/

theorem Represents.nodup {enc : V → Trie.Bytes} {kv : Trie.Spec.KV} {m : Key → Option V} (h : Represents enc kv m) : kv.Nodup :=
  Trie.nodup_of_keys h.1

theorem Represents.perm {enc : V → Trie.Bytes} {kv kv' : Trie.Spec.KV} {m : Key → Option V} (h : Represents enc kv m)
    (h' : Represents enc kv' m) : kv.Perm kv' := by
  rw [List.perm_ext_iff_of_nodup h.nodup h'.nodup]
  exact fun e => (h.2 e.1 e.2).trans (h'.2 e.1 e.2).symm

theorem Represents.below {enc : V → Trie.Bytes} {kv : Trie.Spec.KV} {m : Key → Option V} (h : Represents enc kv m) :
    Trie.Below [] kv :=
  ⟨h.1, fun e he => by obtain ⟨k, hk, _⟩ := (h.2 e.1 e.2).1 he; rw [← hk]; exact k.2, fun _ _ => List.nil_prefix⟩

theorem root_perm (H : Trie.Bytes → Trie.Bytes) {kv kv' : Trie.Spec.KV} (h : kv.Perm kv') :
    Trie.Spec.root H kv = Trie.Spec.root H kv' := Trie.merkle_perm H 248 0 h

theorem store_run (hfair : env.fair) (hH : ∀ x, (env.H x).length = 32) (hC : ∀ k v, T k v → C.dec k (C.enc v) = some v)
    (os : List (Op V)) (hp : Proper T k0 empty os) :
    ((run env C Sys.init os).1 = (after os).1.map Out.ofCache ∧
      ∃ kv, Represents C.enc kv (after os).2.committed ∧
        root (run env C Sys.init os).2 = .ok (Trie.Spec.root env.H kv)) ∨
    Collision env.H (run env C Sys.init os).2 := by
  by_cases hc : Collision env.H (run env C Sys.init os).2
  · exact .inr hc
  · refine .inl ?_
    have hap : Apart env.H (run env C Sys.init os).2 := fun x hx y hy hxy => by
      apply Decidable.byContradiction
      intro hne
      exact hc ⟨x, hx, y, hy, hne, hxy⟩
    obtain ⟨h1, s, a, hs, hr⟩ := run_sim hfair hH hC os (sim_init env C) (rel_opened _) (typed_init T) hp hap
    refine ⟨h1, a.kv, ?_, ?_⟩
    · have := hs.repr
      rw [hr.db] at this
      exact this
    · unfold root
      rw [hs.alive, if_pos rfl, hs.ok.db.root, Trie.hashAt_root]

/-! ### The store is the transaction -/

/-- **C76** Through every proper history of reads, pre-state reads, additions, updates, removals, commits, staged and
finalized blocks, rollbacks and evictions of the cache, starting from empty databases: every answer is the one of the
transaction on a plain map - so what is decoded from the trie and the state database after an eviction is what was
written - and the root served is the Gray Paper's Merklization of the committed map's encodings, in whatever order its
entries are listed; or two different values handed to the state database have the same hash.  Partial: histories with a
key removed and added again between two commits, or that remove the last keys, end in the death of the actor
(`C76_readd_kills_actor`) and are not proper. -/
theorem C76_store_partial (hfair : env.fair) (hH : ∀ x, (env.H x).length = 32)
    (hC : ∀ k v, T k v → C.dec k (C.enc v) = some v) (os : List (Op V)) (hp : Proper T k0 empty os) :
    ((run env C Sys.init os).1 = (after os).1.map Out.ofCache ∧
      (∃ kv, Represents C.enc kv (after os).2.committed) ∧
      ∀ kv, Represents C.enc kv (after os).2.committed →
        root (run env C Sys.init os).2 = .ok (Trie.Spec.root env.H kv)) ∨
    Collision env.H (run env C Sys.init os).2 := by
  rcases store_run hfair hH hC os hp with ⟨h1, kv, h2, h3⟩ | h
  · refine .inl ⟨h1, ⟨kv, h2⟩, fun kv' h' => ?_⟩
    rw [h3, root_perm env.H (h2.perm h')]
  · exact .inr h

example : Proper exType exA empty (exOps.take 15) ∧
    (run Trie.exEnv exCodec Sys.init exOps).1 =
      [.done, .done, .value (some 1), .done, .done, .value (some 1), .done, .done, .value (some 1), .done, .done, .done, .done,
       .value none, .value (some 1), .done, .done, .value (some 5)] ∧
    ((match root (run Trie.exEnv exCodec Sys.init exOps).2 with | .ok r => r | .error _ => []) =
      Trie.Spec.root Trie.exHash [(exC.1, [5]), (exA.1, [1])]) :=
  ⟨exOps_proper, by decide +kernel⟩

/-- **C76** The root depends on the committed map only: two proper histories, however they got there, staged or
committed, that leave the same committed map serve the same root. -/
theorem C76_roots_agree_partial (hfair : env.fair) (hH : ∀ x, (env.H x).length = 32)
    (hC : ∀ k v, T k v → C.dec k (C.enc v) = some v) (os os' : List (Op V)) {k1 : Key} (hp : Proper T k0 empty os)
    (hp' : Proper T k1 empty os') (h : (after os).2.committed = (after os').2.committed) :
    root (run env C Sys.init os).2 = root (run env C Sys.init os').2 ∨
    Collision env.H (run env C Sys.init os).2 ∨ Collision env.H (run env C Sys.init os').2 := by
  rcases store_run hfair hH hC os hp with ⟨_, kv, h2, h3⟩ | h1
  · rcases store_run hfair hH hC os' hp' with ⟨_, kv', h2', h3'⟩ | h1'
    · refine .inl ?_
      rw [← h] at h2'
      rw [h3, h3', root_perm env.H (h2.perm h2')]
    · exact .inr (.inr h1')
  · exact .inr (.inl h1)

example : (match root (run Trie.exEnv exCodec Sys.init exOps).2 with | .ok r => r | .error _ => []) =
    (match root (run Trie.exEnv exCodec Sys.init [.add exC 5, .commit, .add exA 1, .stage, .finalize 0]).2 with
      | .ok r => r | .error _ => []) := by decide +kernel

/-- **C76** The root served commits to the whole committed state: two proper histories that serve the same root have the
same values under all keys - values with the same encoding being equal, as the codecs invert - unless two values in the
state database collide or two strings hashed for the two Merklizations do. -/
theorem C76_root_binds_partial (hfair : env.fair) (hH : ∀ x, (env.H x).length = 32)
    (hC : ∀ k v, T k v → C.dec k (C.enc v) = some v) (os os' : List (Op V)) {k1 : Key} (hp : Proper T k0 empty os)
    (hp' : Proper T k1 empty os') (h : root (run env C Sys.init os).2 = root (run env C Sys.init os').2) :
    (∀ k, ((after os).2.committed k).map C.enc = ((after os').2.committed k).map C.enc) ∨
    Collision env.H (run env C Sys.init os).2 ∨ Collision env.H (run env C Sys.init os').2 ∨
    ∃ kv kv', Represents C.enc kv (after os).2.committed ∧ Represents C.enc kv' (after os').2.committed ∧
      Trie.Spec.Clash env.H (Trie.Spec.inputs env.H 248 0 kv) (Trie.Spec.inputs env.H 248 0 kv') := by
  rcases store_run hfair hH hC os hp with ⟨_, kv, h2, h3⟩ | h1
  · rcases store_run hfair hH hC os' hp' with ⟨_, kv', h2', h3'⟩ | h1'
    · rw [h3, h3'] at h
      injection h with h
      rcases Trie.merkle_binds hH 248 (p := []) rfl h2.below h2'.below
          (by show Trie.Spec.cut (Trie.Spec.root env.H kv) = Trie.Spec.cut (Trie.Spec.root env.H kv'); rw [h]) with hb | hb
      · refine .inl fun k => ?_
        have key : ∀ b, ((after os).2.committed k).map C.enc = some b ↔ ((after os').2.committed k).map C.enc = some b := by
          intro b
          have e1 : (k.1, b) ∈ kv ↔ ((after os).2.committed k).map C.enc = some b := by
            rw [h2.2, Option.map_eq_some_iff]
            constructor
            · rintro ⟨k', hk, v, hv, rfl⟩
              rw [Subtype.ext hk] at hv
              exact ⟨v, hv, rfl⟩
            · rintro ⟨v, hv, rfl⟩
              exact ⟨k, rfl, v, hv, rfl⟩
          have e2 : (k.1, b) ∈ kv' ↔ ((after os').2.committed k).map C.enc = some b := by
            rw [h2'.2, Option.map_eq_some_iff]
            constructor
            · rintro ⟨k', hk, v, hv, rfl⟩
              rw [Subtype.ext hk] at hv
              exact ⟨v, hv, rfl⟩
            · rintro ⟨v, hv, rfl⟩
              exact ⟨k, rfl, v, hv, rfl⟩
          rw [← e1, ← e2]
          exact hb.mem_iff
        exact Option.ext key
      · exact .inr (.inr (.inr ⟨kv, kv', h2, h2', hb⟩))
    · exact .inr (.inr (.inl h1'))
  · exact .inr (.inl h1)

example : (match root (run Trie.exEnv exCodec Sys.init exOps).2 with | .ok r => r | .error _ => []) ≠
    (match root (run Trie.exEnv exCodec Sys.init [.add exC 5, .commit, .add exA 2, .stage, .finalize 0]).2 with
      | .ok r => r | .error _ => []) := by decide +kernel

/-! ### Damaged databases -/

/-- **C76** In any state whatever, also with damaged databases: reading a key that is not cached answers "no such entry"
exactly when the trie has no leaf for it; a leaf whose octets are not in the state database or do not decode is an error,
and an error of a read or write on a key changes nothing. -/
theorem C76_no_silent_loss (s : Sys V) (ha : s.alive = true) (k : Key) (hk : s.cache k = none) :
    ((step env C s (.get k)).1 = .value none ↔ Trie.retrieve s.trie k.1 = .absent) ∧
    (Trie.retrieve s.trie k.1 = .missing → ∀ o ∈ [Op.get k, .getClean k, .remove k], step env C s o = (.err .missing, s)) ∧
    (∀ b, Trie.retrieve s.trie k.1 = .value b → C.dec k b = none →
      ∀ o ∈ [Op.get k, .getClean k, .remove k], step env C s o = (.err .codec, s)) ∧
    (Trie.retrieve s.trie k.1 = .missing → ∀ v f, step env C s (.add k v) = (.err .missing, s) ∧
      step env C s (.update k f) = (.err .missing, s)) ∧
    (∀ b, Trie.retrieve s.trie k.1 = .value b → C.dec k b = none → ∀ v f, step env C s (.add k v) = (.err .codec, s) ∧
      step env C s (.update k f) = (.err .codec, s)) := by
  have bad : ∀ e, fetch C s k = .error e → ∀ co, atKey C s k co = (.err e, s) := fun e he co => by
    unfold atKey
    rw [hk, he]
    rfl
  have miss : Trie.retrieve s.trie k.1 = .missing → fetch C s k = .error .missing := fun h => by
    unfold fetch
    rw [ha, h]
    rfl
  have undec : ∀ b, Trie.retrieve s.trie k.1 = .value b → C.dec k b = none → fetch C s k = .error .codec := fun b h hb => by
    unfold fetch
    rw [ha, h]
    dsimp only
    rw [hb]
    rfl
  have mem : ∀ {P : Op V → Prop}, P (.get k) → P (.getClean k) → P (.remove k) →
      ∀ o ∈ [Op.get k, .getClean k, .remove k], P o := by
    intro P h1 h2 h3 o ho
    simp only [List.mem_cons, List.not_mem_nil, or_false] at ho
    rcases ho with rfl | rfl | rfl <;> assumption
  refine ⟨?_, fun h => mem (bad _ (miss h) _) (bad _ (miss h) _) (bad _ (miss h) _),
    fun b h hb => mem (bad _ (undec b h hb) _) (bad _ (undec b h hb) _) (bad _ (undec b h hb) _),
    fun h v f => ⟨bad _ (miss h) _, bad _ (miss h) _⟩, fun b h hb v f => ⟨bad _ (undec b h hb) _, bad _ (undec b h hb) _⟩⟩
  show (atKey C s k (.get k)).1 = _ ↔ _
  cases hr : Trie.retrieve s.trie k.1 with
  | absent =>
    refine ⟨fun _ => rfl, fun _ => ?_⟩
    have hf : fetch C s k = .ok none := by
      unfold fetch
      rw [ha, hr]
      rfl
    unfold atKey
    rw [hk, hf]
    show Out.ofCache (StateCache.Out.value (StateCache.get (over s none) k).2) = _
    unfold StateCache.get over
    dsimp only
    rw [hk]
    rfl
  | missing =>
    rw [bad _ (miss hr)]
    exact ⟨fun h => (by cases h), fun h => (by cases h)⟩
  | value b =>
    refine ⟨fun h => ?_, fun h => by cases h⟩
    cases hb : C.dec k b with
    | none =>
      rw [bad _ (undec b hr hb)] at h
      cases h
    | some v =>
      have hf : fetch C s k = .ok (some v) := by
        unfold fetch
        rw [ha, hr]
        dsimp only
        rw [hb]
        rfl
      unfold atKey at h
      rw [hk, hf] at h
      change Out.ofCache (StateCache.Out.value (StateCache.get (over s (some v)) k).2) = _ at h
      unfold StateCache.get over at h
      dsimp only at h
      rw [hk] at h
      cases h

/-- The store after a commit of a long value, with the state database lost. -/
def exLost : Sys Nat :=
  let s := (run Trie.exEnv ⟨fun v => List.replicate 40 (UInt8.ofNat v), exCodec.dec⟩ Sys.init [.add exA 1, .commit, .evict exA]).2
  { s with trie := { s.trie with stateDb := [] } }

example : exLost.alive = true ∧ (exLost.cache exA).isNone = true ∧ Trie.retrieve exLost.trie exA.1 = .missing ∧
    (step Trie.exEnv exCodec exLost (.get exA)).1 = .err .missing := by decide +kernel

/-! ### The death of the actor -/

theorem dead_step (s : Sys V) (h : s.alive = false) (o : Op V) :
    (step env C s o).2.alive = false ∧ (step env C s o).2.trie = s.trie := by
  have key : ∀ k co, (atKey C s k co).2.alive = false ∧ (atKey C s k co).2.trie = s.trie := by
    intro k co
    unfold atKey
    split
    · exact ⟨h, rfl⟩
    · split <;> exact ⟨h, rfl⟩
  cases o with
  | get k => exact key k _
  | getClean k => exact key k _
  | add k v => exact key k _
  | update k f => exact key k _
  | remove k => exact key k _
  | commit =>
    show (commit env C s).2.alive = false ∧ (commit env C s).2.trie = s.trie
    unfold commit
    rw [h]
    split
    · exact ⟨h, rfl⟩
    · exact ⟨h, rfl⟩
  | stage =>
    show (stage env C s).2.alive = false ∧ (stage env C s).2.trie = s.trie
    unfold stage
    rw [h]
    split
    · exact ⟨h, rfl⟩
    · exact ⟨h, rfl⟩
  | finalize i =>
    show (finalize env s i).2.alive = false ∧ (finalize env s i).2.trie = s.trie
    unfold finalize
    rw [h]
    split
    · exact ⟨h, rfl⟩
    · exact ⟨h, rfl⟩
  | rollback => exact ⟨h, rfl⟩
  | evict k => exact ⟨h, rfl⟩

theorem dead_run : ∀ (os : List (Op V)) (s : Sys V), s.alive = false →
    (run env C s os).2.alive = false ∧ (run env C s os).2.trie = s.trie
  | [], _, h => ⟨h, rfl⟩
  | o :: os, s, h => by
    obtain ⟨h1, h2⟩ := dead_step (env := env) (C := C) s h o
    obtain ⟨h3, h4⟩ := dead_run os _ h1
    exact ⟨h3, h4.trans h2⟩

/-- **C76** Once the actor has died nothing brings it back: whatever operations follow, rollbacks included, the root
request fails, a key that is not cached can be neither read nor written, finalizing a staged block fails, and a commit or
a staging stores nothing - it fails unless there is nothing dirty. -/
theorem C76_actor_death (s : Sys V) (h : s.alive = false) (os : List (Op V)) :
    let s' := (run env C s os).2
    root s' = .error .closed ∧ s'.trie = s.trie ∧
    (∀ k, s'.cache k = none →
      (step env C s' (.get k)).1 = .err .closed ∧ (step env C s' (.getClean k)).1 = .err .closed ∧
      (∀ v, (step env C s' (.add k v)).1 = .err .closed) ∧ (∀ f, (step env C s' (.update k f)).1 = .err .closed) ∧
      (step env C s' (.remove k)).1 = .err .closed) ∧
    (∀ i, i < s'.staged.length → (step env C s' (.finalize i)).1 = .err .closed) ∧
    (∀ k, k ∈ s'.dirty → (s'.cache k).isSome = true →
      (step env C s' .commit).1 = .err .closed ∧ (step env C s' .stage).1 = .err .closed) := by
  intro s'
  obtain ⟨h1, h2⟩ := dead_run (env := env) (C := C) os s h
  have hf : ∀ k, fetch C s' k = .error .closed := fun k => by
    unfold fetch
    rw [show s'.alive = false from h1]
    rfl
  have key : ∀ k, s'.cache k = none → ∀ co, (atKey C s' k co).1 = .err .closed := fun k hk co => by
    unfold atKey
    rw [hk, hf k]
    rfl
  refine ⟨?_, h2, fun k hk => ⟨key k hk _, key k hk _, fun _ => key k hk _, fun _ => key k hk _, key k hk _⟩, ?_, ?_⟩
  · unfold root
    rw [show s'.alive = false from h1]
    rfl
  · intro i hi
    show (finalize env s' i).1 = _
    unfold finalize
    rw [List.getElem?_eq_getElem hi, show s'.alive = false from h1]
    rfl
  · intro k hk he
    obtain ⟨e, he⟩ := Option.isSome_iff_exists.1 he
    have hne : StateCache.collectDirty (over s' none) ≠ [] := by
      intro hnil
      have : (k, e) ∈ StateCache.collectDirty (over s' none) := by
        unfold StateCache.collectDirty over
        rw [List.mem_filterMap]
        exact ⟨k, hk, by dsimp only; rw [he]; rfl⟩
      rw [hnil] at this
      cases this
    obtain ⟨p, ps, hps⟩ : ∃ p ps, StateCache.collectDirty (over s' none) = p :: ps := by
      cases hcd : StateCache.collectDirty (over s' none) with
      | nil => exact absurd hcd hne
      | cons p ps => exact ⟨p, ps, rfl⟩
    constructor
    · show (commit env C s').1 = _
      unfold commit
      rw [hps, show s'.alive = false from h1]
      rfl
    · show (stage env C s').1 = _
      unfold stage
      rw [hps, show s'.alive = false from h1]
      rfl

/-- A committed key removed and added again before the next commit. -/
def exReadd : List (Op Nat) := [.add exA 1, .add exB 2, .commit, .remove exA, .add exA 3, .commit]

/-- **C76** (violated) Removing a committed key and adding it again in one block - which the cache allows - kills the
actor at the commit: from then on the root request fails, and after a rollback the untouched key B can no longer be read
once it has left the cache. -/
theorem C76_readd_kills_actor :
    (run Trie.exEnv exCodec Sys.init (exReadd ++ [.rollback, .evict exB, .get exB])).1 =
      [.done, .done, .done, .done, .done, .err .closed, .done, .done, .err .closed] ∧
    (match root (run Trie.exEnv exCodec Sys.init exReadd).2 with | .error .closed => true | _ => false) = true := by
  decide +kernel

example : (match root (run Trie.exEnv exCodec Sys.init (exReadd.take 5)).2 with | .ok _ => true | _ => false) = true ∧
    (run Trie.exEnv exCodec Sys.init (exReadd.take 5 ++ [.rollback, .evict exB, .get exB])).1.getLast? =
      some (.value (some 2)) := by decide +kernel

end Fastroll.Store
