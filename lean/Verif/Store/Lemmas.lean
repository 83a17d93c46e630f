import Verif.Store.Spec
import Verif.StateCache.Lemmas
import Verif.Trie.Binding
/-
The store simulates the transactions.
-/
namespace Fastroll.Store
open Fastroll StateCache
variable {V : Type}

/-! ### Operations on one key see the databases only at that key -/

theorem get_local (s s' : St Key V) (k : Key) (hd : s.cache k = none → s.db k = s'.db k) (hc : s.cache = s'.cache) (hl : s.dirty = s'.dirty) :
    (StateCache.get s k).2 = (StateCache.get s' k).2 ∧ (StateCache.get s k).1.cache = (StateCache.get s' k).1.cache ∧
    (StateCache.get s k).1.dirty = (StateCache.get s' k).1.dirty := by
  unfold StateCache.get
  rw [← hc]
  split
  · exact ⟨rfl, hc, hl⟩
  · rename_i hn
    rw [← hd hn]
    split
    · exact ⟨rfl, hc, hl⟩
    · simp [insertEntry, hc, hl]

theorem getClean_local (s s' : St Key V) (k : Key) (hd : s.cache k = none → s.db k = s'.db k) (hc : s.cache = s'.cache) (hl : s.dirty = s'.dirty) :
    (StateCache.getClean s k).2 = (StateCache.getClean s' k).2 ∧
    (StateCache.getClean s k).1.cache = (StateCache.getClean s' k).1.cache ∧
    (StateCache.getClean s k).1.dirty = (StateCache.getClean s' k).1.dirty := by
  unfold StateCache.getClean
  rw [← hc]
  split
  · exact ⟨rfl, hc, hl⟩
  · rename_i hn
    rw [← hd hn]
    split
    · exact ⟨rfl, hc, hl⟩
    · simp [insertEntry, hc, hl]

theorem add_local (s s' : St Key V) (k : Key) (v : V) (hd : s.cache k = none → s.db k = s'.db k) (hc : s.cache = s'.cache) (hl : s.dirty = s'.dirty) :
    (StateCache.add s k v).1 = (StateCache.add s' k v).1 ∧ (StateCache.add s k v).2.cache = (StateCache.add s' k v).2.cache ∧
    (StateCache.add s k v).2.dirty = (StateCache.add s' k v).2.dirty := by
  have h := get_local s s' k hd hc hl
  unfold StateCache.add
  generalize StateCache.get s k = r at h ⊢
  generalize StateCache.get s' k = r' at h ⊢
  obtain ⟨s1, x⟩ := r
  obtain ⟨s1', x'⟩ := r'
  obtain ⟨h1, h2, h3⟩ := h
  dsimp only at h1 h2 h3
  subst h1
  cases x with
  | some x => exact ⟨rfl, h2, h3⟩
  | none => simp [insertEntry, h2, h3]

theorem withMutEntry_local (s s' : St Key V) (k : Key) (e : StateCache.Entry V) (m : Mut) (f : V → Option V)
    (hc : s.cache = s'.cache) (hl : s.dirty = s'.dirty) :
    (withMutEntry s k e m f).1 = (withMutEntry s' k e m f).1 ∧
    (withMutEntry s k e m f).2.cache = (withMutEntry s' k e m f).2.cache ∧
    (withMutEntry s k e m f).2.dirty = (withMutEntry s' k e m f).2.dirty := by
  unfold withMutEntry
  split
  · exact ⟨rfl, hc, hl⟩
  · split
    · simp [hc, hl]
    · simp [hc, hl]

theorem withMut_local (s s' : St Key V) (k : Key) (m : Mut) (f : V → Option V) (hd : s.cache k = none → s.db k = s'.db k)
    (hc : s.cache = s'.cache) (hl : s.dirty = s'.dirty) :
    (withMut s k m f).1 = (withMut s' k m f).1 ∧ (withMut s k m f).2.cache = (withMut s' k m f).2.cache ∧
    (withMut s k m f).2.dirty = (withMut s' k m f).2.dirty := by
  have h := get_local s s' k hd hc hl
  unfold withMut
  generalize StateCache.get s k = r at h ⊢
  generalize StateCache.get s' k = r' at h ⊢
  obtain ⟨s1, x⟩ := r
  obtain ⟨s1', x'⟩ := r'
  obtain ⟨h1, h2, h3⟩ := h
  dsimp only at h1 h2 h3
  subst h1
  cases x with
  | none => exact ⟨rfl, h2, h3⟩
  | some x =>
    dsimp only
    rw [← h2]
    cases s1.cache k with
    | none => exact ⟨rfl, h2, h3⟩
    | some e => exact withMutEntry_local s1 s1' k e m f h2 h3

/-- The key of an operation on one key. -/
def keyOf : StateCache.Op Key V → Option Key
  | .get k => some k
  | .getClean k => some k
  | .add k _ => some k
  | .update k _ => some k
  | .remove k => some k
  | .evict k => some k
  | _ => none

theorem step_local (s s' : St Key V) (k : Key) (o : StateCache.Op Key V) (ho : keyOf o = some k) (hd : s.cache k = none → s.db k = s'.db k)
    (hc : s.cache = s'.cache) (hl : s.dirty = s'.dirty) :
    (StateCache.step s o).1 = (StateCache.step s' o).1 ∧ (StateCache.step s o).2.cache = (StateCache.step s' o).2.cache ∧
    (StateCache.step s o).2.dirty = (StateCache.step s' o).2.dirty := by
  cases o <;> simp only [keyOf, Option.some.injEq, reduceCtorEq] at ho
  case get k' => subst ho; have h := get_local s s' k' hd hc hl; exact ⟨congrArg StateCache.Out.value h.1, h.2⟩
  case getClean k' => subst ho; have h := getClean_local s s' k' hd hc hl; exact ⟨congrArg StateCache.Out.value h.1, h.2⟩
  case add k' v => subst ho; have h := add_local s s' k' v hd hc hl; exact ⟨congrArg StateCache.Out.ofRes h.1, h.2⟩
  case update k' f => subst ho; have h := withMut_local s s' k' .update f hd hc hl; exact ⟨congrArg StateCache.Out.ofRes h.1, h.2⟩
  case remove k' => subst ho; have h := withMut_local s s' k' .remove some hd hc hl; exact ⟨congrArg StateCache.Out.ofRes h.1, h.2⟩
  case evict k' =>
    subst ho
    refine ⟨rfl, ?_⟩
    show (StateCache.evict s k').cache = (StateCache.evict s' k').cache ∧ (StateCache.evict s k').dirty = (StateCache.evict s' k').dirty
    unfold StateCache.evict
    rw [← hc]
    split
    · split
      · exact ⟨hc, hl⟩
      · exact ⟨rfl, hl⟩
    · exact ⟨hc, hl⟩

/-! ### The simulation -/

/-- The store holds what the cache and the map of C30 hold. -/
structure Sim (env : Trie.Env) (C : Codec V) (S : Sys V) (s : St Key V) (a : Trie.Spec.Abs) : Prop where
  alive : S.alive = true
  cache : S.cache = s.cache
  dirty : S.dirty = s.dirty
  ents : S.staged = s.staged.map Artifact.entries
  ok : Trie.SysOk env.H S.trie a
  repr : Represents C.enc a.kv s.db
  len : a.staged.length = s.staged.length
  reprs : ∀ (i : Nat) kv (x : Artifact Key V), a.staged.reverse[i]? = some kv → s.staged[i]? = some x → Represents C.enc kv x.db

/-- No two strings of a state database have the same hash. -/
def Apart (H : Trie.Bytes → Trie.Bytes) (S : Sys V) : Prop :=
  ∀ x ∈ S.trie.stateDb, ∀ y ∈ S.trie.stateDb, H x.2 = H y.2 → x.2 = y.2

theorem retrieve_exact {H : Trie.Bytes → Trie.Bytes} {s : Trie.Sys} {kv : Trie.Spec.KV}
    (hok : Trie.Stored H s.db s.stateDb kv)
    (hap : ∀ x ∈ s.stateDb, ∀ y ∈ s.stateDb, H x.2 = H y.2 → x.2 = y.2) {k : Trie.Path} {v : Trie.Bytes}
    (hm : (k, v) ∈ kv) : Trie.retrieve s k = .value v := by
  have I := hok.inv
  obtain ⟨p, hl⟩ := Trie.lf_exists I.flat (Trie.keys_of_mem hm)
  have h1 : Trie.get s.db.leafPaths k = some p := (I.leafPath k p).2 hl
  have h2 : Trie.get s.db.nodes p = some (.leaf (Trie.mkLeaf H k v)) := I.leaf p k v hm hl
  have h3 : Trie.getLeaf s.db k = some (Trie.mkLeaf H k v) := by
    unfold Trie.getLeaf
    rw [h1]
    dsimp only
    rw [h2]
  unfold Trie.retrieve
  rw [h3]
  unfold Trie.mkLeaf
  by_cases hv : v.length > 32
  · rw [if_pos hv]
    dsimp only
    have hst := I.stored k v hm hv
    have hin : (H v, v) ∈ s.stateDb := hst.resolve_left fun h => by cases h
    obtain ⟨w, e1, e2⟩ := Trie.stateGet_spec hin
    rw [e1]
    have := hok.genuine _ e2
    have : w = v := hap _ e2 _ hin this.symm
    rw [this]
  · rw [if_neg hv]

theorem fetch_sim {env : Trie.Env} {C : Codec V} {S : Sys V} {s : St Key V} {a : Trie.Spec.Abs} (h : Sim env C S s a)
    (hap : Apart env.H S) (hdec : ∀ k v, s.db k = some v → C.dec k (C.enc v) = some v) (k : Key) :
    fetch C S k = .ok (s.db k) := by
  unfold fetch
  rw [if_pos h.alive]
  cases hd : s.db k with
  | none =>
    rw [Trie.retrieve_absent h.ok.db.toStored]
    intro hk
    obtain ⟨⟨p, b⟩, hp, e⟩ := List.mem_map.1 hk
    obtain ⟨k', e1, v, hv, _⟩ := (h.repr.2 p b).1 hp
    have : k' = k := Subtype.ext (e1.trans e)
    rw [this, hd] at hv
    cases hv
  | some v =>
    rw [retrieve_exact h.ok.db.toStored hap ((h.repr.2 k.1 (C.enc v)).2 ⟨k, rfl, v, hd, rfl⟩)]
    dsimp only
    rw [hdec k v hd]

theorem atKey_sim {env : Trie.Env} {C : Codec V} {S : Sys V} {s : St Key V} {a : Trie.Spec.Abs} (h : Sim env C S s a)
    (hap : Apart env.H S) (hdec : ∀ k v, s.db k = some v → C.dec k (C.enc v) = some v) (k : Key)
    (o : StateCache.Op Key V) (ho : keyOf o = some k) :
    (atKey C S k o).1 = Out.ofCache (StateCache.step s o).1 ∧
    (atKey C S k o).2 = { S with cache := (StateCache.step s o).2.cache, dirty := (StateCache.step s o).2.dirty } := by
  unfold atKey
  by_cases hs : (S.cache k).isSome = true
  · rw [if_pos hs]
    have := step_local (over S none) s k o ho
      (fun (hn : S.cache k = none) => by rw [hn] at hs; cases hs) h.cache h.dirty
    unfold onCache
    rw [this.1, this.2.1, this.2.2]
    exact ⟨rfl, rfl⟩
  · rw [if_neg hs, fetch_sim h hap hdec]
    have := step_local (over S (s.db k)) s k o ho (fun _ => rfl) h.cache h.dirty
    dsimp only
    unfold onCache
    rw [this.1, this.2.1, this.2.2]
    exact ⟨rfl, rfl⟩

/-- Operations on one key leave the databases and staged blocks alone. -/
theorem step_key_db (s : St Key V) (o : StateCache.Op Key V) (k : Key) (ho : keyOf o = some k) :
    (StateCache.step s o).2.db = s.db ∧ (StateCache.step s o).2.staged = s.staged := by
  have hg : ∀ k, (StateCache.get s k).1.db = s.db ∧ (StateCache.get s k).1.staged = s.staged := by
    intro k
    unfold StateCache.get
    split
    · exact ⟨rfl, rfl⟩
    · split <;> exact ⟨rfl, rfl⟩
  have hm : ∀ (t : St Key V) k e m f, (withMutEntry t k e m f).2.db = t.db ∧ (withMutEntry t k e m f).2.staged = t.staged := by
    intro t k e m f
    unfold withMutEntry
    split
    · exact ⟨rfl, rfl⟩
    · split <;> exact ⟨rfl, rfl⟩
  have hw : ∀ k m f, (withMut s k m f).2.db = s.db ∧ (withMut s k m f).2.staged = s.staged := by
    intro k m f
    have := hg k
    unfold withMut
    generalize StateCache.get s k = r at this ⊢
    obtain ⟨s1, x⟩ := r
    cases x with
    | none => exact this
    | some x =>
      dsimp only
      cases s1.cache k with
      | none => exact this
      | some e => rw [(hm s1 k e m f).1, (hm s1 k e m f).2]; exact this
  cases o <;> simp only [keyOf, reduceCtorEq] at ho
  case get k => exact hg k
  case getClean k =>
    show (StateCache.getClean s k).1.db = _ ∧ (StateCache.getClean s k).1.staged = _
    unfold StateCache.getClean
    split
    · exact ⟨rfl, rfl⟩
    · split <;> exact ⟨rfl, rfl⟩
  case add k v =>
    show (StateCache.add s k v).2.db = _ ∧ (StateCache.add s k v).2.staged = _
    have := hg k
    unfold StateCache.add
    generalize StateCache.get s k = r at this ⊢
    obtain ⟨s1, x⟩ := r
    cases x <;> exact this
  case update k f => exact hw k .update f
  case remove k => exact hw k .remove some
  case evict k =>
    show (StateCache.evict s k).db = _ ∧ (StateCache.evict s k).staged = _
    unfold StateCache.evict
    split
    · split <;> exact ⟨rfl, rfl⟩
    · exact ⟨rfl, rfl⟩

theorem key_sim {env : Trie.Env} {C : Codec V} {S : Sys V} {s : St Key V} {a : Trie.Spec.Abs} (h : Sim env C S s a)
    (k : Key) (o : StateCache.Op Key V) (ho : keyOf o = some k) :
    Sim env C { S with cache := (StateCache.step s o).2.cache, dirty := (StateCache.step s o).2.dirty } (StateCache.step s o).2 a := by
  obtain ⟨h1, h2⟩ := step_key_db s o k ho
  exact { alive := h.alive, cache := rfl, dirty := rfl, ents := by rw [h2]; exact h.ents, ok := h.ok,
          repr := by rw [h1]; exact h.repr, len := by rw [h2]; exact h.len, reprs := by rw [h2]; exact h.reprs }

end Fastroll.Store
