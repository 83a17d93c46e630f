import Verif.Store.Lemmas
/-
A batch of dirty entries does to the encoded map what it does to the map.
-/
namespace Fastroll.Store
open Fastroll StateCache
variable {V : Type}

theorem has_repr {enc : V → Trie.Bytes} {kv : Trie.Spec.KV} {m : Key → Option V} (h : Represents enc kv m) (k : Key) :
    Trie.Spec.has kv k.1 = (m k).isSome := by
  rw [Bool.eq_iff_iff, Trie.has_iff]
  constructor
  · intro hk
    obtain ⟨⟨p, b⟩, hp, e⟩ := List.mem_map.1 hk
    obtain ⟨k', e1, v, hv, _⟩ := (h.2 p b).1 hp
    have : k' = k := Subtype.ext (e1.trans e)
    rw [← this, hv]; rfl
  · intro hk
    obtain ⟨v, hv⟩ := Option.isSome_iff_exists.1 hk
    exact List.mem_map.2 ⟨(k.1, enc v), (h.2 _ _).2 ⟨k, rfl, v, hv, rfl⟩, rfl⟩

theorem repr_add {enc : V → Trie.Bytes} {kv : Trie.Spec.KV} {m : Key → Option V} (h : Represents enc kv m) (k : Key)
    (v : V) (hn : m k = none) : Represents enc ((k.1, enc v) :: kv) (upd m k (some v)) := by
  have hk : k.1 ∉ kv.map Prod.fst := by
    intro hk
    have : Trie.Spec.has kv k.1 = true := Trie.has_iff.2 hk
    rw [has_repr h, hn] at this
    cases this
  refine ⟨by rw [List.map_cons, List.nodup_cons]; exact ⟨hk, h.1⟩, fun p b => ?_⟩
  rw [List.mem_cons, h.2]
  constructor
  · rintro (e | ⟨k', e1, w, hw, e2⟩)
    · injection e with e1 e2
      exact ⟨k, e1.symm, v, by unfold upd; rw [if_pos rfl], e2⟩
    · refine ⟨k', e1, w, ?_, e2⟩
      have : k' ≠ k := by rintro rfl; rw [hn] at hw; cases hw
      unfold upd
      rw [if_neg this, hw]
  · rintro ⟨k', e1, w, hw, e2⟩
    unfold upd at hw
    by_cases e : k' = k
    · rw [if_pos e] at hw
      injection hw with hw
      subst e
      exact .inl (by rw [← e1, e2, hw])
    · rw [if_neg e] at hw
      exact .inr ⟨k', e1, w, hw, e2⟩

theorem repr_update {enc : V → Trie.Bytes} {kv : Trie.Spec.KV} {m : Key → Option V} (h : Represents enc kv m) (k : Key)
    (v : V) (hs : (m k).isSome = true) :
    Represents enc (kv.map fun x => if x.1 = k.1 then (x.1, enc v) else x) (upd m k (some v)) := by
  have hfst : (kv.map fun x => if x.1 = k.1 then (x.1, enc v) else x).map Prod.fst = kv.map Prod.fst := by
    rw [List.map_map]
    apply List.map_congr_left
    intro x _
    show (if x.1 = k.1 then (x.1, enc v) else x).1 = x.1
    split <;> rfl
  refine ⟨by rw [hfst]; exact h.1, fun p b => ?_⟩
  rw [List.mem_map]
  constructor
  · rintro ⟨⟨p', b'⟩, hx, e⟩
    dsimp only at e
    obtain ⟨k', e1, w, hw, e2⟩ := (h.2 p' b').1 hx
    by_cases hp : p' = k.1
    · rw [if_pos hp] at e
      injection e with e3 e4
      exact ⟨k, by rw [← e3, hp], v, by unfold upd; rw [if_pos rfl], e4.symm⟩
    · rw [if_neg hp] at e
      injection e with e3 e4
      refine ⟨k', by rw [e1, e3], w, ?_, by rw [← e4, e2]⟩
      have : k' ≠ k := by rintro rfl; exact hp e1.symm
      unfold upd
      rw [if_neg this, hw]
  · rintro ⟨k', e1, w, hw, e2⟩
    unfold upd at hw
    by_cases e : k' = k
    · rw [if_pos e] at hw
      injection hw with hw
      obtain ⟨u, hu⟩ := Option.isSome_iff_exists.1 hs
      refine ⟨(k.1, enc u), (h.2 _ _).2 ⟨k, rfl, u, hu, rfl⟩, ?_⟩
      rw [if_pos rfl, ← e1, e, e2, hw]
    · rw [if_neg e] at hw
      refine ⟨(p, b), (h.2 _ _).2 ⟨k', e1, w, hw, e2⟩, ?_⟩
      have : ¬ p = k.1 := by rw [← e1]; intro h'; exact e (Subtype.ext h')
      dsimp only
      rw [if_neg this]

theorem repr_remove {enc : V → Trie.Bytes} {kv : Trie.Spec.KV} {m : Key → Option V} (h : Represents enc kv m) (k : Key) :
    Represents enc (kv.filter fun x => x.1 ≠ k.1) (upd m k none) := by
  refine ⟨h.1.sublist (List.filter_sublist.map _), fun p b => ?_⟩
  rw [List.mem_filter, h.2]
  constructor
  · rintro ⟨⟨k', e1, w, hw, e2⟩, hne⟩
    refine ⟨k', e1, w, ?_, e2⟩
    have : k' ≠ k := by rintro rfl; simp [e1] at hne
    unfold upd
    rw [if_neg this, hw]
  · rintro ⟨k', e1, w, hw, e2⟩
    unfold upd at hw
    by_cases e : k' = k
    · rw [if_pos e] at hw; cases hw
    · rw [if_neg e] at hw
      refine ⟨⟨k', e1, w, hw, e2⟩, ?_⟩
      have : ¬ p = k.1 := by rw [← e1]; intro h'; exact e (Subtype.ext h')
      simpa using this

/-- A batch that does not empty the map. -/
def Safe (k0 : Key) (db : Key → Option V) (es : List (Key × StateCache.Entry V)) : Prop :=
  (∀ p ∈ es, p.2.status ≠ .dirty .remove) ∨
  ((db k0).isSome = true ∧ ∀ p ∈ es, p.2.status = .dirty .remove → p.1 ≠ k0)

theorem two_keys {enc : V → Trie.Bytes} {kv : Trie.Spec.KV} {m : Key → Option V} (h : Represents enc kv m) {k k0 : Key}
    (hk : (m k).isSome = true) (hk0 : (m k0).isSome = true) (hne : k ≠ k0) : 2 ≤ kv.length := by
  obtain ⟨v, hv⟩ := Option.isSome_iff_exists.1 hk
  obtain ⟨w, hw⟩ := Option.isSome_iff_exists.1 hk0
  have h1 : (k.1, enc v) ∈ kv := (h.2 _ _).2 ⟨k, rfl, v, hv, rfl⟩
  have h2 : (k0.1, enc w) ∈ kv := (h.2 _ _).2 ⟨k0, rfl, w, hw, rfl⟩
  match kv, h1, h2 with
  | [x], h1, h2 =>
    rw [List.mem_singleton] at h1 h2
    rw [← h1] at h2
    injection h2 with e1 _
    exact absurd (Subtype.ext e1.symm) hne
  | _ :: _ :: l, _, _ => simp

theorem batch_repr (C : Codec V) (k0 : Key) : ∀ (es : List (Key × StateCache.Entry V)) (db db' : Key → Option V) (kv : Trie.Spec.KV),
    writeAll db es = .ok db' → Represents C.enc kv db → Safe k0 db es →
    ∃ kv', Trie.Spec.apply kv (es.filterMap (toTrie C)) = some kv' ∧ Represents C.enc kv' db'
  | [], db, db', kv, h, hr, _ => by
    injection h with h
    exact ⟨kv, rfl, h ▸ hr⟩
  | (k, e) :: es, db, db', kv, h, hr, hs => by
    unfold writeAll at h
    cases h1 : writeEntry db k e with
    | error x => rw [h1] at h; cases h
    | ok db1 =>
      rw [h1] at h
      dsimp only at h
      have hs' : Safe k0 db1 es := by
        rcases hs with hs | ⟨ha, hb⟩
        · exact .inl fun p hp => hs p (List.mem_cons_of_mem _ hp)
        · refine .inr ⟨?_, fun p hp => hb p (List.mem_cons_of_mem _ hp)⟩
          have hb1 := hb (k, e) List.mem_cons_self
          unfold writeEntry at h1
          by_cases hk : k0 = k
          · subst hk
            cases hst : e.status with
            | clean => rw [hst] at h1; injection h1 with h1; rw [← h1]; exact ha
            | dirty m =>
              rw [hst] at h1
              obtain ⟨u, hu⟩ := Option.isSome_iff_exists.1 ha
              cases m with
              | add => simp only [hu] at h1; cases h1
              | update => simp only [hu] at h1; injection h1 with h1; rw [← h1]; simp [upd]
              | remove => exact absurd rfl (hb1 hst)
          · have : ∀ w, upd db k w k0 = db k0 := fun w => by unfold upd; rw [if_neg hk]
            split at h1
            · injection h1 with h1; rw [← h1]; exact ha
            all_goals
              split at h1
              all_goals first
                | (cases h1; done)
                | (injection h1 with h1; rw [← h1, this]; exact ha)
      have step : ∀ t kv1, toTrie C (k, e) = some t → Trie.Spec.apply1 kv t = some kv1 → Represents C.enc kv1 db1 →
          ∃ kv', Trie.Spec.apply kv (((k, e) :: es).filterMap (toTrie C)) = some kv' ∧ Represents C.enc kv' db' := by
        intro t kv1 ht ha hr1
        obtain ⟨kv', h2, h3⟩ := batch_repr C k0 es db1 db' kv1 h hr1 hs'
        refine ⟨kv', ?_, h3⟩
        rw [List.filterMap_cons_some ht]
        show (Trie.Spec.apply1 kv t).bind _ = _
        rw [ha]
        exact h2
      unfold writeEntry at h1
      cases hst : e.status with
      | clean =>
        rw [hst] at h1
        injection h1 with h1
        obtain ⟨kv', h2, h3⟩ := batch_repr C k0 es db1 db' kv h (h1 ▸ hr) hs'
        refine ⟨kv', ?_, h3⟩
        rw [List.filterMap_cons_none (by unfold toTrie; dsimp only; rw [hst])]
        exact h2
      | dirty m =>
        rw [hst] at h1
        cases m with
        | add =>
          cases hd : db k with
          | some u => simp only [hd] at h1; cases h1
          | none =>
            simp only [hd] at h1
            injection h1 with h1
            refine step ⟨k.1, .add, C.enc e.value⟩ _ (by unfold toTrie; dsimp only; rw [hst]) ?_ (h1 ▸ repr_add hr k e.value hd)
            unfold Trie.Spec.apply1
            dsimp only
            rw [has_repr hr, hd]
            rfl
        | update =>
          cases hd : db k with
          | none => simp only [hd] at h1; cases h1
          | some u =>
            simp only [hd] at h1
            injection h1 with h1
            refine step ⟨k.1, .update, C.enc e.value⟩ _ (by unfold toTrie; dsimp only; rw [hst]) ?_
              (h1 ▸ repr_update hr k e.value (by rw [hd]; rfl))
            unfold Trie.Spec.apply1
            dsimp only
            rw [has_repr hr, hd]
            rfl
        | remove =>
          cases hd : db k with
          | none => simp only [hd] at h1; cases h1
          | some u =>
            simp only [hd] at h1
            injection h1 with h1
            have hlen : 2 ≤ kv.length := by
              rcases hs with hs | ⟨ha, hb⟩
              · exact absurd hst (hs _ List.mem_cons_self)
              · exact two_keys hr (by rw [hd]; rfl) ha (hb _ List.mem_cons_self hst)
            refine step ⟨k.1, .remove, C.enc e.value⟩ _ (by unfold toTrie; dsimp only; rw [hst]) ?_ (h1 ▸ repr_remove hr k)
            unfold Trie.Spec.apply1
            dsimp only
            rw [has_repr hr, hd]
            simp [hlen]

theorem batch_len (C : Codec V) (es : List (Key × StateCache.Entry V)) :
    (es.filterMap (toTrie C)).all (fun e => e.key.length == 248) = true := by
  rw [List.all_eq_true]
  intro t ht
  obtain ⟨⟨k, e⟩, _, h⟩ := List.mem_filterMap.1 ht
  unfold toTrie at h
  dsimp only at h
  have := k.2
  split at h <;> first | (cases h; done) | (injection h with h; rw [← h]; simpa using this)

end Fastroll.Store
