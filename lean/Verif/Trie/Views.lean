import Verif.Trie.History
namespace Fastroll.Trie
open Spec (KV under)

/-! ### The stored nodes are those of the Merklization -/

theorem leaf_encode (H : Bytes → Bytes) (hH : ∀ x, (H x).length = 32) {k : Path} (v : Bytes) (hk : k.length = keyBits) :
    (Node.leaf (mkLeaf H k v)).encode = Spec.pack (Spec.leafBits H k v) := by
  have hl := rawBits_length _ (mkLeaf_wf H hH k v hk)
  rw [mkLeaf_rawBits H k v hk] at hl
  rw [encode_eq, mkLeaf_rawBits H k v hk, pack_unbits 64 _ hl]

theorem branch_encode (l r : Bytes) (hl : l.length = 32) (hr : r.length = 32) :
    (Node.branch (Branch.make l r)).encode = Spec.pack (Spec.branchBits l r) := by
  have h1 := rawBits_length _ (make_wf l r hl hr)
  rw [make_rawBits] at h1
  rw [encode_eq, make_rawBits, pack_unbits 64 _ h1]

theorem br_iff_two {kv : KV} (hn : (kv.map (·.1)).Nodup) (p : Path) : Br (Keys kv) p ↔ 2 ≤ (under kv p).length := by
  constructor
  · intro h
    obtain ⟨e, e', r, h⟩ := br_two h
    rw [h]; simp
  · intro h
    have hn' : ((under kv p).map (·.1)).Nodup := List.Nodup.sublist (List.Sublist.map _ List.filter_sublist) hn
    match hc : under kv p with
    | [] => rw [hc] at h; simp at h
    | [_] => rw [hc] at h; simp at h
    | e :: e' :: r =>
      rw [hc] at hn'
      have h1 : e ∈ under kv p := by rw [hc]; exact List.mem_cons_self
      have h2 : e' ∈ under kv p := by rw [hc]; exact List.mem_cons_of_mem _ List.mem_cons_self
      rw [mem_under] at h1 h2
      refine ⟨e.1, e'.1, ?_, List.mem_map.2 ⟨e, h1.1, rfl⟩, List.mem_map.2 ⟨e', h2.1, rfl⟩, h1.2, h2.2⟩
      simp only [List.map_cons, List.nodup_cons, List.mem_cons, not_or] at hn'
      exact hn'.1.1

theorem nodeAt_spec {H : Bytes → Bytes} (hH : ∀ x, (H x).length = 32) {db : Db} {sdb : List (Bytes × Bytes)} {kv : KV}
    (hok : Stored H db sdb kv) (p : Path) : (get db.nodes p).map Node.encode = Spec.nodeAt H kv p := by
  have hr := dbOk_right hok p
  have I := hok.inv
  unfold Spec.nodeAt
  by_cases hp : p = [] ∨ 2 ≤ (under kv p.dropLast).length
  · rw [if_pos hp]
    rw [← br_iff_two I.nodup] at hp
    match hc : under kv p with
    | [] =>
      have hno : ∀ k, Keys kv k → ¬ p <+: k := by
        intro k hk hpk
        obtain ⟨v, hv⟩ := mem_of_keys hk
        have : (k, v) ∈ under kv p := mem_under.2 ⟨hv, hpk⟩
        rw [hc] at this; cases this
      rw [hr.none]
      · rfl
      · rintro ⟨a, _, _, h, _, h', _⟩; exact hno a h h'
      · intro k h; exact hno k h.1 h.2.1
    | [(k, v)] =>
      have hm : (k, v) ∈ under kv p := by rw [hc]; exact List.mem_singleton.2 rfl
      rw [mem_under] at hm
      have hl : Lf (Keys kv) p k := by
        refine ⟨keys_of_mem hm.1, hm.2, fun k' hk' hp' => ?_, hp⟩
        obtain ⟨v', hv'⟩ := mem_of_keys hk'
        have : (k', v') ∈ under kv p := mem_under.2 ⟨hv', hp'⟩
        rw [hc, List.mem_singleton] at this
        injection this
      rw [hr.leaf k v hm.1 hl]
      show some ((Node.leaf (mkLeaf H k v)).encode) = some _
      rw [leaf_encode H hH v (I.flat k hl.1)]
    | e :: e' :: r =>
      have hb : Br (Keys kv) p := (br_iff_two I.nodup p).2 (by rw [hc]; simp)
      obtain ⟨b, h1, h2⟩ := hr.branch hb
      rw [h1, right_make h2]
      show some ((Node.branch _).encode) = some _
      rw [branch_encode _ _ (hashAt_length hH I.nodup I.flat) (hashAt_length hH I.nodup I.flat)]
      unfold hashAt
      rw [List.length_append, List.length_append]
      rfl
  · rw [if_neg hp]
    rw [← br_iff_two I.nodup] at hp
    rw [hr.none]
    · rfl
    · intro h
      exact hp (Or.inr (br_prefix h (List.dropLast_prefix p)))
    · intro k h
      exact hp h.2.2.2

/-! ### Retrieval -/

theorem stateGet_spec {m : List (Bytes × Bytes)} {h v : Bytes} (hm : (h, v) ∈ m) : ∃ w, stateGet m h = some w ∧ (h, w) ∈ m := by
  induction m with
  | nil => cases hm
  | cons e m ih =>
    obtain ⟨h0, v0⟩ := e
    unfold stateGet
    by_cases e : h = h0
    · rw [if_pos e]
      subst e
      exact ⟨v0, rfl, List.mem_cons_self⟩
    · rw [if_neg e]
      rcases List.mem_cons.1 hm with h1 | h1
      · injection h1 with h1; exact absurd h1 e
      · obtain ⟨w, h2, h3⟩ := ih h1
        exact ⟨w, h2, List.mem_cons_of_mem _ h3⟩

theorem retrieve_present {H : Bytes → Bytes} {s : Sys} {kv : KV} (hok : Stored H s.db s.stateDb kv) {k : Path} {v : Bytes}
    (hm : (k, v) ∈ kv) : ∃ w, retrieve s k = .value w ∧ (w = v ∨ (w ≠ v ∧ H w = H v)) := by
  have I := hok.inv
  obtain ⟨p, hl⟩ := lf_exists I.flat (keys_of_mem hm)
  have h1 : get s.db.leafPaths k = some p := (I.leafPath k p).2 hl
  have h2 : get s.db.nodes p = some (.leaf (mkLeaf H k v)) := I.leaf p k v hm hl
  have h3 : getLeaf s.db k = some (mkLeaf H k v) := by
    unfold getLeaf
    rw [h1]
    dsimp only
    rw [h2]
  unfold retrieve
  rw [h3]
  unfold mkLeaf
  by_cases hv : v.length > 32
  · rw [if_pos hv]
    dsimp only
    have hst := I.stored k v hm hv
    have hin : (H v, v) ∈ s.stateDb := hst.resolve_left fun h => by cases h
    obtain ⟨w, e1, e2⟩ := stateGet_spec hin
    rw [e1]
    refine ⟨w, rfl, ?_⟩
    have := hok.genuine _ e2
    by_cases e : w = v
    · exact Or.inl e
    · exact Or.inr ⟨e, this.symm⟩
  · rw [if_neg hv]
    exact ⟨v, rfl, Or.inl rfl⟩

theorem retrieve_absent {H : Bytes → Bytes} {s : Sys} {kv : KV} (hok : Stored H s.db s.stateDb kv) {k : Path}
    (hm : ¬ Keys kv k) : retrieve s k = .absent := by
  have h1 : get s.db.leafPaths k = none := by
    cases h : get s.db.leafPaths k with
    | none => rfl
    | some p => exact absurd ((hok.inv.leafPath k p).1 h).1 hm
  unfold retrieve getLeaf
  rw [h1]

/-! ### The Merklization depends only on the map -/

theorem merkle_perm (H : Bytes → Bytes) (fuel : Nat) : ∀ (i : Nat) {kv kv' : KV}, kv.Perm kv' →
    Spec.merkle H fuel i kv = Spec.merkle H fuel i kv' := by
  induction fuel with
  | zero =>
    intro i kv kv' h
    match kv, kv', h with
    | [], kv', h => rw [List.nil_perm.1 h]
    | [e], kv', h => rw [List.singleton_perm.1 h]
    | a :: b :: r, [], h => exact absurd h.length_eq (by simp)
    | a :: b :: r, [_], h => exact absurd h.length_eq (by simp)
    | (_, _) :: (_, _) :: r, (_, _) :: (_, _) :: r', h => rfl
  | succ fuel ih =>
    intro i kv kv' h
    match kv, kv', h with
    | [], kv', h => rw [List.nil_perm.1 h]
    | [e], kv', h => rw [List.singleton_perm.1 h]
    | a :: b :: r, [], h => exact absurd h.length_eq (by simp)
    | a :: b :: r, [_], h => exact absurd h.length_eq (by simp)
    | (a1, a2) :: (b1, b2) :: r, (c1, c2) :: (d1, d2) :: r', h =>
      have e1 := ih (i + 1) (h.filter fun e => e.1.getD i false == false)
      have e2 := ih (i + 1) (h.filter fun e => e.1.getD i false)
      show H (Spec.pack (Spec.branchBits _ _)) = H (Spec.pack (Spec.branchBits _ _))
      rw [e1, e2]

theorem nodeAt_perm (H : Bytes → Bytes) {kv kv' : KV} (h : kv.Perm kv') (p : Path) : Spec.nodeAt H kv p = Spec.nodeAt H kv' p := by
  have hu : ∀ q, (under kv q).Perm (under kv' q) := fun q => h.filter _
  unfold Spec.nodeAt
  rw [(hu p.dropLast).length_eq]
  split
  · rw [merkle_perm H _ _ (hu (p ++ [false])), merkle_perm H _ _ (hu (p ++ [true]))]
    have := hu p
    generalize under kv p = u at *
    generalize under kv' p = u' at *
    match u, u', this with
    | [], u', h => rw [List.nil_perm.1 h]
    | [e], u', h => rw [List.singleton_perm.1 h]
    | a :: b :: r, [], h => exact absurd h.length_eq (by simp)
    | a :: b :: r, [_], h => exact absurd h.length_eq (by simp)
    | (a1, a2) :: (b1, b2) :: r, (c1, c2) :: (d1, d2) :: r', h => rfl
  · rfl

/-! ### The order of a batch -/

theorem apply1_mem {kv kv' : KV} {e : Entry} (h : Spec.apply1 kv e = some kv') (k : Path) (v : Bytes) :
    (k, v) ∈ kv' ↔ (k = e.key ∧ e.kind ≠ .remove ∧ v = e.value) ∨ ((k, v) ∈ kv ∧ k ≠ e.key) := by
  unfold Spec.apply1 at h
  cases hk : e.kind with
  | add =>
    rw [hk] at h
    dsimp only at h
    by_cases hh : Spec.has kv e.key = true
    · rw [if_pos hh] at h; cases h
    · rw [if_neg hh] at h
      injection h with h
      rw [← h, List.mem_cons]
      constructor
      · rintro (h | h)
        · injection h with h1 h2; exact Or.inl ⟨h1, by decide, h2⟩
        · exact Or.inr ⟨h, fun he => hh (has_iff.2 (he ▸ keys_of_mem h))⟩
      · rintro (⟨h1, _, h2⟩ | h)
        · exact Or.inl (by rw [h1, h2])
        · exact Or.inr h.1
  | update =>
    rw [hk] at h
    dsimp only at h
    by_cases hh : Spec.has kv e.key = true
    · rw [if_pos hh] at h
      injection h with h
      rw [← h]
      constructor
      · intro hm
        rcases mem_setKV hm with ⟨h1, h2⟩ | ⟨h1, h2⟩
        · exact Or.inl ⟨h1, by decide, h2⟩
        · exact Or.inr ⟨h2, h1⟩
      · rintro (⟨h1, _, h2⟩ | ⟨h1, h2⟩)
        · obtain ⟨v0, hv0⟩ := mem_of_keys (has_iff.1 hh)
          refine List.mem_map.2 ⟨_, hv0, ?_⟩
          dsimp only
          rw [if_pos rfl, h1, h2]
        · refine List.mem_map.2 ⟨_, h1, ?_⟩
          dsimp only
          rw [if_neg h2]
    · rw [if_neg hh] at h; cases h
  | remove =>
    rw [hk] at h
    dsimp only at h
    by_cases hh : (Spec.has kv e.key && decide (2 ≤ kv.length)) = true
    · rw [if_pos hh] at h
      injection h with h
      rw [← h]
      constructor
      · intro hm; exact Or.inr (mem_delKV.1 hm)
      · rintro (⟨_, h2, _⟩ | h)
        · exact absurd rfl h2
        · exact mem_delKV.2 h
    · rw [if_neg hh] at h; cases h

theorem apply1_nodup {kv kv' : KV} {e : Entry} (hn : (kv.map (·.1)).Nodup) (h : Spec.apply1 kv e = some kv') :
    (kv'.map (·.1)).Nodup := by
  unfold Spec.apply1 at h
  cases hk : e.kind with
  | add =>
    rw [hk] at h
    dsimp only at h
    by_cases hh : Spec.has kv e.key = true
    · rw [if_pos hh] at h; cases h
    · rw [if_neg hh] at h
      injection h with h
      rw [← h, List.map_cons, List.nodup_cons]
      exact ⟨fun hm => hh (has_iff.2 hm), hn⟩
  | update =>
    rw [hk] at h
    dsimp only at h
    by_cases hh : Spec.has kv e.key = true
    · rw [if_pos hh] at h
      injection h with h
      rw [← h]
      show ((setKV kv e.key e.value).map (·.1)).Nodup
      rw [setKV_fst]; exact hn
    · rw [if_neg hh] at h; cases h
  | remove =>
    rw [hk] at h
    dsimp only at h
    by_cases hh : (Spec.has kv e.key && decide (2 ≤ kv.length)) = true
    · rw [if_pos hh] at h
      injection h with h
      rw [← h]
      exact delKV_nodup hn _
    · rw [if_neg hh] at h; cases h

theorem apply_mem (es : List Entry) : ∀ {kv kv' : KV}, (kv.map (·.1)).Nodup → (es.map (·.key)).Nodup → Spec.apply kv es = some kv' →
    (kv'.map (·.1)).Nodup ∧ ∀ k v, (k, v) ∈ kv' ↔
      (∃ e ∈ es, e.key = k ∧ e.kind ≠ .remove ∧ e.value = v) ∨ ((k, v) ∈ kv ∧ ∀ e ∈ es, e.key ≠ k) := by
  induction es with
  | nil =>
    intro kv kv' hn _ h
    injection h with h
    subst h
    refine ⟨hn, fun k v => ⟨fun h => Or.inr ⟨h, (fun e he => by cases he)⟩, ?_⟩⟩
    rintro (⟨e, he, _⟩ | h)
    · cases he
    · exact h.1
  | cons e es ih =>
    intro kv kv' hn hd h
    rw [List.map_cons, List.nodup_cons] at hd
    unfold Spec.apply at h
    cases h1 : Spec.apply1 kv e with
    | none => rw [h1] at h; cases h
    | some kv1 =>
      rw [h1] at h
      obtain ⟨i1, i2⟩ := ih (apply1_nodup hn h1) hd.2 h
      refine ⟨i1, fun k v => ?_⟩
      rw [i2, apply1_mem h1]
      constructor
      · rintro (⟨x, hx, h2⟩ | ⟨⟨h2, h3, h4⟩ | ⟨h2, h3⟩, h5⟩)
        · exact Or.inl ⟨x, List.mem_cons_of_mem _ hx, h2⟩
        · exact Or.inl ⟨e, List.mem_cons_self, h2.symm, h3, h4.symm⟩
        · refine Or.inr ⟨h2, fun x hx => ?_⟩
          rcases List.mem_cons.1 hx with rfl | hx
          · exact fun h => h3 h.symm
          · exact h5 x hx
      · rintro (⟨x, hx, h2, h3, h4⟩ | ⟨h2, h3⟩)
        · rcases List.mem_cons.1 hx with rfl | hx
          · refine Or.inr ⟨Or.inl ⟨h2.symm, h3, h4.symm⟩, fun y hy he => hd.1 (List.mem_map.2 ⟨y, hy, he.trans h2.symm⟩)⟩
          · exact Or.inl ⟨x, hx, h2, h3, h4⟩
        · exact Or.inr ⟨Or.inr ⟨h2, fun he => h3 e List.mem_cons_self he.symm⟩, fun y hy => h3 y (List.mem_cons_of_mem _ hy)⟩

theorem nodup_of_keys {kv : KV} (h : (kv.map (·.1)).Nodup) : kv.Nodup := by
  induction kv with
  | nil => exact List.nodup_nil
  | cons e kv ih =>
    rw [List.map_cons, List.nodup_cons] at h
    rw [List.nodup_cons]
    exact ⟨fun hm => h.1 (List.mem_map.2 ⟨e, hm, rfl⟩), ih h.2⟩

theorem apply_perm {es es' : List Entry} {kv kv1 kv2 : KV} (hn : (kv.map (·.1)).Nodup) (hd : (es.map (·.key)).Nodup)
    (hp : es.Perm es') (h1 : Spec.apply kv es = some kv1) (h2 : Spec.apply kv es' = some kv2) : kv1.Perm kv2 := by
  obtain ⟨n1, m1⟩ := apply_mem es hn hd h1
  obtain ⟨n2, m2⟩ := apply_mem es' hn ((hp.map _).nodup_iff.1 hd) h2
  rw [List.perm_ext_iff_of_nodup (nodup_of_keys n1) (nodup_of_keys n2)]
  rintro ⟨k, v⟩
  rw [m1, m2]
  constructor
  · rintro (⟨e, he, h⟩ | ⟨h, h'⟩)
    · exact Or.inl ⟨e, hp.mem_iff.1 he, h⟩
    · exact Or.inr ⟨h, fun e he => h' e (hp.mem_iff.2 he)⟩
  · rintro (⟨e, he, h⟩ | ⟨h, h'⟩)
    · exact Or.inl ⟨e, hp.mem_iff.2 he, h⟩
    · exact Or.inr ⟨h, fun e he => h' e (hp.mem_iff.1 he)⟩

theorem apply1_keys {kv kv' : KV} {e : Entry} (h : Spec.apply1 kv e = some kv') (k : Path) :
    Keys kv' k ↔ (k = e.key ∧ e.kind ≠ .remove) ∨ (Keys kv k ∧ k ≠ e.key) := by
  constructor
  · intro hk
    obtain ⟨v, hv⟩ := mem_of_keys hk
    rcases (apply1_mem h k v).1 hv with ⟨h1, h2, _⟩ | ⟨h1, h2⟩
    · exact Or.inl ⟨h1, h2⟩
    · exact Or.inr ⟨keys_of_mem h1, h2⟩
  · rintro (⟨h1, h2⟩ | ⟨h1, h2⟩)
    · exact keys_of_mem ((apply1_mem h k e.value).2 (Or.inl ⟨h1, h2, rfl⟩))
    · obtain ⟨v, hv⟩ := mem_of_keys h1
      exact keys_of_mem ((apply1_mem h k v).2 (Or.inr ⟨hv, h2⟩))

theorem apply1_legal {kv kv' : KV} {e : Entry} (h : Spec.apply1 kv e = some kv') : e.kind = .add ↔ ¬ Keys kv e.key := by
  unfold Spec.apply1 at h
  rw [← has_iff]
  cases hk : e.kind with
  | add =>
    rw [hk] at h
    dsimp only at h
    by_cases hh : Spec.has kv e.key = true
    · rw [if_pos hh] at h; cases h
    · exact ⟨fun _ => hh, fun _ => rfl⟩
  | update =>
    rw [hk] at h
    dsimp only at h
    by_cases hh : Spec.has kv e.key = true
    · exact ⟨fun h => by (cases h), fun h => absurd hh h⟩
    · rw [if_neg hh] at h; cases h
  | remove =>
    rw [hk] at h
    dsimp only at h
    by_cases hh : (Spec.has kv e.key && decide (2 ≤ kv.length)) = true
    · rw [Bool.and_eq_true] at hh
      exact ⟨fun h => by (cases h), fun h => absurd hh.1 h⟩
    · rw [if_neg hh] at h; cases h

theorem apply_legal (es : List Entry) : ∀ {kv kv' : KV}, (es.map (·.key)).Nodup → Spec.apply kv es = some kv' →
    ∀ e ∈ es, (e.kind = .add ↔ ¬ Keys kv e.key) := by
  induction es with
  | nil => intro kv kv' _ _ e he; cases he
  | cons x es ih =>
    intro kv kv' hd h e he
    rw [List.map_cons, List.nodup_cons] at hd
    unfold Spec.apply at h
    cases h1 : Spec.apply1 kv x with
    | none => rw [h1] at h; cases h
    | some kv1 =>
      rw [h1] at h
      rcases List.mem_cons.1 he with rfl | he
      · exact apply1_legal h1
      · have h2 := ih hd.2 h e he
        have hne : e.key ≠ x.key := fun h => hd.1 (List.mem_map.2 ⟨e, he, h⟩)
        rw [h2, apply1_keys h1]
        constructor
        · intro h3 h4; exact h3 (Or.inr ⟨h4, hne⟩)
        · rintro h3 (⟨h4, _⟩ | h4)
          · exact hne h4
          · exact h3 h4.1

theorem apply_some (es : List Entry) : ∀ {kv : KV} (k0 : Path), (kv.map (·.1)).Nodup → (es.map (·.key)).Nodup → Keys kv k0 →
    (∀ e ∈ es, e.kind = .remove → e.key ≠ k0) → (∀ e ∈ es, (e.kind = .add ↔ ¬ Keys kv e.key)) →
    ∃ kv', Spec.apply kv es = some kv' := by
  induction es with
  | nil => intro kv k0 _ _ _ _ _; exact ⟨kv, rfl⟩
  | cons x es ih =>
    intro kv k0 hn hd hk0 hrem hleg
    rw [List.map_cons, List.nodup_cons] at hd
    have hx := hleg x List.mem_cons_self
    have h1 : ∃ kv1, Spec.apply1 kv x = some kv1 := by
      unfold Spec.apply1
      cases hk : x.kind with
      | add =>
        dsimp only
        rw [if_neg]
        · exact ⟨_, rfl⟩
        · rw [has_iff]; exact hx.1 hk
      | update =>
        have hh : Keys kv x.key := by
          by_cases h : Keys kv x.key
          · exact h
          · have := hx.2 h; rw [hk] at this; cases this
        dsimp only
        rw [if_pos (has_iff.2 hh)]
        exact ⟨_, rfl⟩
      | remove =>
        have hh : Keys kv x.key := by
          by_cases h : Keys kv x.key
          · exact h
          · have := hx.2 h; rw [hk] at this; cases this
        dsimp only
        have hne := hrem x List.mem_cons_self hk
        have hlen : 2 ≤ kv.length := by
          have := List.Nodup.length_le_of_subset (l₁ := [k0, x.key]) (l₂ := kv.map (·.1))
            (by simp; exact fun h => hne h.symm) (by
              intro y hy
              simp only [List.mem_cons, List.not_mem_nil, or_false] at hy
              rcases hy with rfl | rfl
              · exact hk0
              · exact hh)
          rw [List.length_map] at this
          exact this
        rw [if_pos (by rw [Bool.and_eq_true, decide_eq_true_eq]; exact ⟨has_iff.2 hh, hlen⟩)]
        exact ⟨_, rfl⟩
    obtain ⟨kv1, h1⟩ := h1
    obtain ⟨kv', h2⟩ := ih (kv := kv1) k0 (apply1_nodup hn h1) hd.2 (by
        rw [apply1_keys h1]
        by_cases he : k0 = x.key
        · exact Or.inl ⟨he, fun hr => hrem x List.mem_cons_self hr he.symm⟩
        · exact Or.inr ⟨hk0, he⟩)
      (fun e he => hrem e (List.mem_cons_of_mem _ he))
      (fun e he => by
        have hne : e.key ≠ x.key := fun h => hd.1 (List.mem_map.2 ⟨e, he, h⟩)
        rw [hleg e (List.mem_cons_of_mem _ he), apply1_keys h1]
        constructor
        · rintro h3 (⟨h4, _⟩ | h4)
          · exact hne h4
          · exact h3 h4.1
        · intro h3 h4; exact h3 (Or.inr ⟨h4, hne⟩))
    refine ⟨kv', ?_⟩
    unfold Spec.apply
    rw [h1]
    exact h2

end Fastroll.Trie
