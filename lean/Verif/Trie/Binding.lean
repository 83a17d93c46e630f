import Verif.Trie.Views
namespace Fastroll.Trie
open Spec (KV under)

/-- Distinct full-length keys that start with a path. -/
structure Below (p : Path) (kv : KV) : Prop where
  nodup : (kv.map (·.1)).Nodup
  len : ∀ e ∈ kv, e.1.length = keyBits
  pre : ∀ e ∈ kv, p <+: e.1

theorem below_filter {p : Path} {kv : KV} (h : Below p kv) (hp : p.length < keyBits) :
    Below (p ++ [false]) (kv.filter fun e => e.1.getD p.length false == false) ∧
    Below (p ++ [true]) (kv.filter fun e => e.1.getD p.length false) := by
  constructor
  · refine ⟨List.Nodup.sublist (List.Sublist.map _ List.filter_sublist) h.nodup, fun e he => h.len e (List.mem_filter.1 he).1, fun e he => ?_⟩
    obtain ⟨h1, h2⟩ := List.mem_filter.1 he
    rw [prefix_concat_iff _ _ _ (by rw [h.len e h1]; exact hp)]
    exact ⟨h.pre e h1, by simpa using h2⟩
  · refine ⟨List.Nodup.sublist (List.Sublist.map _ List.filter_sublist) h.nodup, fun e he => h.len e (List.mem_filter.1 he).1, fun e he => ?_⟩
    obtain ⟨h1, h2⟩ := List.mem_filter.1 he
    rw [prefix_concat_iff _ _ _ (by rw [h.len e h1]; exact hp)]
    exact ⟨h.pre e h1, h2⟩

theorem below_full {p : Path} (hp : p.length = keyBits) {a b : Path × Bytes} {r : KV} (h : Below p (a :: b :: r)) : False := by
  have e1 := (h.pre a List.mem_cons_self).eq_of_length (by rw [hp, h.len a List.mem_cons_self])
  have e2 := (h.pre b (List.mem_cons_of_mem _ List.mem_cons_self)).eq_of_length
    (by rw [hp, h.len b (List.mem_cons_of_mem _ List.mem_cons_self)])
  have := h.nodup
  simp only [List.map_cons, List.nodup_cons, List.mem_cons, not_or] at this
  exact this.1.1 (e1.symm.trans e2)

theorem merkle_length {H : Bytes → Bytes} (hH : ∀ x, (H x).length = 32) (fuel : Nat) {p : Path} {kv : KV}
    (hf : p.length + fuel = keyBits) (h : Below p kv) (i : Nat) : (Spec.merkle H fuel i kv).length = 32 := by
  match fuel, kv, h with
  | 0, [], _ => rfl
  | _ + 1, [], _ => rfl
  | 0, [(_, _)], _ => exact hH _
  | _ + 1, [(_, _)], _ => exact hH _
  | 0, _ :: _ :: _, h => exact (below_full (by omega) h).elim
  | _ + 1, (_, _) :: (_, _) :: _, _ => exact hH _

theorem clash_mono {H : Bytes → Bytes} {xs ys xs' ys' : List Bytes} (hx : ∀ x ∈ xs, x ∈ xs') (hy : ∀ y ∈ ys, y ∈ ys')
    (h : Spec.Clash H xs ys) : Spec.Clash H xs' ys' := by
  rcases h with ⟨x, h1, y, h2, h3⟩ | ⟨x, h1, h2⟩
  · exact Or.inl ⟨x, hx x h1, y, hy y h2, h3⟩
  · exact Or.inr ⟨x, h1.imp (hx x) (hy x), h2⟩

theorem cut_zero : Spec.cut (List.replicate 32 0) = List.replicate 255 false := by decide +kernel

theorem pack_leaf (H : Bytes → Bytes) (hH : ∀ x, (H x).length = 32) {k : Path} (v : Bytes) (hk : k.length = keyBits) :
    Spec.pack (Spec.leafBits H k v) = (Node.leaf (mkLeaf H k v)).encode := (leaf_encode H hH v hk).symm

theorem pack_branch_inj {l r l' r' : Bytes} (h1 : l.length = 32) (h2 : r.length = 32) (h3 : l'.length = 32) (h4 : r'.length = 32)
    (h : Spec.pack (Spec.branchBits l r) = Spec.pack (Spec.branchBits l' r')) :
    Spec.cut l = Spec.cut l' ∧ Spec.cut r = Spec.cut r' := by
  rw [← branch_encode l r h1 h2, ← branch_encode l' r' h3 h4] at h
  have := encode_inj _ _ (make_wf l r h1 h2) (make_wf l' r' h3 h4) h
  injection this with this
  unfold Branch.make at this
  injection this with e1 e2
  unfold Spec.cut
  rw [bits_spec, bits_spec, bits_spec, bits_spec, e2, ← List.drop_one, ← List.drop_one, e1]
  exact ⟨rfl, rfl⟩

/-- Equal hashes, even up to the first bit, mean equal maps, unless two hashed strings clash. -/
theorem merkle_binds {H : Bytes → Bytes} (hH : ∀ x, (H x).length = 32) (fuel : Nat) : ∀ {p : Path} {kv kv' : KV},
    p.length + fuel = keyBits → Below p kv → Below p kv' →
    Spec.cut (Spec.merkle H fuel p.length kv) = Spec.cut (Spec.merkle H fuel p.length kv') →
    kv.Perm kv' ∨ Spec.Clash H (Spec.inputs H fuel p.length kv) (Spec.inputs H fuel p.length kv') := by
  -- everything but two branches
  have leafleaf : ∀ (fuel i : Nat) (k : Path) (v : Bytes) (k' : Path) (v' : Bytes), k.length = keyBits → k'.length = keyBits →
      Spec.cut (Spec.merkle H fuel i [(k, v)]) = Spec.cut (Spec.merkle H fuel i [(k', v')]) →
      ([(k, v)] : KV).Perm [(k', v')] ∨ Spec.Clash H (Spec.inputs H fuel i [(k, v)]) (Spec.inputs H fuel i [(k', v')]) := by
    intro fuel i k v k' v' hk hk' h
    have e1 : ∀ k v, Spec.merkle H fuel i [(k, v)] = H (Spec.pack (Spec.leafBits H k v)) := fun k v => by cases fuel <;> rfl
    have e2 : ∀ k v, Spec.inputs H fuel i [(k, v)] = Spec.pack (Spec.leafBits H k v) :: (if v.length > 32 then [v] else []) := fun k v => by
      cases fuel <;> rfl
    rw [e1, e1] at h
    rw [e2, e2]
    by_cases hx : Spec.pack (Spec.leafBits H k v) = Spec.pack (Spec.leafBits H k' v')
    · rw [pack_leaf H hH v hk, pack_leaf H hH v' hk'] at hx
      have := encode_inj _ _ (mkLeaf_wf H hH k v hk) (mkLeaf_wf H hH k' v' hk') hx
      injection this with this
      have hkk : k = k' := by rw [← mkLeaf_key H k v, this, mkLeaf_key]
      subst hkk
      unfold mkLeaf at this
      by_cases h1 : v.length > 32
      · by_cases h2 : v'.length > 32
        · rw [if_pos h1, if_pos h2] at this
          injection this with _ this
          injection this with this
          by_cases hv : v = v'
          · subst hv; exact Or.inl (List.Perm.refl _)
          · refine Or.inr (Or.inl ⟨v, ?_, v', ?_, hv, by rw [this]⟩)
            · rw [if_pos h1]; simp
            · rw [if_pos h2]; simp
        · rw [if_pos h1, if_neg h2] at this
          injection this with _ this
          cases this
      · by_cases h2 : v'.length > 32
        · rw [if_neg h1, if_pos h2] at this
          injection this with _ this
          cases this
        · rw [if_neg h1, if_neg h2] at this
          injection this with _ this
          injection this with this
          subst this
          exact Or.inl (List.Perm.refl _)
    · exact Or.inr (Or.inl ⟨_, List.mem_cons_self, _, List.mem_cons_self, hx, h⟩)
  have base : ∀ (f i : Nat), Spec.merkle H f i [] = List.replicate 32 0 := fun f i => by cases f <;> rfl
  have single : ∀ (f i : Nat) k v, Spec.merkle H f i [(k, v)] = H (Spec.pack (Spec.leafBits H k v)) := fun f i k v => by cases f <;> rfl
  have isingle : ∀ (f i : Nat) k v, Spec.pack (Spec.leafBits H k v) ∈ Spec.inputs H f i [(k, v)] := fun f i k v => by
    cases f <;> exact List.mem_cons_self
  induction fuel with
  | zero =>
    intro p kv kv' hf hb hb' h
    match kv, kv', hb, hb', h with
    | [], [], _, _, _ => exact Or.inl (List.Perm.refl _)
    | [], [(k, v)], _, _, h =>
      rw [base, single, cut_zero] at h
      exact Or.inr (Or.inr ⟨_, Or.inr (isingle _ _ k v), h.symm⟩)
    | [(k, v)], [], _, _, h =>
      rw [base, single, cut_zero] at h
      exact Or.inr (Or.inr ⟨_, Or.inl (isingle _ _ k v), h⟩)
    | [(k, v)], [(k', v')], hb, hb', h =>
      exact leafleaf 0 _ k v k' v' (hb.len _ List.mem_cons_self) (hb'.len _ List.mem_cons_self) h
    | _ :: _ :: _, _, hb, _, _ => exact (below_full (by omega) hb).elim
    | _, _ :: _ :: _, _, hb', _ => exact (below_full (by omega) hb').elim
  | succ fuel ih =>
    intro p kv kv' hf hb hb' h
    have hp : p.length < keyBits := by omega
    have hl : ∀ s : Bool, (p ++ [s]).length = p.length + 1 := fun s => by rw [List.length_append]; rfl
    -- the node of at least two entries
    have bhash : ∀ a b (r : KV), Spec.merkle H (fuel + 1) p.length (a :: b :: r) =
        H (Spec.pack (Spec.branchBits (Spec.merkle H fuel (p.length + 1) ((a :: b :: r).filter fun e => e.1.getD p.length false == false))
          (Spec.merkle H fuel (p.length + 1) ((a :: b :: r).filter fun e => e.1.getD p.length false)))) := fun (_, _) (_, _) r => rfl
    have binputs : ∀ a b (r : KV), Spec.inputs H (fuel + 1) p.length (a :: b :: r) =
        Spec.pack (Spec.branchBits (Spec.merkle H fuel (p.length + 1) ((a :: b :: r).filter fun e => e.1.getD p.length false == false))
          (Spec.merkle H fuel (p.length + 1) ((a :: b :: r).filter fun e => e.1.getD p.length false))) ::
        (Spec.inputs H fuel (p.length + 1) ((a :: b :: r).filter fun e => e.1.getD p.length false == false) ++
          Spec.inputs H fuel (p.length + 1) ((a :: b :: r).filter fun e => e.1.getD p.length false)) := fun (_, _) (_, _) r => rfl
    have blen : ∀ {u : KV}, Below p u →
        (Spec.merkle H fuel (p.length + 1) (u.filter fun e => e.1.getD p.length false == false)).length = 32 ∧
        (Spec.merkle H fuel (p.length + 1) (u.filter fun e => e.1.getD p.length false)).length = 32 := fun hu =>
      ⟨merkle_length hH fuel (by rw [hl]; omega) (below_filter hu hp).1 _, merkle_length hH fuel (by rw [hl]; omega) (below_filter hu hp).2 _⟩
    have mixed : ∀ {u : KV} {k v}, Below p u → k.length = keyBits → Spec.pack (Spec.leafBits H k v) ≠
        Spec.pack (Spec.branchBits (Spec.merkle H fuel (p.length + 1) (u.filter fun e => e.1.getD p.length false == false))
          (Spec.merkle H fuel (p.length + 1) (u.filter fun e => e.1.getD p.length false))) := by
      intro u k v hu hk he
      rw [pack_leaf H hH v hk, ← branch_encode _ _ (blen hu).1 (blen hu).2] at he
      have := encode_inj _ _ (mkLeaf_wf H hH k v hk) (make_wf _ _ (blen hu).1 (blen hu).2) he
      cases this
    match kv, kv', hb, hb', h with
    | [], [], _, _, _ => exact Or.inl (List.Perm.refl _)
    | [], [(k, v)], _, _, h =>
      rw [base, single, cut_zero] at h
      exact Or.inr (Or.inr ⟨_, Or.inr (isingle _ _ k v), h.symm⟩)
    | [(k, v)], [], _, _, h =>
      rw [base, single, cut_zero] at h
      exact Or.inr (Or.inr ⟨_, Or.inl (isingle _ _ k v), h⟩)
    | [(k, v)], [(k', v')], hb, hb', h =>
      exact leafleaf (fuel + 1) _ k v k' v' (hb.len _ List.mem_cons_self) (hb'.len _ List.mem_cons_self) h
    | [], a :: b :: r, _, _, h =>
      rw [base, bhash, cut_zero] at h
      rw [binputs]
      exact Or.inr (Or.inr ⟨_, Or.inr List.mem_cons_self, h.symm⟩)
    | a :: b :: r, [], _, _, h =>
      rw [base, bhash, cut_zero] at h
      rw [binputs]
      exact Or.inr (Or.inr ⟨_, Or.inl List.mem_cons_self, h⟩)
    | [(k, v)], a :: b :: r, hb, hb', h =>
      rw [single, bhash] at h
      rw [binputs]
      exact Or.inr (Or.inl ⟨_, isingle _ _ k v, _, List.mem_cons_self, mixed hb' (hb.len _ List.mem_cons_self), h⟩)
    | a :: b :: r, [(k, v)], hb, hb', h =>
      rw [single, bhash] at h
      rw [binputs]
      exact Or.inr (Or.inl ⟨_, List.mem_cons_self, _, isingle _ _ k v, fun he => mixed hb (hb'.len _ List.mem_cons_self) he.symm, h⟩)
    | a :: b :: r, a' :: b' :: r', hb, hb', h =>
      rw [bhash, bhash] at h
      rw [binputs, binputs]
      obtain ⟨f1, f2⟩ := below_filter hb hp
      obtain ⟨f1', f2'⟩ := below_filter hb' hp
      obtain ⟨l1, l2⟩ := blen hb
      obtain ⟨l1', l2'⟩ := blen hb'
      generalize a :: b :: r = u at *
      generalize a' :: b' :: r' = u' at *
      by_cases hx : Spec.pack (Spec.branchBits (Spec.merkle H fuel (p.length + 1) (u.filter fun e => e.1.getD p.length false == false))
          (Spec.merkle H fuel (p.length + 1) (u.filter fun e => e.1.getD p.length false))) =
          Spec.pack (Spec.branchBits (Spec.merkle H fuel (p.length + 1) (u'.filter fun e => e.1.getD p.length false == false))
          (Spec.merkle H fuel (p.length + 1) (u'.filter fun e => e.1.getD p.length false)))
      · obtain ⟨c1, c2⟩ := pack_branch_inj l1 l2 l1' l2' hx
        have i1 := ih (p := p ++ [false]) (by rw [hl]; omega) f1 f1'
        have i2 := ih (p := p ++ [true]) (by rw [hl]; omega) f2 f2'
        rw [hl] at i1 i2
        rcases i1 c1 with i1 | i1
        · rcases i2 c2 with i2 | i2
          · refine Or.inl ?_
            have hsplit : ∀ w : KV, ((w.filter fun e => e.1.getD p.length false == false) ++ w.filter fun e => e.1.getD p.length false).Perm w := by
              intro w
              have := List.filter_append_perm (fun e : Path × Bytes => e.1.getD p.length false == false) w
              have hc : (w.filter fun e => !(e.1.getD p.length false == false)) = w.filter fun e => e.1.getD p.length false := by
                apply List.filter_congr
                intro e _
                cases e.1.getD p.length false <;> rfl
              rw [hc] at this
              exact this
            exact (hsplit u).symm.trans ((i1.append i2).trans (hsplit u'))
          · exact Or.inr (clash_mono (fun x hx => List.mem_cons_of_mem _ (List.mem_append_right _ hx))
              (fun x hx => List.mem_cons_of_mem _ (List.mem_append_right _ hx)) i2)
        · exact Or.inr (clash_mono (fun x hx => List.mem_cons_of_mem _ (List.mem_append_left _ hx))
            (fun x hx => List.mem_cons_of_mem _ (List.mem_append_left _ hx)) i1)
      · exact Or.inr (Or.inl ⟨_, List.mem_cons_self, _, List.mem_cons_self, hx, h⟩)

theorem below_of_inv {kv : KV} (hn : (kv.map (·.1)).Nodup) (hf : Flat (Keys kv)) : Below [] kv :=
  ⟨hn, fun e he => hf e.1 (List.mem_map.2 ⟨e, he, rfl⟩), fun _ _ => List.nil_prefix⟩

end Fastroll.Trie
