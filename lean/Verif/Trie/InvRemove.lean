import Verif.Trie.InvSplit
namespace Fastroll.Trie
open Spec (KV under)

theorem sibling_concat (P : Path) (b : Bool) : sibling (P ++ [b]) = some (P ++ [!b]) := by
  unfold sibling
  rw [List.getLast?_concat]
  dsimp only
  rw [dropLast_append_one]

theorem pend_keep {H : Bytes → Bytes} {db : Db} {sdb : List (Bytes × Bytes)} {cs : ChangeSet} {kv : KV}
    (I : Inv H db sdb cs kv) {p : Path} (hb : Br (Keys kv) p) : Touched cs p ∨ ∃ b, get db.nodes p = some (.branch b) := by
  obtain ⟨b, hb⟩ := I.branch p hb
  exact (touched_or hb).imp id fun h => ⟨b, h⟩

theorem lf_parent {K : Path → Prop} {P k : Path} {b : Bool} (h : Lf K (P ++ [b]) k) : Br K P := by
  rcases h.2.2.2 with h1 | h1
  · exact absurd h1 (by simp)
  · rwa [dropLast_append_one] at h1

theorem delKV_nodup {kv : KV} (h : (kv.map (·.1)).Nodup) (k : Path) : ((delKV kv k).map (·.1)).Nodup :=
  List.Nodup.sublist (List.Sublist.map _ List.filter_sublist) h

/-! ### Remove, case 1: beside a branch -/

theorem inv_removeBranch {H : Bytes → Bytes} {db : Db} {sdb : List (Bytes × Bytes)} {cs : ChangeSet} {kv : KV} {k P : Path}
    {b : Bool} (I : Inv H db sdb cs kv) (hl : Lf (Keys kv) (P ++ [b]) k) (hsb : Br (Keys kv) (P ++ [!b])) :
    Inv H db sdb (removeBesideBranch cs k (P ++ [b])) (delKV kv k) := by
  obtain ⟨hbr, hlf⟩ := rem_branch hl hsb
  have hPb := lf_parent hl
  generalize hlpe : P ++ [b] = lp at *
  generalize hcs : removeBesideBranch cs k lp = cs'
  have hg : ∀ x, getNode db cs' x = if x = lp then none else getNode db cs x := fun x => by
    rw [← hcs]; exact getNode_setNode db (cs.affect lp) lp _ x
  have ht : ∀ x, Touched cs' x ↔ x = lp ∨ Touched cs x := fun x => by
    rw [← hcs]; exact touched_setNode (cs.affect lp) lp _ x
  have ha : ∀ x, x ∈ cs'.affected ↔ x <+: lp ∨ x ∈ cs.affected := fun x => by
    rw [← hcs]; exact mem_affect cs lp x
  have hlp : ∀ x, getLeafPath db cs' x = if x = k then none else getLeafPath db cs x := fun x => by
    rw [← hcs]; exact getLeafPath_setLeaf db ((cs.affect lp).setNode lp _) k _ x
  have hsw : cs'.stateWrites = cs.stateWrites := by rw [← hcs]; rfl
  have hnw : cs'.nodeWrites = cs.nodeWrites := by rw [← hcs]; rfl
  have hln : cs'.leafPaths = hmPut cs.leafPaths k none := by rw [← hcs]; rfl
  clear hcs
  have hK := keys_remove kv k
  refine ⟨delKV_nodup I.nodup k, ?_, ?_, ?_, ?_, ?_, ?_, ?_, ?_, ?_, ?_, ?_, hnw.trans I.noWrites, ?_, closed_affect I ha⟩
  · rw [hK]; exact fun x h => I.flat x h.1
  · intro p a w hm h
    rw [hK, hlf] at h
    rw [hg, if_neg, I.leaf p a w (mem_delKV.1 hm).1 h.1]
    rintro rfl
    exact h.2 (lf_key h.1 hl)
  · intro p h
    rw [hK, hbr] at h
    rw [hg, if_neg]
    · exact I.branch p h
    · rintro rfl; exact lf_not_br hl h
  · intro p h1 hn
    rw [hK, hbr] at h1
    rw [hK] at hn
    rw [hg]
    by_cases he : p = lp
    · rw [if_pos he]
    · rw [if_neg he]
      refine I.none p h1 fun a h => hn a ((hlf p a).2 ⟨h, ?_⟩)
      rintro rfl
      exact he (lf_unique h hl)
  · intro a p
    rw [hK, hlf, hlp]
    by_cases h : a = k
    · rw [if_pos h]
      exact ⟨fun h' => by (cases h'), fun h' => absurd h h'.2⟩
    · rw [if_neg h, I.leafPath a p]
      exact ⟨fun h' => ⟨h', h⟩, fun h' => h'.1⟩
  · intro p hp
    rw [ht] at hp
    rw [ha]
    rcases hp with rfl | hp
    · exact Or.inl (List.prefix_refl _)
    · exact Or.inr (I.sub p hp)
  · intro p hp
    rw [ha] at hp
    rw [ht]
    rcases hp with hp | hp
    · by_cases he : p = lp
      · exact Or.inl (Or.inl he)
      · have h1 := prefix_dropLast hp he
        rw [← hlpe, dropLast_append_one] at h1
        exact (pend_keep I (br_prefix hPb h1)).imp Or.inr id
    · exact (I.pend p hp).imp Or.inr id
  · intro p b side hp
    rw [hg] at hp
    by_cases he : p = lp
    · rw [if_pos he] at hp; cases hp
    · rw [if_neg he] at hp
      refine slots_keep I (fun c hc => under_remove hc) hl.2.1 (by rw [hK, hbr]; exact lf_not_br hl) (fun x hx => (ha x).2 hx)
        (by rw [hK, hbr]; exact getNode_branch_inv I hp) hp side
  · intro _
    exact (ha []).2 (Or.inl List.nil_prefix)
  · rw [hsw]; exact I.genuine
  · intro a w hm hw
    rw [hsw]
    exact I.stored a w (mem_delKV.1 hm).1 hw
  · rw [hln]; exact hmPut_nodup I.leafNodup _ _

/-! ### Remove, case 2: beside a leaf -/

theorem promote_spec {H : Bytes → Bytes} {db : Db} {sdb : List (Bytes × Bytes)} {cs : ChangeSet} {kv : KV} {k k2 P : Path}
    {b : Bool} (I : Inv H db sdb cs kv) (hl : Lf (Keys kv) (P ++ [b]) k) (hs : Lf (Keys kv) (P ++ [!b]) k2) (fuel : Nat) :
    ∀ (p : Path) (acc : List Path), p.length ≤ fuel → p <+: P → (∀ a, Keys kv a → p <+: a → a = k ∨ a = k2) →
    ∃ r acc', promote db cs fuel p acc = .ok (r, acc') ∧ r <+: p ∧ (∀ a, Keys kv a → r <+: a → a = k ∨ a = k2) ∧
      (r = [] ∨ Br (remK (Keys kv) k) r.dropLast) ∧
      ∀ x, x ∈ acc' ↔ x ∈ acc ∨ (r <+: x ∧ x <+: p ∧ x ≠ r) := by
  have hPb := lf_parent hl
  have hkk : k2 ≠ k := fun h => sib_not hl.2.1 (h ▸ hs.2.1)
  have stop : ∀ (p : Path) (acc : List Path) x, x ∈ acc ↔ x ∈ acc ∨ (p <+: x ∧ x <+: p ∧ x ≠ p) := by
    intro p acc x
    refine ⟨Or.inl, fun h => h.elim id fun h => ?_⟩
    exact absurd (h.2.1.eq_of_length (Nat.le_antisymm h.2.1.length_le h.1.length_le)) h.2.2
  induction fuel with
  | zero =>
    intro p acc hp hpP honly
    have : p = [] := List.eq_nil_of_length_eq_zero (by omega)
    subst this
    exact ⟨[], acc, rfl, List.prefix_refl _, honly, Or.inl rfl, stop [] acc⟩
  | succ fuel ih =>
    intro p acc hp hpP honly
    unfold promote
    by_cases h0 : p = []
    · rw [if_pos h0]
      subst h0
      exact ⟨[], acc, rfl, List.prefix_refl _, honly, Or.inl rfl, stop [] acc⟩
    · rw [if_neg h0]
      obtain ⟨pd, t, hpd⟩ : ∃ pd t, p = pd ++ [t] := by
        rcases List.eq_nil_or_concat p with h | ⟨pd, t, h⟩
        · exact absurd h h0
        · exact ⟨pd, t, by rw [h]; simp⟩
      subst hpd
      rw [dropLast_append_one]
      have hpdP : pd <+: P := (prefix_append_one pd t).trans hpP
      have hbpd : Br (Keys kv) pd := br_prefix hPb hpdP
      obtain ⟨br, hbr⟩ := I.branch pd hbpd
      obtain ⟨bp, hbp⟩ := I.branch (pd ++ [t]) (br_prefix hPb hpP)
      rw [hbr]
      dsimp only
      have hp1 : pd ++ [t] <+: k := hpP.trans ((prefix_append_one P b).trans hl.2.1)
      have hp2 : pd ++ [t] <+: k2 := hpP.trans ((prefix_append_one P _).trans hs.2.1)
      have hsingle : singleChild db cs pd = true ↔ getNode db cs (pd ++ [!t]) = none := by
        unfold singleChild
        cases t with
        | false =>
          rw [hbp]
          show (false ^^ (getNode db cs (pd ++ [true])).isNone) = true ↔ _
          rw [Bool.false_xor, Option.isNone_iff_eq_none]; rfl
        | true =>
          rw [hbp]
          show ((getNode db cs (pd ++ [false])).isNone ^^ false) = true ↔ _
          rw [Bool.xor_false, Option.isNone_iff_eq_none]; rfl
      by_cases hsc : singleChild db cs pd = true
      · rw [if_pos hsc]
        have hnone := getNode_none_inv I (hsingle.1 hsc)
        have hlen : (pd ++ [t]).length = pd.length + 1 := by rw [List.length_append]; rfl
        have honly' : ∀ a, Keys kv a → pd <+: a → a = k ∨ a = k2 := by
          intro a ha hpa
          obtain ⟨u, hu⟩ := child_of hpa (by
            have := br_length I.flat hbpd
            rw [I.flat a ha]; exact this)
          by_cases e : u = t
          · exact honly a ha (e ▸ hu)
          · have : u = !t := by cases u <;> cases t <;> first | rfl | exact absurd rfl e
            subst this
            rcases node_exists (Or.inr (by rw [dropLast_append_one]; exact hbpd)) ha hu with h | h
            · exact absurd h hnone.1
            · exact absurd h (hnone.2 a)
        obtain ⟨r, acc', e1, e2, e3, e4, e5⟩ := ih pd (acc ++ [pd ++ [t]]) (by omega) hpdP honly'
        refine ⟨r, acc', e1, e2.trans (prefix_append_one pd t), e3, e4, fun x => ?_⟩
        rw [e5, List.mem_append, List.mem_singleton]
        constructor
        · rintro ((h | h) | ⟨h1, h2, h3⟩)
          · exact Or.inl h
          · refine Or.inr ⟨h ▸ e2.trans (prefix_append_one pd t), h ▸ List.prefix_refl _, ?_⟩
            rintro rfl
            have := e2.length_le
            rw [h] at this
            omega
          · exact Or.inr ⟨h1, h2.trans (prefix_append_one pd t), h3⟩
        · rintro (h | ⟨h1, h2, h3⟩)
          · exact Or.inl (Or.inl h)
          · by_cases e : x = pd ++ [t]
            · exact Or.inl (Or.inr e)
            · have := prefix_dropLast h2 e
              rw [dropLast_append_one] at this
              exact Or.inr ⟨h1, this, h3⟩
      · rw [if_neg hsc]
        refine ⟨pd ++ [t], acc, rfl, List.prefix_refl _, honly, Or.inr ?_, stop _ acc⟩
        rw [dropLast_append_one]
        have hsome : (getNode db cs (pd ++ [!t])).isSome = true := by
          cases hgn : getNode db cs (pd ++ [!t]) with
          | none => exact absurd (hsingle.2 hgn) hsc
          | some n => rfl
        have hka : ∃ a, Keys kv a ∧ pd ++ [!t] <+: a := by
          rcases (isSome_iff_node I _).1 hsome with ⟨a, _, _, h, _, h', _⟩ | ⟨a, h⟩
          · exact ⟨a, h, h'⟩
          · exact ⟨a, h.1, h.2.1⟩
        obtain ⟨a, ha, hpa⟩ := hka
        refine ⟨a, k2, ?_, ⟨ha, ?_⟩, ⟨hs.1, hkk⟩, (prefix_append_one pd _).trans hpa, (prefix_append_one pd _).trans hp2⟩
        · rintro rfl; exact sib_not hp2 hpa
        · rintro rfl; exact sib_not hp1 hpa

theorem get_collapse (ps : List Path) : ∀ (cs : ChangeSet) (x : Path),
    get (ps.foldl (fun cs p => cs.setNode p none) cs).nodes x = if x ∈ ps then some none else get cs.nodes x := by
  induction ps with
  | nil => intro cs x; simp
  | cons p ps ih =>
    intro cs x
    rw [List.foldl_cons, ih]
    by_cases h : x ∈ ps
    · rw [if_pos h, if_pos (List.mem_cons_of_mem _ h)]
    · rw [if_neg h]
      unfold ChangeSet.setNode
      dsimp only
      rw [get_hmPut]
      by_cases e : x = p
      · rw [if_pos e, if_pos (e ▸ List.mem_cons_self)]
      · rw [if_neg e, if_neg]
        intro h'
        exact (List.mem_cons.1 h').elim e h

theorem collapse_fields (ps : List Path) : ∀ (cs : ChangeSet),
    (ps.foldl (fun cs p => cs.setNode p none) cs).affected = cs.affected ∧
    (ps.foldl (fun cs p => cs.setNode p none) cs).leafPaths = cs.leafPaths ∧
    (ps.foldl (fun cs p => cs.setNode p none) cs).stateWrites = cs.stateWrites ∧
    (ps.foldl (fun cs p => cs.setNode p none) cs).nodeWrites = cs.nodeWrites := by
  induction ps with
  | nil => intro cs; exact ⟨rfl, rfl, rfl, rfl⟩
  | cons p ps ih =>
    intro cs
    rw [List.foldl_cons]
    exact ih (cs.setNode p none)

theorem inv_removeLeaf {H : Bytes → Bytes} {db : Db} {sdb : List (Bytes × Bytes)} {cs : ChangeSet} {kv : KV} {k k2 P : Path}
    {b : Bool} {v2 : Bytes} (I : Inv H db sdb cs kv) (hl : Lf (Keys kv) (P ++ [b]) k) (hs : Lf (Keys kv) (P ++ [!b]) k2)
    (hv2 : (k2, v2) ∈ kv) :
    ∃ cs', removeBesideLeaf db cs k (P ++ [b]) (P ++ [!b]) (mkLeaf H k2 v2) = .ok cs' ∧ Inv H db sdb cs' (delKV kv k) := by
  have hPb := lf_parent hl
  have hkk : k2 ≠ k := fun h => sib_not hl.2.1 (h ▸ hs.2.1)
  have honlyP : ∀ a, Keys kv a → P <+: a → a = k ∨ a = k2 := by
    intro a ha hpa
    obtain ⟨u, hu⟩ := child_of hpa (by
      have := br_length I.flat hPb
      rw [I.flat a ha]; exact this)
    by_cases e : u = b
    · exact Or.inl (hl.2.2.1 a ha (e ▸ hu))
    · have : u = !b := by cases u <;> cases b <;> first | rfl | exact absurd rfl e
      exact Or.inr (hs.2.2.1 a ha (this ▸ hu))
  obtain ⟨r, coll, e1, hrP, honly, htop, hcoll⟩ := promote_spec I hl hs (P ++ [!b]).length P []
    (by rw [List.length_append]; omega) (List.prefix_refl _) honlyP
  obtain ⟨hbr, hlk2, hla⟩ := rem_leaf hl hs hrP honly htop
  unfold removeBesideLeaf
  rw [dropLast_append_one, e1]
  dsimp only
  rw [mkLeaf_key, if_pos (I.flat k2 hs.1)]
  refine ⟨_, rfl, ?_⟩
  generalize hcs1 : ((((((cs.affect (P ++ [b])).setNode (P ++ [b]) none).setLeaf k none).affectOne (P ++ [!b])).setNode (P ++ [!b]) none).setLeaf
    k2 (some r)) = cs1
  have hn1 : ∀ x, get cs1.nodes x = if x = P ++ [!b] then some none else if x = P ++ [b] then some none else get cs.nodes x := fun x => by
    rw [← hcs1]
    unfold ChangeSet.setNode ChangeSet.setLeaf ChangeSet.affectOne
    dsimp only
    rw [get_hmPut, get_hmPut]; rfl
  have ha1 : cs1.affected = (P ++ [!b]) :: (allPaths (P ++ [b]) ++ cs.affected) := by rw [← hcs1]; rfl
  have hl1 : cs1.leafPaths = hmPut (hmPut cs.leafPaths k none) k2 (some r) := by rw [← hcs1]; rfl
  have hs1 : cs1.stateWrites = cs.stateWrites := by rw [← hcs1]; rfl
  have hw1 : cs1.nodeWrites = cs.nodeWrites := by rw [← hcs1]; rfl
  clear hcs1
  generalize hcs : (coll.foldl (fun cs p => cs.setNode p none) cs1).setNode r (some (.leaf (mkLeaf H k2 v2))) = cs'
  obtain ⟨f1, f2, f3, f4⟩ := collapse_fields coll cs1
  have hn : ∀ x, get cs'.nodes x = if x = r then some (some (.leaf (mkLeaf H k2 v2))) else
      if x ∈ coll then some none else get cs1.nodes x := fun x => by
    rw [← hcs]
    unfold ChangeSet.setNode
    dsimp only
    rw [get_hmPut]
    by_cases h : x = r
    · rw [if_pos h, if_pos h]
    · rw [if_neg h, if_neg h]; exact get_collapse coll cs1 x
  have ha' : cs'.affected = cs1.affected := by rw [← hcs]; exact f1
  have hlp' : cs'.leafPaths = hmPut (hmPut cs.leafPaths k none) k2 (some r) := by rw [← hcs, ← hl1]; exact f2
  have hsw : cs'.stateWrites = cs.stateWrites := by rw [← hcs, ← hs1]; exact f3
  have hnw : cs'.nodeWrites = cs.nodeWrites := by rw [← hcs, ← hw1]; exact f4
  clear hcs
  have hmc : ∀ x, x ∈ coll ↔ r <+: x ∧ x <+: P ∧ x ≠ r := fun x => by rw [hcoll]; simp
  have hgr : getNode db cs' r = some (.leaf (mkLeaf H k2 v2)) := by
    unfold getNode
    rw [hn, if_pos rfl]
  have hgone : ∀ x, (r <+: x ∧ x <+: P ∧ x ≠ r) ∨ x = P ++ [!b] ∨ x = P ++ [b] → getNode db cs' x = none := by
    intro x h
    have hxr : x ≠ r := by
      rintro rfl
      rcases h with h | h | h
      · exact h.2.2 rfl
      · have := hrP.length_le; rw [h, List.length_append, List.length_singleton] at this; omega
      · have := hrP.length_le; rw [h, List.length_append, List.length_singleton] at this; omega
    unfold getNode
    rw [hn, if_neg hxr]
    by_cases hxc : x ∈ coll
    · rw [if_pos hxc]
    · rw [if_neg hxc, hn1]
      rcases h with h | h | h
      · exact absurd ((hmc x).2 h) hxc
      · rw [if_pos h]
      · by_cases e : x = P ++ [!b]
        · rw [if_pos e]
        · rw [if_neg e, if_pos h]
  have hrest : ∀ x, ¬ (r <+: x ∧ x <+: P) → x ≠ P ++ [!b] → x ≠ P ++ [b] → get cs'.nodes x = get cs.nodes x := by
    intro x h1 h2 h3
    rw [hn, if_neg (by rintro rfl; exact h1 ⟨List.prefix_refl _, hrP⟩), if_neg (fun h => h1 ⟨((hmc x).1 h).1, ((hmc x).1 h).2.1⟩),
      hn1, if_neg h2, if_neg h3]
  have hgrest : ∀ x, ¬ (r <+: x ∧ x <+: P) → x ≠ P ++ [!b] → x ≠ P ++ [b] → getNode db cs' x = getNode db cs x := by
    intro x h1 h2 h3
    unfold getNode
    rw [hrest x h1 h2 h3]
  have ht : ∀ x, Touched cs' x ↔ (r <+: x ∧ x <+: P) ∨ x = P ++ [!b] ∨ x = P ++ [b] ∨ Touched cs x := by
    intro x
    unfold Touched
    by_cases h1 : r <+: x ∧ x <+: P
    · refine ⟨fun _ => Or.inl h1, fun _ => ?_⟩
      rw [hn]
      by_cases e : x = r
      · rw [if_pos e]; exact ⟨_, rfl⟩
      · rw [if_neg e, if_pos ((hmc x).2 ⟨h1.1, h1.2, e⟩)]; exact ⟨_, rfl⟩
    · by_cases h2 : x = P ++ [!b] ∨ x = P ++ [b]
      · refine ⟨fun _ => Or.inr (h2.imp id Or.inl), fun _ => ?_⟩
        have hxr : x ≠ r := by
          rintro rfl
          exact h1 ⟨List.prefix_refl _, hrP⟩
        rw [hn, if_neg hxr]
        by_cases hxc : x ∈ coll
        · rw [if_pos hxc]; exact ⟨_, rfl⟩
        · rw [if_neg hxc, hn1]
          by_cases e : x = P ++ [!b]
          · rw [if_pos e]; exact ⟨_, rfl⟩
          · rw [if_neg e, if_pos (h2.resolve_left e)]; exact ⟨_, rfl⟩
      · rw [hrest x h1 (fun e => h2 (Or.inl e)) (fun e => h2 (Or.inr e))]
        exact ⟨fun h => Or.inr (Or.inr (Or.inr h)), fun h =>
          ((h.resolve_left h1).resolve_left fun e => h2 (Or.inl e)).resolve_left fun e => h2 (Or.inr e)⟩
  have ha : ∀ x, x ∈ cs'.affected ↔ x <+: P ++ [b] ∨ x = P ++ [!b] ∨ x ∈ cs.affected := by
    intro x
    rw [ha', ha1, List.mem_cons, List.mem_append, mem_allPaths]
    exact ⟨fun h => h.elim (fun h => Or.inr (Or.inl h)) fun h => h.elim Or.inl fun h => Or.inr (Or.inr h),
      fun h => h.elim (fun h => Or.inr (Or.inl h)) fun h => h.elim Or.inl fun h => Or.inr (Or.inr h)⟩
  have hglp : ∀ x, getLeafPath db cs' x = if x = k2 then some r else if x = k then none else getLeafPath db cs x := by
    intro x
    unfold getLeafPath
    rw [hlp', get_hmPut, get_hmPut]
    by_cases e1 : x = k2
    · rw [if_pos e1, if_pos e1]
    · rw [if_neg e1, if_neg e1]
      by_cases e2 : x = k
      · rw [if_pos e2, if_pos e2]
      · rw [if_neg e2, if_neg e2]
  have hK := keys_remove kv k
  -- paths below `r` carry only the two leaves
  have helse : ∀ p a, a ≠ k → a ≠ k2 → Lf (Keys kv) p a → ¬ (r <+: p ∧ p <+: P) ∧ p ≠ P ++ [!b] ∧ p ≠ P ++ [b] := by
    intro p a h1 h2 h
    have hnr : ¬ r <+: p := fun hr => (honly a h.1 (hr.trans h.2.1)).elim h1 h2
    exact ⟨fun e => hnr e.1, fun e => hnr (e ▸ hrP.trans (prefix_append_one _ _)), fun e => hnr (e ▸ hrP.trans (prefix_append_one _ _))⟩
  have hbelse : ∀ p, Br (Keys kv) p → p ≠ P ++ [!b] ∧ p ≠ P ++ [b] := fun p hb =>
    ⟨fun e => lf_not_br hs (e ▸ hb), fun e => lf_not_br hl (e ▸ hb)⟩
  refine ⟨delKV_nodup I.nodup k, ?_, ?_, ?_, ?_, ?_, ?_, ?_, ?_, ?_, ?_, ?_, hnw.trans I.noWrites, ?_, closed_affect_two I ha⟩
  · rw [hK]; exact fun x h => I.flat x h.1
  · intro p a w hm h
    rw [hK] at h
    obtain ⟨hm1, hm2⟩ := mem_delKV.1 hm
    by_cases e : a = k2
    · subst e
      rw [(hlk2 p).1 h, hgr, value_unique I.nodup hv2 hm1]
    · have h' := ((hla p a e).1 h).1
      obtain ⟨n1, n2, n3⟩ := helse p a hm2 e h'
      rw [hgrest p n1 n2 n3]
      exact I.leaf p a w hm1 h'
  · intro p h
    rw [hK, hbr] at h
    obtain ⟨n1, n2⟩ := hbelse p h.1
    rw [hgrest p h.2 n1 n2]
    exact I.branch p h.1
  · intro p h1 hnl
    rw [hK, hbr] at h1
    rw [hK] at hnl
    have hpr : p ≠ r := fun e => hnl k2 ((hlk2 p).2 e)
    by_cases hg1 : (r <+: p ∧ p <+: P ∧ p ≠ r) ∨ p = P ++ [!b] ∨ p = P ++ [b]
    · exact hgone p hg1
    · have n1 : ¬ (r <+: p ∧ p <+: P) := fun e => hg1 (Or.inl ⟨e.1, e.2, hpr⟩)
      have n2 : p ≠ P ++ [!b] := fun e => hg1 (Or.inr (Or.inl e))
      have n3 : p ≠ P ++ [b] := fun e => hg1 (Or.inr (Or.inr e))
      rw [hgrest p n1 n2 n3]
      refine I.none p (fun h => h1 ⟨h, n1⟩) fun a h => ?_
      by_cases ek : a = k
      · subst ek; exact n3 (lf_unique h hl)
      · by_cases e2 : a = k2
        · subst e2; exact n2 (lf_unique h hs)
        · exact hnl a ((hla p a e2).2 ⟨h, ek⟩)
  · intro a p
    rw [hK, hglp]
    by_cases e1 : a = k2
    · subst e1
      rw [if_pos rfl, hlk2]
      exact ⟨fun h' => by injection h' with h'; exact h'.symm, fun h' => by rw [h']⟩
    · rw [if_neg e1, hla p a e1]
      by_cases e2 : a = k
      · rw [if_pos e2]
        exact ⟨fun h' => by (cases h'), fun h' => absurd e2 h'.2⟩
      · rw [if_neg e2, I.leafPath a p]
        exact ⟨fun h' => ⟨h', e2⟩, fun h' => h'.1⟩
  · intro p hp
    rw [ht] at hp
    rw [ha]
    rcases hp with hp | hp | hp | hp
    · exact Or.inl (hp.2.trans (prefix_append_one _ _))
    · exact Or.inr (Or.inl hp)
    · exact Or.inl (hp ▸ List.prefix_refl _)
    · exact Or.inr (Or.inr (I.sub p hp))
  · intro p hp
    rw [ha] at hp
    rw [ht]
    rcases hp with hp | hp | hp
    · by_cases he : p = P ++ [b]
      · exact Or.inl (Or.inr (Or.inr (Or.inl he)))
      · have h1 := prefix_dropLast hp he
        rw [dropLast_append_one] at h1
        exact (pend_keep I (br_prefix hPb h1)).imp (fun h => Or.inr (Or.inr (Or.inr h))) id
    · exact Or.inl (Or.inr (Or.inl hp))
    · exact (I.pend p hp).imp (fun h => Or.inr (Or.inr (Or.inr h))) id
  · intro p br side hp
    have hpr : p ≠ r := by rintro rfl; rw [hgr] at hp; cases hp
    have hng : ¬ ((r <+: p ∧ p <+: P ∧ p ≠ r) ∨ p = P ++ [!b] ∨ p = P ++ [b]) := fun h => by
      rw [hgone p h] at hp; cases hp
    have n1 : ¬ (r <+: p ∧ p <+: P) := fun e => hng (Or.inl ⟨e.1, e.2, hpr⟩)
    rw [hgrest p n1 (fun e => hng (Or.inr (Or.inl e))) (fun e => hng (Or.inr (Or.inr e)))] at hp
    refine slots_keep I (fun c hc => under_remove hc) hl.2.1 (by rw [hK]; exact fun h => lf_not_br hl (br_rem_mono h))
      (fun x hx => (ha x).2 (hx.imp id Or.inr)) ?_ hp side
    rw [hK, hbr]
    exact ⟨getNode_branch_inv I hp, n1⟩
  · intro _
    exact (ha []).2 (Or.inl List.nil_prefix)
  · rw [hsw]; exact I.genuine
  · intro a w hm hw
    rw [hsw]
    exact I.stored a w (mem_delKV.1 hm).1 hw
  · rw [hlp']; exact hmPut_nodup (hmPut_nodup I.leafNodup _ _) _ _

theorem inv_remove {H : Bytes → Bytes} {db : Db} {sdb : List (Bytes × Bytes)} {cs : ChangeSet} {kv : KV} {k : Path}
    (I : Inv H db sdb cs kv) (hk : Keys kv k) (h2 : 2 ≤ kv.length) :
    ∃ cs', removeEntry db cs k = .ok cs' ∧ Inv H db sdb cs' (delKV kv k) := by
  obtain ⟨lp, hl⟩ := lf_exists I.flat hk
  have hlp := (I.leafPath k lp).2 hl
  have hne : lp ≠ [] := by
    rintro rfl
    have hall : ∀ x ∈ kv.map (·.1), x ∈ [k] := fun x hx => List.mem_singleton.2 (hl.2.2.1 x hx List.nil_prefix)
    have := List.Nodup.length_le_of_subset I.nodup hall
    rw [List.length_map, List.length_singleton] at this
    omega
  obtain ⟨P, b, hPb⟩ : ∃ P b, lp = P ++ [b] := by
    rcases List.eq_nil_or_concat lp with h | ⟨pd, t, h⟩
    · exact absurd h hne
    · exact ⟨pd, t, by rw [h]; simp⟩
  subst hPb
  unfold removeEntry
  rw [hlp]
  dsimp only
  rw [sibling_concat]
  dsimp only
  obtain ⟨k', hk', hpk'⟩ := sibling_exists I.flat hl
  cases hg : getNode db cs (P ++ [!b]) with
  | none =>
    have h := getNode_none_inv I hg
    rcases node_exists (Or.inr (by rw [dropLast_append_one]; exact lf_parent hl)) hk' hpk' with h' | h'
    · exact absurd h' h.1
    · exact absurd h' (h.2 k')
  | some n =>
    cases n with
    | branch br => exact ⟨_, rfl, inv_removeBranch I hl (getNode_branch_inv I hg)⟩
    | leaf sib =>
      obtain ⟨k2, v2, hv2, hs, rfl⟩ := getNode_leaf_inv I hg
      exact inv_removeLeaf I hl hs hv2

/-- One legal change keeps the invariant. -/
theorem inv_entry {env : Env} (hfair : env.fair) {db : Db} {sdb : List (Bytes × Bytes)} {cs : ChangeSet} {kv kv' : KV} {e : Entry}
    (hs : Sorted db.nodes) (hc : Closed db) (I : Inv env.H db sdb cs kv) (hkl : e.key.length = keyBits)
    (h : Spec.apply1 kv e = some kv') :
    ∃ cs', insertEntry env db cs e = .ok cs' ∧ Inv env.H db sdb cs' kv' := by
  unfold Spec.apply1 at h
  unfold insertEntry
  cases hkind : e.kind with
  | add =>
    rw [hkind] at h
    dsimp only at h ⊢
    by_cases hh : Spec.has kv e.key = true
    · rw [if_pos hh] at h; cases h
    · rw [if_neg hh] at h
      injection h with h
      subst h
      exact inv_add hfair e.value hs hc I (fun hk => hh (has_iff.2 hk)) hkl
  | update =>
    rw [hkind] at h
    dsimp only at h ⊢
    by_cases hh : Spec.has kv e.key = true
    · rw [if_pos hh] at h
      injection h with h
      subst h
      exact inv_update e.value I (has_iff.1 hh)
    · rw [if_neg hh] at h; cases h
  | remove =>
    rw [hkind] at h
    dsimp only at h ⊢
    by_cases hh : (Spec.has kv e.key && decide (2 ≤ kv.length)) = true
    · rw [if_pos hh] at h
      injection h with h
      subst h
      rw [Bool.and_eq_true, decide_eq_true_eq] at hh
      exact inv_remove I (has_iff.1 hh.1) hh.2
    · rw [if_neg hh] at h; cases h

/-- A legal batch of changes keeps the invariant. -/
theorem inv_entries {env : Env} (hfair : env.fair) {db : Db} {sdb : List (Bytes × Bytes)} (hs : Sorted db.nodes) (hc : Closed db)
    (es : List Entry) : ∀ {cs : ChangeSet} {kv kv' : KV}, Inv env.H db sdb cs kv → (∀ e ∈ es, e.key.length = keyBits) →
    Spec.apply kv es = some kv' → ∃ cs', insertEntries env db cs es = (.ok (), cs') ∧ Inv env.H db sdb cs' kv' := by
  induction es with
  | nil =>
    intro cs kv kv' I _ h
    injection h with h
    subst h
    exact ⟨cs, rfl, I⟩
  | cons e es ih =>
    intro cs kv kv' I hlen h
    unfold Spec.apply at h
    cases h1 : Spec.apply1 kv e with
    | none => rw [h1] at h; cases h
    | some kv1 =>
      rw [h1] at h
      obtain ⟨cs1, e1, I1⟩ := inv_entry hfair hs hc I (hlen e List.mem_cons_self) h1
      obtain ⟨cs2, e2, I2⟩ := ih I1 (fun x hx => hlen x (List.mem_cons_of_mem _ hx)) h
      refine ⟨cs2, ?_, I2⟩
      unfold insertEntries
      rw [e1]
      exact e2

end Fastroll.Trie
