import Verif.Trie.InvAdd
namespace Fastroll.Trie
open Spec (KV under)

/-- The change set after a leaf was split. -/
structure SplitSpec (H : Bytes → Bytes) (db : Db) (cs cs' : ChangeSet) (k : Path) (v : Bytes) (k' : Path) (sib : Leaf) (q m : Path) (s : Bool) : Prop where
  new : getNode db cs' (m ++ [s]) = some (.leaf (mkLeaf H k v))
  old : getNode db cs' (m ++ [!s]) = some (.leaf sib)
  chain : ∀ x, q <+: x → x <+: m → ∃ b, getNode db cs' x = some (.branch b) ∧
    ∀ t, x ++ [t] <+: m → slot b (!t) = slotOf (!t) zeroHash
  rest : ∀ x, x ≠ m ++ [s] → x ≠ m ++ [!s] → ¬ (q <+: x ∧ x <+: m) → getNode db cs' x = getNode db cs x
  touched : ∀ x, Touched cs' x ↔ x = m ++ [s] ∨ x = m ++ [!s] ∨ (q <+: x ∧ x <+: m) ∨ Touched cs x
  affected : ∀ x, x ∈ cs'.affected ↔ x <+: m ++ [s] ∨ x = m ++ [!s] ∨ x ∈ cs.affected
  leafPaths : cs'.leafPaths = hmPut (hmPut cs.leafPaths k (some (m ++ [s]))) k' (some (m ++ [!s]))
  stateWrites : cs'.stateWrites = cs.stateWrites ++ (stateWrite H v).toList
  nodeWrites : cs'.nodeWrites = cs.nodeWrites

theorem not_prefix_child {q m : Path} (t : Bool) : ¬ (q <+: m ++ [t] ∧ m ++ [t] <+: m) := by
  rintro ⟨_, h⟩
  have := h.length_le
  rw [List.length_append, List.length_singleton] at this
  omega

theorem child_ne {m : Path} (s : Bool) : m ++ [s] ≠ m ++ [!s] := by
  intro h
  have := List.append_cancel_left h
  injection this with this
  cases s <;> cases this

theorem splitLeaf_spec {env : Env} {db : Db} {sdb : List (Bytes × Bytes)} {cs : ChangeSet} {kv : KV} {k q k' : Path} (v v' : Bytes)
    (I : Inv env.H db sdb cs kv) (hk : ¬ Keys kv k) (hkl : k.length = keyBits) (hq : Longest (Keys kv) k q)
    (hl : Lf (Keys kv) q k') :
    ∃ cs' m s, splitLeaf env db cs k v q (mkLeaf env.H k' v') = .ok cs' ∧ m ++ [s] <+: k ∧ m ++ [!s] <+: k' ∧
      SplitSpec env.H db cs cs' k v k' (mkLeaf env.H k' v') q m s := by
  have hkk : k' ≠ k := fun h => hk (h ▸ hl.1)
  have hk'l : k'.length = keyBits := I.flat k' hl.1
  obtain ⟨m, s, hfp, hm', hm⟩ := finalPaths_spec k' k (hk'l.trans hkl.symm) hkk
  obtain ⟨hqm, _⟩ := add_leaf hk hq hl hm hm'
  have hlast : (m ++ [s]).getLast? = some s := List.getLast?_concat
  unfold splitLeaf
  rw [mkLeaf_key, hfp]
  dsimp only
  rw [hlast]
  dsimp only
  rw [if_pos hk'l, dropLast_append_one]
  generalize hcs2 : (((cs.affect (m ++ [s])).affectOne (m ++ [!s])).setNode (m ++ [s]) (some (Node.leaf (mkLeaf env.H k v)))).setNode
    (m ++ [!s]) (some (Node.leaf (mkLeaf env.H k' v'))) = cs2
  have hg2 : ∀ x, getNode db cs2 x = if x = m ++ [!s] then some (Node.leaf (mkLeaf env.H k' v'))
      else if x = m ++ [s] then some (Node.leaf (mkLeaf env.H k v)) else getNode db cs x := fun x => by
    rw [← hcs2, getNode_setNode, getNode_setNode]; rfl
  have hg2' : ∀ x, get cs2.nodes x = if x = m ++ [!s] then some (some (Node.leaf (mkLeaf env.H k' v')))
      else if x = m ++ [s] then some (some (Node.leaf (mkLeaf env.H k v))) else get cs.nodes x := fun x => by
    rw [← hcs2]
    unfold ChangeSet.setNode
    dsimp only
    rw [get_hmPut, get_hmPut]; rfl
  have ha2 : cs2.affected = (m ++ [!s]) :: (allPaths (m ++ [s]) ++ cs.affected) := by rw [← hcs2]; rfl
  have hl2 : cs2.leafPaths = cs.leafPaths := by rw [← hcs2]; rfl
  have hs2 : cs2.stateWrites = cs.stateWrites := by rw [← hcs2]; rfl
  have hn2 : cs2.nodeWrites = cs.nodeWrites := by rw [← hcs2]; rfl
  clear hcs2
  have hoff : ∀ p t, q <+: p → p ++ [t] <+: m → getNode db cs2 (p ++ [!t]) = none := by
    intro p t h1 h2
    have hno : ∀ a, Keys kv a → ¬ p ++ [!t] <+: a := by
      intro a ha hpa
      have := hl.2.2.1 a ha (h1.trans ((prefix_append_one p _).trans hpa))
      subst this
      exact sib_not (h2.trans ((prefix_append_one m _).trans hm')) hpa
    have hlen := h2.length_le
    rw [List.length_append, List.length_singleton] at hlen
    have hne : ∀ u, p ++ [!t] ≠ m ++ [u] := by
      intro u he
      have := congrArg List.length he
      rw [List.length_append, List.length_append] at this
      simp only [List.length_singleton] at this
      omega
    rw [hg2, if_neg (hne _), if_neg (hne _)]
    apply I.none
    · rintro ⟨a, _, _, h, _, h', _⟩; exact hno a h h'
    · intro a h; exact hno a h.1 h.2.1
  have fin : ∀ l r, SplitSpec env.H db cs ((((addBranches env.H db q.length (m.length + 1) cs2 m l r).setLeaf k (some (m ++ [s]))).setLeaf
      k' (some (m ++ [!s]))).pushState (stateWrite env.H v)) k v k' (mkLeaf env.H k' v') q m s := by
    intro l r
    obtain ⟨i1, i2, i3, i4, i5, i6⟩ := addBranches_spec env.H db q m hqm (m.length + 1) cs2 m l r (List.prefix_refl _) (by omega) hoff
    generalize addBranches env.H db q.length (m.length + 1) cs2 m l r = cs3 at *
    have hnode : ∀ x, getNode db (((cs3.setLeaf k (some (m ++ [s]))).setLeaf k' (some (m ++ [!s]))).pushState (stateWrite env.H v)) x =
      getNode db cs3 x := fun x => rfl
    have heq : ∀ x, ¬ (q <+: x ∧ x <+: m) → getNode db cs3 x = getNode db cs2 x := by
      intro x hx
      unfold getNode
      rw [i5 x hx]
    refine ⟨?_, ?_, ?_, ?_, ?_, ?_, ?_, ?_, ?_⟩
    · rw [hnode, heq _ (not_prefix_child s), hg2, if_neg (child_ne s), if_pos rfl]
    · rw [hnode, heq _ (not_prefix_child _), hg2, if_pos rfl]
    · intro x h1 h2
      obtain ⟨b, e1, _, e3⟩ := i6 x h1 h2
      refine ⟨b, ?_, e3⟩
      rw [hnode]
      unfold getNode
      rw [e1]
    · intro x h1 h2 h3
      rw [hnode, heq x h3, hg2, if_neg h2, if_neg h1]
    · intro x
      show (∃ w, get cs3.nodes x = some w) ↔ _
      by_cases hx : q <+: x ∧ x <+: m
      · obtain ⟨b, e1, _⟩ := i6 x hx.1 hx.2
        exact ⟨fun _ => Or.inr (Or.inr (Or.inl hx)), fun _ => ⟨_, e1⟩⟩
      · rw [i5 x hx, hg2']
        by_cases h1 : x = m ++ [!s]
        · rw [if_pos h1]; exact ⟨fun _ => Or.inr (Or.inl h1), fun _ => ⟨_, rfl⟩⟩
        · rw [if_neg h1]
          by_cases h2 : x = m ++ [s]
          · rw [if_pos h2]; exact ⟨fun _ => Or.inl h2, fun _ => ⟨_, rfl⟩⟩
          · rw [if_neg h2]
            exact ⟨fun h => Or.inr (Or.inr (Or.inr h)), fun h => ((h.resolve_left h2).resolve_left h1).resolve_left hx⟩
    · intro x
      show x ∈ cs3.affected ↔ _
      rw [i1, ha2, List.mem_cons, List.mem_append, mem_allPaths]
      exact ⟨fun h => h.elim (fun h => Or.inr (Or.inl h)) fun h => h.elim Or.inl fun h => Or.inr (Or.inr h),
        fun h => h.elim (fun h => Or.inr (Or.inl h)) fun h => h.elim Or.inl fun h => Or.inr (Or.inr h)⟩
    · show hmPut (hmPut cs3.leafPaths _ _) _ _ = _
      rw [i2, hl2]
    · show cs3.stateWrites ++ _ = _
      rw [i3, hs2]
    · show cs3.nodeWrites = _
      rw [i4, hn2]
  cases s with
  | true => exact ⟨_, m, true, rfl, hm, hm', by rw [if_pos rfl]; exact fin _ _⟩
  | false => exact ⟨_, m, false, rfl, hm, hm', by rw [if_neg (by decide)]; exact fin _ _⟩

theorem inv_split {H : Bytes → Bytes} {db : Db} {sdb : List (Bytes × Bytes)} {cs cs' : ChangeSet} {kv : KV} {k q k' m : Path}
    {s : Bool} {v v' : Bytes} (I : Inv H db sdb cs kv) (hk : ¬ Keys kv k) (hkl : k.length = keyBits)
    (hq : Longest (Keys kv) k q) (hl : Lf (Keys kv) q k') (hv' : (k', v') ∈ kv) (h1 : m ++ [s] <+: k) (h2 : m ++ [!s] <+: k')
    (S : SplitSpec H db cs cs' k v k' (mkLeaf H k' v') q m s) : Inv H db sdb cs' ((k, v) :: kv) := by
  obtain ⟨hqm, hbr, hlk, hlk', hla⟩ := add_leaf hk hq hl h1 h2
  have hK := keys_add kv k v
  have hkk : k' ≠ k := fun h => hk (h ▸ hl.1)
  have hm : m <+: k := (prefix_append_one m s).trans h1
  have hm' : m <+: k' := (prefix_append_one m _).trans h2
  have hnb : ∀ t, ¬ Br (insK (Keys kv) k) (m ++ [t]) := by
    intro t h
    rw [hbr] at h
    rcases h with h | h
    · exact lf_not_br hl (br_prefix h (hqm.trans (prefix_append_one m t)))
    · exact not_prefix_child t h
  have hglp : ∀ x, getLeafPath db cs' x = if x = k' then some (m ++ [!s]) else if x = k then some (m ++ [s]) else getLeafPath db cs x := by
    intro x
    unfold getLeafPath
    rw [S.leafPaths, get_hmPut, get_hmPut]
    by_cases e1 : x = k'
    · rw [if_pos e1, if_pos e1]
    · rw [if_neg e1, if_neg e1]
      by_cases e2 : x = k
      · rw [if_pos e2, if_pos e2]
      · rw [if_neg e2, if_neg e2]
  -- old leaves of other keys are elsewhere
  have helse : ∀ p a, a ≠ k' → Lf (Keys kv) p a → p ≠ m ++ [s] ∧ p ≠ m ++ [!s] ∧ ¬ (q <+: p ∧ p <+: m) := by
    intro p a hak hla'
    have hnq : ¬ q <+: p := fun h => hak (hl.2.2.1 a hla'.1 (h.trans hla'.2.1))
    exact ⟨fun e => hnq (e ▸ hqm.trans (prefix_append_one _ _)), fun e => hnq (e ▸ hqm.trans (prefix_append_one _ _)), fun e => hnq e.1⟩
  have hbelse : ∀ p, Br (Keys kv) p → p ≠ m ++ [s] ∧ p ≠ m ++ [!s] ∧ ¬ (q <+: p ∧ p <+: m) := by
    intro p hb
    have hnq : ¬ q <+: p := fun h => lf_not_br hl (br_prefix hb h)
    exact ⟨fun e => hnq (e ▸ hqm.trans (prefix_append_one _ _)), fun e => hnq (e ▸ hqm.trans (prefix_append_one _ _)), fun e => hnq e.1⟩
  refine ⟨?_, ?_, ?_, ?_, ?_, ?_, ?_, ?_, ?_, ?_, ?_, ?_, S.nodeWrites.trans I.noWrites, ?_, closed_affect_two I S.affected⟩
  · rw [List.map_cons, List.nodup_cons]; exact ⟨hk, I.nodup⟩
  · rw [hK]
    rintro x (rfl | h)
    · exact hkl
    · exact I.flat x h
  · intro p a w hmem hlf
    rw [hK] at hlf
    rcases List.mem_cons.1 hmem with hmem | hmem
    · injection hmem with e1 e2
      subst e1 e2
      rw [(hlk p).1 hlf]; exact S.new
    · by_cases e : a = k'
      · subst e
        rw [(hlk' p).1 hlf, S.old, value_unique I.nodup hmem hv']
      · have hak : a ≠ k := fun h => hk (h ▸ keys_of_mem hmem)
        rw [hla p a hak e] at hlf
        obtain ⟨n1, n2, n3⟩ := helse p a e hlf
        rw [S.rest p n1 n2 n3]
        exact I.leaf p a w hmem hlf
  · intro p hb
    rw [hK, hbr] at hb
    rcases hb with hb | hb
    · obtain ⟨n1, n2, n3⟩ := hbelse p hb
      rw [S.rest p n1 n2 n3]
      exact I.branch p hb
    · obtain ⟨b, hb, _⟩ := S.chain p hb.1 hb.2
      exact ⟨b, hb⟩
  · intro p hb hn
    rw [hK, hbr] at hb
    rw [hK] at hn
    rw [S.rest p (fun e => hn k ((hlk p).2 e)) (fun e => hn k' ((hlk' p).2 e)) (fun e => hb (Or.inr e))]
    refine I.none p (fun h => hb (Or.inl h)) fun a h => ?_
    have hak : a ≠ k := fun e => hk (e ▸ h.1)
    by_cases e : a = k'
    · subst e
      have := lf_unique h hl
      subst this
      exact hb (Or.inr ⟨List.prefix_refl _, hqm⟩)
    · exact hn a ((hla p a hak e).2 h)
  · intro a p
    rw [hK, hglp]
    by_cases e1 : a = k'
    · subst e1
      rw [if_pos rfl, hlk']
      exact ⟨fun h' => by injection h' with h'; exact h'.symm, fun h' => by rw [h']⟩
    · rw [if_neg e1]
      by_cases e2 : a = k
      · subst e2
        rw [if_pos rfl, hlk]
        exact ⟨fun h' => by injection h' with h'; exact h'.symm, fun h' => by rw [h']⟩
      · rw [if_neg e2, hla p a e2 e1]
        exact I.leafPath a p
  · intro p hp
    rw [S.touched] at hp
    rw [S.affected]
    rcases hp with rfl | hp | hp | hp
    · exact Or.inl (List.prefix_refl _)
    · exact Or.inr (Or.inl hp)
    · exact Or.inl (hp.2.trans (prefix_append_one _ _))
    · exact Or.inr (Or.inr (I.sub p hp))
  · intro p hp
    rw [S.affected] at hp
    rw [S.touched]
    rcases hp with hp | hp | hp
    · by_cases he : p = m ++ [s]
      · exact Or.inl (Or.inl he)
      · have hpm := prefix_dropLast hp he
        rw [dropLast_append_one] at hpm
        rcases prefix_or hqm hpm with h | h
        · exact Or.inl (Or.inr (Or.inr (Or.inl ⟨h, hpm⟩)))
        · by_cases hpq : p = q
          · exact Or.inl (Or.inr (Or.inr (Or.inl ⟨hpq ▸ List.prefix_refl _, hpm⟩)))
          · have hd := prefix_dropLast h hpq
            have hb : Br (Keys kv) p := by
              rcases hl.2.2.2 with e | e
              · subst e; exact absurd (List.prefix_nil.1 h) hpq
              · exact br_prefix e hd
            obtain ⟨b, hb⟩ := I.branch p hb
            rcases touched_or hb with h1 | h1
            · exact Or.inl (Or.inr (Or.inr (Or.inr h1)))
            · exact Or.inr ⟨b, h1⟩
    · exact Or.inl (Or.inr (Or.inl hp))
    · rcases I.pend p hp with h1 | h1
      · exact Or.inl (Or.inr (Or.inr (Or.inr h1)))
      · exact Or.inr h1
  · intro p b side hp
    by_cases hch : q <+: p ∧ p <+: m
    · obtain ⟨b', hb', hz⟩ := S.chain p hch.1 hch.2
      rw [hb'] at hp
      injection hp with hp; injection hp with hp
      subst hp
      by_cases hpm : p = m
      · subst hpm
        refine Or.inl ((S.affected _).2 ?_)
        by_cases e : side = s
        · exact Or.inl (e ▸ List.prefix_refl _)
        · have : side = !s := by cases side <;> cases s <;> first | rfl | exact absurd rfl e
          exact Or.inr (Or.inl (by rw [this]))
      · obtain ⟨t, ht⟩ := child_of hch.2 (by
          have := hch.2.length_le
          rcases Nat.lt_or_ge p.length m.length with h | h
          · exact h
          · exact absurd (hch.2.eq_of_length (by omega)) hpm)
        by_cases e : side = t
        · subst e
          exact Or.inl ((S.affected _).2 (Or.inl (ht.trans (prefix_append_one _ _))))
        · have : side = !t := by cases side <;> cases t <;> first | rfl | exact absurd rfl e
          subst this
          refine Or.inr ?_
          rw [hz t ht, hashAt_none]
          intro a ha hpa
          rw [hK] at ha
          rcases ha with rfl | ha
          · exact sib_not (ht.trans hm) hpa
          · have := hl.2.2.1 a ha (hch.1.trans ((prefix_append_one p _).trans hpa))
            subst this
            exact sib_not (ht.trans hm') hpa
    · have e1 : p ≠ m ++ [s] := by rintro rfl; rw [S.new] at hp; cases hp
      have e2 : p ≠ m ++ [!s] := by rintro rfl; rw [S.old] at hp; cases hp
      rw [S.rest p e1 e2 hch] at hp
      refine slots_keep I (fun c hc => under_add hc) h1 (by rw [hK]; exact hnb s)
        (fun x hx => (S.affected x).2 (hx.imp id Or.inr)) ?_ hp side
      rw [hK, hbr]; exact Or.inl (getNode_branch_inv I hp)
  · intro _
    exact (S.affected []).2 (Or.inl List.nil_prefix)
  · rw [S.stateWrites]; exact genuine_push I.genuine v
  · intro a w hmem hw
    rw [S.stateWrites]
    rcases List.mem_cons.1 hmem with hmem | hmem
    · injection hmem with e1 e2
      subst e1 e2
      exact Or.inl (stored_push _ hw)
    · exact (I.stored a w hmem hw).imp (fun h => List.mem_append_left _ h) id
  · rw [S.leafPaths]; exact hmPut_nodup (hmPut_nodup I.leafNodup _ _) _ _

theorem inv_add {env : Env} (hfair : env.fair) {db : Db} {sdb : List (Bytes × Bytes)} {cs : ChangeSet} {kv : KV} {k : Path} (v : Bytes)
    (hs : Sorted db.nodes) (hc : Closed db) (I : Inv env.H db sdb cs kv) (hk : ¬ Keys kv k) (hkl : k.length = keyBits) :
    ∃ cs', addEntry env db cs k v = .ok cs' ∧ Inv env.H db sdb cs' ((k, v) :: kv) := by
  unfold addEntry
  rcases lcpNode_spec hfair I hs hc k with ⟨q, h1, h2⟩ | ⟨q, n, h1, h2, h3⟩
  · rw [h1]
    exact ⟨_, rfl, inv_addFirst v I hkl h2⟩
  · rw [h1]
    cases n with
    | branch b => exact inv_addBranch v I hk hkl h3 (getNode_branch_inv I h2)
    | leaf sib =>
      obtain ⟨k', v', hv', hl, rfl⟩ := getNode_leaf_inv I h2
      obtain ⟨cs', m, s, e1, e2, e3, e4⟩ := splitLeaf_spec v v' I hk hkl h3 hl
      exact ⟨cs', e1, inv_split I hk hkl h3 hl hv' e2 e3 e4⟩

end Fastroll.Trie
