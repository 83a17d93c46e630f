import Verif.Trie.Inv
namespace Fastroll.Trie
open Spec (KV under)

/-- The nodes of the database are closed under prefixes. -/
def Closed (db : Db) : Prop := ∀ p q : Path, q <+: p → (get db.nodes p).isSome = true → (get db.nodes q).isSome = true

theorem isSome_iff_node {H : Bytes → Bytes} {db : Db} {sdb : List (Bytes × Bytes)} {cs : ChangeSet} {kv : KV}
    (I : Inv H db sdb cs kv) (p : Path) :
    (getNode db cs p).isSome = true ↔ Br (Keys kv) p ∨ ∃ k, Lf (Keys kv) p k := by
  constructor
  · intro h
    by_cases hb : Br (Keys kv) p
    · exact Or.inl hb
    · by_cases hl : ∃ k, Lf (Keys kv) p k
      · exact Or.inr hl
      · rw [I.none p hb fun k h' => hl ⟨k, h'⟩] at h; cases h
  · rintro (h | ⟨k, h⟩)
    · obtain ⟨b, hb⟩ := I.branch p h
      rw [hb]; rfl
    · obtain ⟨v, hv⟩ := mem_of_keys h.1
      rw [I.leaf p k v hv h]; rfl

/-- The node the lookup of a new key ends at. -/
theorem lcpNode_spec {env : Env} (hfair : env.fair) {db : Db} {sdb : List (Bytes × Bytes)} {cs : ChangeSet} {kv : KV}
    (I : Inv env.H db sdb cs kv) (hs : Sorted db.nodes) (hc : Closed db) (k : Path) :
    (∃ q, lcpNode env db cs k = .ok (none, q) ∧ ∀ a, ¬ Keys kv a) ∨
    (∃ q n, lcpNode env db cs k = .ok (some n, q) ∧ getNode db cs q = some n ∧ Longest (Keys kv) k q) := by
  obtain ⟨h1, h2, h3⟩ := longestPrefix_spec env hfair db cs hs k hc
  generalize hq : longestPrefix env db cs k = q at h1 h2 h3
  have hL : Longest (Keys kv) k q := ⟨h1, fun p hp hn => h3 p hp ((isSome_iff_node I p).2 hn)⟩
  unfold lcpNode
  rw [hq]
  dsimp only
  cases hg : getNode db cs q with
  | some n => exact Or.inr ⟨q, n, rfl, hg, hL⟩
  | none =>
    have hq0 : q = [] := by
      rcases h2 with h | h
      · exact h
      · rw [hg] at h; cases h
    refine Or.inl ⟨q, ?_, ?_⟩
    · dsimp only
      rw [if_pos hq0]
    · intro a ha
      have := (node_exists (Or.inl rfl) ha List.nil_prefix : Br (Keys kv) [] ∨ Lf (Keys kv) [] a)
      subst hq0
      have h5 := getNode_none_inv I hg
      rcases this with h | h
      · exact h5.1 h
      · exact h5.2 a h

/-! ### Add, case 3: the first key -/

theorem inv_addFirst {env : Env} {db : Db} {sdb : List (Bytes × Bytes)} {cs : ChangeSet} {kv : KV} {k : Path} (v : Bytes)
    (I : Inv env.H db sdb cs kv) (hkl : k.length = keyBits) (hno : ∀ a, ¬ Keys kv a) :
    Inv env.H db sdb (addFirst env cs k v) ((k, v) :: kv) := by
  have hg : ∀ x, getNode db (addFirst env cs k v) x =
      if x = [] then some (.leaf (mkLeaf env.H k v)) else getNode db cs x := fun x => getNode_setNode db (cs.affect []) [] _ x
  have ht : ∀ x, Touched (addFirst env cs k v) x ↔ x = [] ∨ Touched cs x := fun x => touched_setNode (cs.affect []) [] _ x
  have ha : ∀ x, x ∈ (addFirst env cs k v).affected ↔ x <+: [] ∨ x ∈ cs.affected := fun x => mem_affect cs [] x
  have hlp : ∀ x, getLeafPath db (addFirst env cs k v) x = if x = k then some [] else getLeafPath db cs x :=
    fun x => getLeafPath_setLeaf db ((cs.affect []).setNode [] _) k _ x
  have hK := keys_add kv k v
  obtain ⟨hbr, hlf⟩ := add_first (k := k) hno
  have hkv : kv = [] := by
    rw [List.eq_nil_iff_forall_not_mem]
    intro e he
    exact hno e.1 (List.mem_map.2 ⟨e, he, rfl⟩)
  have hnone : ∀ p, getNode db cs p = none := fun p => by
    apply I.none
    · rintro ⟨a, _, _, h, _⟩; exact hno a h
    · intro a h; exact hno a h.1
  refine ⟨?_, ?_, ?_, ?_, ?_, ?_, ?_, ?_, ?_, ?_, ?_, ?_, I.noWrites, hmPut_nodup I.leafNodup _ _, closed_affect I ha⟩
  · rw [hkv]; simp
  · rw [hK]
    rintro x (rfl | h)
    · exact hkl
    · exact absurd h (hno x)
  · intro p a w hm hla
    rw [hK, hlf] at hla
    rw [hg, if_pos hla.1]
    rw [hkv] at hm
    rw [List.mem_singleton] at hm
    injection hm with h1 h2
    rw [h1, h2]
  · intro p hb
    rw [hK] at hb
    exact absurd hb (hbr p)
  · intro p _ hn
    rw [hK] at hn
    rw [hg, if_neg]
    · exact hnone p
    · intro h; exact hn k ((hlf p k).2 ⟨h, rfl⟩)
  · intro a p
    rw [hK, hlf, hlp]
    by_cases h : a = k
    · rw [if_pos h]
      exact ⟨fun h' => by injection h' with h'; exact ⟨h'.symm, h⟩, fun h' => by rw [h'.1]⟩
    · rw [if_neg h]
      refine ⟨fun h' => absurd ((I.leafPath a p).1 h').1 (hno a), fun h' => absurd h'.2 h⟩
  · intro p hp
    rw [ht] at hp
    rw [ha]
    rcases hp with rfl | hp
    · exact Or.inl (List.prefix_refl _)
    · exact Or.inr (I.sub p hp)
  · intro p hp
    rw [ha] at hp
    rw [ht]
    rcases hp with hp | hp
    · exact Or.inl (Or.inl (List.prefix_nil.1 hp))
    · rcases I.pend p hp with h1 | h1
      · exact Or.inl (Or.inr h1)
      · exact Or.inr h1
  · intro p b side hp
    rw [hg] at hp
    by_cases he : p = []
    · rw [if_pos he] at hp; cases hp
    · rw [if_neg he, hnone] at hp; cases hp
  · intro _
    exact (ha []).2 (Or.inl List.nil_prefix)
  · exact genuine_push I.genuine v
  · intro a w hm hw
    rw [hkv, List.mem_singleton] at hm
    injection hm with h1 h2
    subst h1 h2
    exact Or.inl (stored_push _ hw)

/-! ### Add, case 1: below a branch -/

theorem inv_addBranch {env : Env} {db : Db} {sdb : List (Bytes × Bytes)} {cs : ChangeSet} {kv : KV} {k q : Path} (v : Bytes)
    (I : Inv env.H db sdb cs kv) (hk : ¬ Keys kv k) (hkl : k.length = keyBits) (hq : Longest (Keys kv) k q)
    (hb : Br (Keys kv) q) :
    ∃ cs', addBelowBranch env cs k v q = .ok cs' ∧ Inv env.H db sdb cs' ((k, v) :: kv) := by
  obtain ⟨side, htake, hlen, hempty, hbr, hlk, hla⟩ := add_branch I.flat hk hkl hq hb
  have hlpk : q ++ [side] <+: k := by rw [← htake]; exact List.take_prefix _ _
  unfold addBelowBranch
  rw [if_pos hlen]
  dsimp only
  rw [htake]
  generalize hlpe : q ++ [side] = lp at *
  refine ⟨_, rfl, ?_⟩
  generalize hcs : (((cs.affect lp).setNode lp (some (.leaf (mkLeaf env.H k v)))).setLeaf k (some lp)).pushState
    (stateWrite env.H v) = cs'
  have hg : ∀ x, getNode db cs' x =
      if x = lp then some (.leaf (mkLeaf env.H k v)) else getNode db cs x := fun x => by
    rw [← hcs]; exact getNode_setNode db (cs.affect lp) lp _ x
  have ht : ∀ x, Touched cs' x ↔ x = lp ∨ Touched cs x := fun x => by
    rw [← hcs]; exact touched_setNode (cs.affect lp) lp _ x
  have ha : ∀ x, x ∈ cs'.affected ↔ x <+: lp ∨ x ∈ cs.affected := fun x => by
    rw [← hcs]; exact mem_affect cs lp x
  have hlp : ∀ x, getLeafPath db cs' x = if x = k then some lp else getLeafPath db cs x := fun x => by
    rw [← hcs]; exact getLeafPath_setLeaf db ((cs.affect lp).setNode lp _) k _ x
  have hsw : cs'.stateWrites = cs.stateWrites ++ (stateWrite env.H v).toList := by rw [← hcs]; rfl
  have hnw : cs'.nodeWrites = cs.nodeWrites := by rw [← hcs]; rfl
  have hln : cs'.leafPaths = hmPut cs.leafPaths k (some lp) := by rw [← hcs]; rfl
  clear hcs
  have hK := keys_add kv k v
  have hnb : ¬ Br (Keys kv) lp := by
    rintro ⟨a, _, _, h, _, h', _⟩; exact hempty a h h'
  refine ⟨?_, ?_, ?_, ?_, ?_, ?_, ?_, ?_, ?_, ?_, ?_, ?_, hnw.trans I.noWrites, ?_, closed_affect I ha⟩
  · rw [List.map_cons, List.nodup_cons]; exact ⟨hk, I.nodup⟩
  · rw [hK]
    rintro x (rfl | h)
    · exact hkl
    · exact I.flat x h
  · intro p a w hm hl
    rw [hK] at hl
    rw [hg]
    rcases List.mem_cons.1 hm with hm | hm
    · injection hm with h1 h2
      subst h1 h2
      rw [if_pos ((hlk p).1 hl)]
    · have hak : a ≠ k := fun h => hk (h ▸ keys_of_mem hm)
      rw [hla p a hak] at hl
      rw [if_neg, I.leaf p a w hm hl]
      rintro rfl
      exact hempty a hl.1 hl.2.1
  · intro p h
    rw [hK, hbr] at h
    rw [hg, if_neg]
    · exact I.branch p h
    · rintro rfl; exact hnb h
  · intro p h1 hn
    rw [hK, hbr] at h1
    rw [hK] at hn
    rw [hg, if_neg]
    · refine I.none p h1 fun a h => ?_
      have hak : a ≠ k := fun e => hk (e ▸ h.1)
      exact hn a ((hla p a hak).2 h)
    · intro h; exact hn k ((hlk p).2 h)
  · intro a p
    rw [hK, hlp]
    by_cases h : a = k
    · subst h
      rw [if_pos rfl, hlk]
      exact ⟨fun h' => by injection h' with h'; exact h'.symm, fun h' => by rw [h']⟩
    · rw [if_neg h, hla p a h]
      exact I.leafPath a p
  · intro p hp
    rw [ht] at hp
    rw [ha]
    rcases hp with rfl | hp
    · exact Or.inl (List.prefix_refl _)
    · exact Or.inr (I.sub p hp)
  · intro p hp
    rw [ha] at hp
    rw [ht]
    rcases hp with hp | hp
    · by_cases he : p = lp
      · exact Or.inl (Or.inl he)
      · have h1 := prefix_dropLast hp he
        rw [← hlpe, dropLast_append_one] at h1
        obtain ⟨b, hb⟩ := I.branch p (br_prefix hb h1)
        rcases touched_or hb with h1 | h1
        · exact Or.inl (Or.inr h1)
        · exact Or.inr ⟨b, h1⟩
    · rcases I.pend p hp with h1 | h1
      · exact Or.inl (Or.inr h1)
      · exact Or.inr h1
  · intro p b side hp
    rw [hg] at hp
    by_cases he : p = lp
    · rw [if_pos he] at hp; cases hp
    · rw [if_neg he] at hp
      refine slots_keep I (fun c hc => under_add hc) hlpk (by rw [hK, hbr]; exact hnb) (fun x hx => (ha x).2 hx)
        (by rw [hK, hbr]; exact getNode_branch_inv I hp) hp side
  · intro _
    exact (ha []).2 (Or.inl List.nil_prefix)
  · rw [hsw]; exact genuine_push I.genuine v
  · intro a w hm hw
    rw [hsw]
    rcases List.mem_cons.1 hm with hm | hm
    · injection hm with h1 h2
      subst h1 h2
      exact Or.inl (stored_push _ hw)
    · exact (I.stored a w hm hw).imp (fun h => List.mem_append_left _ h) id
  · rw [hln]; exact hmPut_nodup I.leafNodup _ _

/-! ### Add, case 2: a leaf is split -/

theorem commonLen_spec : ∀ (a b : Path), a.length = b.length → a ≠ b →
    ∃ m s, commonLen a b = m.length ∧ m ++ [s] <+: a ∧ m ++ [!s] <+: b
  | [], [], _, h => absurd rfl h
  | [], _ :: _, h, _ => by cases h
  | _ :: _, [], h, _ => by cases h
  | x :: a, y :: b, h, hne => by
    unfold commonLen
    by_cases hxy : x = y
    · subst hxy
      rw [if_pos rfl]
      obtain ⟨m, s, h1, h2, h3⟩ := commonLen_spec a b (by simpa using h) (fun e => hne (by rw [e]))
      refine ⟨x :: m, s, by rw [h1]; rfl, ?_, ?_⟩
      · rw [List.cons_append, List.cons_prefix_cons]; exact ⟨rfl, h2⟩
      · rw [List.cons_append, List.cons_prefix_cons]; exact ⟨rfl, h3⟩
    · rw [if_neg hxy]
      refine ⟨[], x, rfl, ?_, ?_⟩
      · exact ⟨a, rfl⟩
      · have : (!x) = y := by cases x <;> cases y <;> first | rfl | exact absurd rfl hxy
        rw [this]
        exact ⟨b, rfl⟩

theorem finalPaths_spec (a b : Path) (hl : a.length = b.length) (hne : a ≠ b) :
    ∃ m s, finalPaths a b = .ok (m ++ [!s], m ++ [s]) ∧ m ++ [!s] <+: a ∧ m ++ [s] <+: b := by
  obtain ⟨m, s, h1, h2, h3⟩ := commonLen_spec a b hl hne
  have l2 := h2.length_le
  have l3 := h3.length_le
  rw [List.length_append, List.length_singleton] at l2 l3
  refine ⟨m, !s, ?_, by rw [Bool.not_not]; exact h2, h3⟩
  unfold finalPaths
  rw [h1, if_pos ⟨l2, l3⟩, Bool.not_not]
  have e2 := List.prefix_iff_eq_take.1 h2
  have e3 := List.prefix_iff_eq_take.1 h3
  rw [List.length_append, List.length_singleton] at e2 e3
  rw [← e2, ← e3]

theorem slot_make (l r : Bytes) (s : Bool) : slot (Branch.make l r) s = slotOf s (if s then r else l) := by
  cases s <;> rfl

theorem addBranches_spec (H : Bytes → Bytes) (db : Db) (q m : Path) (hqm : q <+: m) (fuel : Nat) :
    ∀ (cs : ChangeSet) (bp : Path) (l r : Bytes), bp <+: m → bp.length < fuel →
    (∀ p s, q <+: p → p ++ [s] <+: m → getNode db cs (p ++ [!s]) = none) →
    (addBranches H db q.length fuel cs bp l r).affected = cs.affected ∧
    (addBranches H db q.length fuel cs bp l r).leafPaths = cs.leafPaths ∧
    (addBranches H db q.length fuel cs bp l r).stateWrites = cs.stateWrites ∧
    (addBranches H db q.length fuel cs bp l r).nodeWrites = cs.nodeWrites ∧
    (∀ x, ¬ (q <+: x ∧ x <+: bp) → get (addBranches H db q.length fuel cs bp l r).nodes x = get cs.nodes x) ∧
    (∀ x, q <+: x → x <+: bp → ∃ b, get (addBranches H db q.length fuel cs bp l r).nodes x = some (some (.branch b)) ∧
      (x = bp → b = Branch.make l r) ∧ (∀ s, x ++ [s] <+: bp → slot b (!s) = slotOf (!s) zeroHash)) := by
  induction fuel with
  | zero => intro cs bp l r _ h; omega
  | succ fuel ih =>
    intro cs bp l r hbp hfuel hoff
    unfold addBranches
    by_cases hlen : bp.length < q.length
    · rw [if_pos hlen]
      refine ⟨rfl, rfl, rfl, rfl, fun _ _ => rfl, fun x h1 h2 => ?_⟩
      have := (h1.trans h2).length_le
      omega
    · rw [if_neg hlen]
      have hqbp : q <+: bp := List.prefix_of_prefix_length_le hqm hbp (by omega)
      dsimp only
      have hset : ∀ x, get (cs.setNode bp (some (.branch (Branch.make l r)))).nodes x =
          if x = bp then some (some (.branch (Branch.make l r))) else get cs.nodes x := fun x => get_hmPut _ _ _ _
      cases hlast : bp.getLast? with
      | none =>
        have hnil : bp = [] := List.getLast?_eq_none_iff.1 hlast
        subst hnil
        dsimp only
        refine ⟨rfl, rfl, rfl, rfl, ?_, ?_⟩
        · intro x hx
          rw [hset, if_neg]
          rintro rfl
          exact hx ⟨hqbp, List.prefix_refl _⟩
        · intro x h1 h2
          have : x = [] := List.prefix_nil.1 h2
          subst this
          refine ⟨Branch.make l r, by rw [hset, if_pos rfl], fun _ => rfl, fun s hs => ?_⟩
          have := hs.length_le
          simp at this
      | some side =>
        obtain ⟨bp', hbp'⟩ : ∃ bp', bp = bp' ++ [side] := List.getLast?_eq_some_iff.1 hlast
        subst hbp'
        dsimp only
        rw [dropLast_append_one]
        generalize hcs1 : cs.setNode (bp' ++ [side]) (some (.branch (Branch.make l r))) = cs1 at hset ⊢
        have hbp'm : bp' <+: m := (prefix_append_one bp' side).trans hbp
        have hoff1 : ∀ p s, q <+: p → p ++ [s] <+: m → getNode db cs1 (p ++ [!s]) = none := by
          intro p s h1 h2
          rw [← hcs1, getNode_setNode, if_neg, hoff p s h1 h2]
          intro he
          exact sib_not h2 (he ▸ hbp)
        have hn0 : q <+: bp' → nodeHashOr H (getNode db cs1 (bp' ++ [!side])) = zeroHash := fun h => by
          rw [hoff1 bp' side h hbp]; rfl
        have hlen' : (bp' ++ [side]).length = bp'.length + 1 := by rw [List.length_append]; rfl
        -- the recursive call, whatever the two hashes are
        have key : ∀ (l' r' : Bytes), (q <+: bp' → slot (Branch.make l' r') (!side) = slotOf (!side) zeroHash) →
            (addBranches H db q.length fuel cs1 bp' l' r').affected = cs.affected ∧
            (addBranches H db q.length fuel cs1 bp' l' r').leafPaths = cs.leafPaths ∧
            (addBranches H db q.length fuel cs1 bp' l' r').stateWrites = cs.stateWrites ∧
            (addBranches H db q.length fuel cs1 bp' l' r').nodeWrites = cs.nodeWrites ∧
            (∀ x, ¬ (q <+: x ∧ x <+: bp' ++ [side]) → get (addBranches H db q.length fuel cs1 bp' l' r').nodes x = get cs.nodes x) ∧
            (∀ x, q <+: x → x <+: bp' ++ [side] → ∃ b, get (addBranches H db q.length fuel cs1 bp' l' r').nodes x = some (some (.branch b)) ∧
              (x = bp' ++ [side] → b = Branch.make l r) ∧ (∀ s, x ++ [s] <+: bp' ++ [side] → slot b (!s) = slotOf (!s) zeroHash)) := by
          intro l' r' hz
          obtain ⟨i1, i2, i3, i4, i5, i6⟩ := ih cs1 bp' l' r' hbp'm (by omega) hoff1
          refine ⟨by rw [i1, ← hcs1]; rfl, by rw [i2, ← hcs1]; rfl, by rw [i3, ← hcs1]; rfl, by rw [i4, ← hcs1]; rfl, ?_, ?_⟩
          · intro x hx
            rw [i5, hset, if_neg]
            · rintro rfl; exact hx ⟨hqbp, List.prefix_refl _⟩
            · rintro ⟨h1, h2⟩; exact hx ⟨h1, h2.trans (prefix_append_one _ _)⟩
          · intro x h1 h2
            by_cases hx : x = bp' ++ [side]
            · subst hx
              refine ⟨Branch.make l r, ?_, fun _ => rfl, ?_⟩
              · rw [i5, hset, if_pos rfl]
                rintro ⟨_, h3⟩
                have := h3.length_le
                omega
              · intro s hs
                have := hs.length_le
                rw [List.length_append, List.length_singleton] at this
                omega
            · have h3 := prefix_dropLast h2 hx
              rw [dropLast_append_one] at h3
              obtain ⟨b, e1, e2, e3⟩ := i6 x h1 h3
              refine ⟨b, e1, fun h => absurd h hx, ?_⟩
              intro s hs
              by_cases hxb : x = bp'
              · have he := e2 hxb
                subst hxb
                have : s = side := child_unique hs (List.prefix_refl _)
                subst this
                rw [he]
                exact hz h1
              · apply e3
                have h4 : ∃ t, x ++ [t] <+: bp' := child_of h3 (by
                  have := h3.length_le
                  rcases Nat.lt_or_ge x.length bp'.length with h | h
                  · exact h
                  · exact absurd (h3.eq_of_length (by omega)) hxb)
                obtain ⟨t, h4⟩ := h4
                have := child_unique (h4.trans (prefix_append_one bp' side)) hs
                rw [← this]; exact h4
        cases side with
        | true =>
          rw [if_pos rfl]
          refine key _ _ fun h => ?_
          rw [slot_make, hn0 h]
          rfl
        | false =>
          rw [if_neg (by decide)]
          refine key _ _ fun h => ?_
          rw [slot_make, hn0 h]
          rfl

end Fastroll.Trie
