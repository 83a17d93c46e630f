import Verif.Trie.HashLemmas
namespace Fastroll.Trie
open Spec (KV under)

/-- One of the two halves of a branch. -/
def slot (b : Branch) : Bool → List Bool
  | false => b.left
  | true => b.right

/-- What a branch stores of a child's hash. -/
def slotOf : Bool → Bytes → List Bool
  | false, h => (bits h).drop 1
  | true, h => bits h

/-- A path has a pending change. -/
def Touched (cs : ChangeSet) (x : Path) : Prop := ∃ w, get cs.nodes x = some w

/-- What holds of the change set after part of a batch: `kv` is the map with the changes made so far. -/
structure Inv (H : Bytes → Bytes) (db : Db) (sdb : List (Bytes × Bytes)) (cs : ChangeSet) (kv : KV) : Prop where
  nodup : (kv.map (·.1)).Nodup
  flat : Flat (Keys kv)
  leaf : ∀ p k v, (k, v) ∈ kv → Lf (Keys kv) p k → getNode db cs p = some (.leaf (mkLeaf H k v))
  branch : ∀ p, Br (Keys kv) p → ∃ b, getNode db cs p = some (.branch b)
  none : ∀ p, ¬ Br (Keys kv) p → (∀ k, ¬ Lf (Keys kv) p k) → getNode db cs p = none
  leafPath : ∀ k p, getLeafPath db cs k = some p ↔ Lf (Keys kv) p k
  sub : ∀ p, Touched cs p → p ∈ cs.affected
  pend : ∀ p, p ∈ cs.affected → Touched cs p ∨ ∃ b, get db.nodes p = some (.branch b)
  slots : ∀ p b side, getNode db cs p = some (.branch b) →
    p ++ [side] ∈ cs.affected ∨ slot b side = slotOf side (hashAt H kv (p ++ [side]))
  root : cs.affected ≠ [] → [] ∈ cs.affected
  genuine : ∀ e ∈ cs.stateWrites, e.1 = H e.2
  stored : ∀ k v, (k, v) ∈ kv → 32 < v.length → (H v, v) ∈ cs.stateWrites ∨ (H v, v) ∈ sdb
  noWrites : cs.nodeWrites = []
  leafNodup : (cs.leafPaths.map (·.1)).Nodup
  closed : ∀ x y, y <+: x → x ∈ cs.affected → y ∈ cs.affected

/-! ### Maps -/

theorem keys_add (kv : KV) (k : Path) (v : Bytes) : Keys ((k, v) :: kv) = insK (Keys kv) k := by
  funext x
  exact propext List.mem_cons

/-- An updated map. -/
def setKV (kv : KV) (k : Path) (v : Bytes) : KV := kv.map fun x => if x.1 = k then (x.1, v) else x

theorem setKV_fst (kv : KV) (k : Path) (v : Bytes) : (setKV kv k v).map (·.1) = kv.map (·.1) := by
  unfold setKV
  rw [List.map_map]
  apply List.map_congr_left
  intro x _
  show (if x.1 = k then (x.1, v) else x).1 = x.1
  split <;> rfl

theorem keys_update (kv : KV) (k : Path) (v : Bytes) : Keys (setKV kv k v) = Keys kv := by
  funext x
  unfold Keys
  rw [setKV_fst]

theorem mem_setKV {kv : KV} {k : Path} {v : Bytes} {a : Path} {w : Bytes} (h : (a, w) ∈ setKV kv k v) :
    (a = k ∧ w = v) ∨ (a ≠ k ∧ (a, w) ∈ kv) := by
  obtain ⟨⟨x, y⟩, hx, he⟩ := List.mem_map.1 h
  dsimp only at he
  by_cases hk : x = k
  · rw [if_pos hk] at he
    injection he with h1 h2
    exact Or.inl ⟨h1 ▸ hk, h2.symm⟩
  · rw [if_neg hk] at he
    injection he with h1 h2
    subst h1 h2
    exact Or.inr ⟨hk, hx⟩

/-- A map without a key. -/
def delKV (kv : KV) (k : Path) : KV := kv.filter fun x => x.1 ≠ k

theorem mem_delKV {kv : KV} {k : Path} {e : Path × Bytes} : e ∈ delKV kv k ↔ e ∈ kv ∧ e.1 ≠ k := by
  unfold delKV
  rw [List.mem_filter, decide_eq_true_eq]

theorem keys_remove (kv : KV) (k : Path) : Keys (delKV kv k) = remK (Keys kv) k := by
  funext x
  apply propext
  constructor
  · intro h
    obtain ⟨v, hv⟩ := mem_of_keys h
    exact ⟨keys_of_mem (mem_delKV.1 hv).1, (mem_delKV.1 hv).2⟩
  · rintro ⟨h1, h2⟩
    obtain ⟨v, hv⟩ := mem_of_keys h1
    exact keys_of_mem (mem_delKV.2 ⟨hv, h2⟩)

theorem under_add {kv : KV} {k c : Path} {v : Bytes} (h : ¬ c <+: k) : under ((k, v) :: kv) c = under kv c := by
  unfold under
  rw [List.filter_cons, if_neg]
  rw [isPrefixOf_iff]; exact h

theorem under_update {kv : KV} {k c : Path} {v : Bytes} (h : ¬ c <+: k) : under (setKV kv k v) c = under kv c := by
  unfold under setKV
  induction kv with
  | nil => rfl
  | cons e kv ih =>
    rw [List.map_cons, List.filter_cons, List.filter_cons, ih]
    by_cases he : e.1 = k
    · rw [if_pos he, if_neg (by dsimp only; rw [isPrefixOf_iff, he]; exact h),
        if_neg (by rw [isPrefixOf_iff, he]; exact h)]
    · rw [if_neg he]

theorem under_remove {kv : KV} {k c : Path} (h : ¬ c <+: k) : under (delKV kv k) c = under kv c := by
  unfold under delKV
  rw [List.filter_filter]
  apply List.filter_congr
  intro e _
  rw [Bool.eq_iff_iff, Bool.and_eq_true, isPrefixOf_iff, decide_eq_true_eq]
  exact ⟨fun h' => h'.1, fun h' => ⟨h', fun he => h (he ▸ h')⟩⟩

/-! ### Change sets -/

theorem touched_setNode (cs : ChangeSet) (p : Path) (w : Option Node) (x : Path) :
    Touched (cs.setNode p w) x ↔ x = p ∨ Touched cs x := by
  unfold Touched ChangeSet.setNode
  dsimp only
  rw [get_hmPut]
  by_cases h : x = p
  · rw [if_pos h]; exact ⟨fun _ => Or.inl h, fun _ => ⟨w, rfl⟩⟩
  · rw [if_neg h]; exact ⟨fun h' => Or.inr h', fun h' => h'.resolve_left h⟩

theorem touched_or {db : Db} {cs : ChangeSet} {x : Path} {n : Node} (h : getNode db cs x = some n) :
    Touched cs x ∨ get db.nodes x = some n := by
  unfold getNode at h
  unfold Touched
  cases hc : get cs.nodes x with
  | none => rw [hc] at h; exact Or.inr h
  | some w => exact Or.inl ⟨w, rfl⟩

theorem mem_affect (cs : ChangeSet) (p x : Path) : x ∈ (cs.affect p).affected ↔ x <+: p ∨ x ∈ cs.affected := by
  show x ∈ allPaths p ++ cs.affected ↔ _
  rw [List.mem_append, mem_allPaths]

theorem hmPut_nodup {α : Type} {m : List (Path × α)} (h : (m.map (·.1)).Nodup) (k : Path) (v : α) :
    ((hmPut m k v).map (·.1)).Nodup := by
  unfold hmPut
  rw [List.map_cons, List.nodup_cons]
  refine ⟨?_, List.Nodup.sublist (List.Sublist.map _ List.filter_sublist) h⟩
  intro h1
  obtain ⟨e, he, h2⟩ := List.mem_map.1 h1
  rw [List.mem_filter, decide_eq_true_eq] at he
  exact he.2 h2

theorem genuine_push {H : Bytes → Bytes} {sw : List (Bytes × Bytes)} (h : ∀ e ∈ sw, e.1 = H e.2) (v : Bytes) :
    ∀ e ∈ sw ++ (stateWrite H v).toList, e.1 = H e.2 := by
  intro e he
  rw [List.mem_append] at he
  rcases he with he | he
  · exact h e he
  · unfold stateWrite at he
    split at he
    · rw [Option.toList_some, List.mem_singleton] at he
      rw [he]
    · cases he

theorem stored_push {H : Bytes → Bytes} (sw : List (Bytes × Bytes)) {v : Bytes} (h : 32 < v.length) :
    (H v, v) ∈ sw ++ (stateWrite H v).toList := by
  unfold stateWrite
  rw [if_pos h]
  simp

/-- Branches that keep their content keep right halves for the children outside the affected paths. -/
theorem slots_keep {H : Bytes → Bytes} {db : Db} {sdb : List (Bytes × Bytes)} {cs cs' : ChangeSet} {kv kv' : KV} {k lp : Path}
    (I : Inv H db sdb cs kv) (hu : ∀ c, ¬ c <+: k → under kv' c = under kv c) (hk : lp <+: k)
    (hnb : ¬ Br (Keys kv') lp) (haff : ∀ x, x <+: lp ∨ x ∈ cs.affected → x ∈ cs'.affected)
    {p : Path} {b : Branch} (hp : Br (Keys kv') p) (hg : getNode db cs p = some (.branch b)) (side : Bool) :
    p ++ [side] ∈ cs'.affected ∨ slot b side = slotOf side (hashAt H kv' (p ++ [side])) := by
  by_cases hc : p ++ [side] ∈ cs'.affected
  · exact Or.inl hc
  · refine Or.inr ?_
    have hck : ¬ p ++ [side] <+: k := by
      intro h
      rcases prefix_or h hk with h1 | h1
      · exact hc (haff _ (Or.inl h1))
      · by_cases he : lp = p ++ [side]
        · exact hc (haff _ (Or.inl (he ▸ List.prefix_refl _)))
        · have := prefix_dropLast h1 he
          rw [dropLast_append_one] at this
          exact hnb (br_prefix hp this)
    rw [hashAt_congr (hu _ hck)]
    exact (I.slots p b side hg).resolve_left fun h => hc (haff _ (Or.inr h))

theorem getNode_leaf_inv {H : Bytes → Bytes} {db : Db} {sdb : List (Bytes × Bytes)} {cs : ChangeSet} {kv : KV}
    (I : Inv H db sdb cs kv) {p : Path} {l : Leaf} (h : getNode db cs p = some (.leaf l)) :
    ∃ k v, (k, v) ∈ kv ∧ Lf (Keys kv) p k ∧ l = mkLeaf H k v := by
  by_cases hb : Br (Keys kv) p
  · obtain ⟨b, hb⟩ := I.branch p hb
    rw [hb] at h; cases h
  · by_cases hl : ∃ k, Lf (Keys kv) p k
    · obtain ⟨k, hl⟩ := hl
      obtain ⟨v, hv⟩ := mem_of_keys hl.1
      rw [I.leaf p k v hv hl] at h
      injection h with h; injection h with h
      exact ⟨k, v, hv, hl, h.symm⟩
    · rw [I.none p hb fun k h' => hl ⟨k, h'⟩] at h; cases h

theorem getNode_branch_inv {H : Bytes → Bytes} {db : Db} {sdb : List (Bytes × Bytes)} {cs : ChangeSet} {kv : KV}
    (I : Inv H db sdb cs kv) {p : Path} {b : Branch} (h : getNode db cs p = some (.branch b)) : Br (Keys kv) p := by
  by_cases hb : Br (Keys kv) p
  · exact hb
  · by_cases hl : ∃ k, Lf (Keys kv) p k
    · obtain ⟨k, hl⟩ := hl
      obtain ⟨v, hv⟩ := mem_of_keys hl.1
      rw [I.leaf p k v hv hl] at h
      cases h
    · rw [I.none p hb fun k h' => hl ⟨k, h'⟩] at h; cases h

theorem getNode_none_inv {H : Bytes → Bytes} {db : Db} {sdb : List (Bytes × Bytes)} {cs : ChangeSet} {kv : KV}
    (I : Inv H db sdb cs kv) {p : Path} (h : getNode db cs p = .none) :
    ¬ Br (Keys kv) p ∧ ∀ k, ¬ Lf (Keys kv) p k := by
  refine ⟨fun hb => ?_, fun k hl => ?_⟩
  · obtain ⟨b, hb⟩ := I.branch p hb
    rw [hb] at h; cases h
  · obtain ⟨v, hv⟩ := mem_of_keys hl.1
    rw [I.leaf p k v hv hl] at h; cases h

theorem mkLeaf_key (H : Bytes → Bytes) (k : Path) (v : Bytes) : (mkLeaf H k v).key = k := by
  unfold mkLeaf; split <;> rfl

theorem closed_affect {H : Bytes → Bytes} {db : Db} {sdb : List (Bytes × Bytes)} {cs cs' : ChangeSet} {kv : KV} {lp : Path}
    (I : Inv H db sdb cs kv) (ha : ∀ x, x ∈ cs'.affected ↔ x <+: lp ∨ x ∈ cs.affected) :
    ∀ x y, y <+: x → x ∈ cs'.affected → y ∈ cs'.affected := by
  intro x y hy hx
  rw [ha] at hx ⊢
  exact hx.imp hy.trans (I.closed x y hy)

theorem closed_affect_two {H : Bytes → Bytes} {db : Db} {sdb : List (Bytes × Bytes)} {cs cs' : ChangeSet} {kv : KV} {m : Path}
    {s t : Bool} (I : Inv H db sdb cs kv) (ha : ∀ x, x ∈ cs'.affected ↔ x <+: m ++ [s] ∨ x = m ++ [t] ∨ x ∈ cs.affected) :
    ∀ x y, y <+: x → x ∈ cs'.affected → y ∈ cs'.affected := by
  intro x y hy hx
  rw [ha] at hx ⊢
  rcases hx with hx | hx | hx
  · exact Or.inl (hy.trans hx)
  · by_cases e : y = x
    · exact Or.inr (Or.inl (e.trans hx))
    · have := prefix_dropLast hy e
      rw [hx, dropLast_append_one] at this
      exact Or.inl (this.trans (prefix_append_one _ _))
  · exact Or.inr (Or.inr (I.closed x y hy hx))

/-! ### Update -/

theorem inv_update {env : Env} {db : Db} {sdb : List (Bytes × Bytes)} {cs : ChangeSet} {kv : KV} {k : Path} (v : Bytes)
    (I : Inv env.H db sdb cs kv) (hk : Keys kv k) :
    ∃ cs', updateEntry env db cs k v = .ok cs' ∧ Inv env.H db sdb cs' (setKV kv k v) := by
  obtain ⟨lp, hl⟩ := lf_exists I.flat hk
  have hlp := (I.leafPath k lp).2 hl
  unfold updateEntry
  rw [hlp]
  refine ⟨_, rfl, ?_⟩
  have hg : ∀ x, getNode db (((cs.affect lp).setNode lp (some (.leaf (mkLeaf env.H k v)))).pushState (stateWrite env.H v)) x =
      if x = lp then some (.leaf (mkLeaf env.H k v)) else getNode db cs x := fun x => getNode_setNode db (cs.affect lp) lp _ x
  have ht : ∀ x, Touched (((cs.affect lp).setNode lp (some (.leaf (mkLeaf env.H k v)))).pushState (stateWrite env.H v)) x ↔
      x = lp ∨ Touched cs x := fun x => touched_setNode (cs.affect lp) lp _ x
  have ha : ∀ x, x ∈ (((cs.affect lp).setNode lp (some (.leaf (mkLeaf env.H k v)))).pushState (stateWrite env.H v)).affected ↔
      x <+: lp ∨ x ∈ cs.affected := fun x => mem_affect cs lp x
  have hK := keys_update kv k v
  refine ⟨?_, ?_, ?_, ?_, ?_, ?_, ?_, ?_, ?_, ?_, ?_, ?_, I.noWrites, I.leafNodup, closed_affect I ha⟩
  · rw [setKV_fst]; exact I.nodup
  · rw [hK]; exact I.flat
  · intro p a w hm hla
    rw [hK] at hla
    rw [hg]
    rcases mem_setKV hm with ⟨rfl, rfl⟩ | ⟨h1, h2⟩
    · rw [if_pos (lf_unique hla hl)]
    · rw [if_neg, I.leaf p a w h2 hla]
      intro he
      subst he
      exact h1 (lf_key hla hl)
  · intro p hb
    rw [hK] at hb
    rw [hg, if_neg]
    · exact I.branch p hb
    · rintro rfl
      exact lf_not_br hl hb
  · intro p hb hn
    rw [hK] at hb
    rw [hK] at hn
    rw [hg, if_neg]
    · exact I.none p hb hn
    · rintro rfl
      exact hn k hl
  · intro a p
    rw [hK]
    exact I.leafPath a p
  · intro p hp
    rw [ht] at hp
    rw [ha]
    rcases hp with rfl | hp
    · exact Or.inl (List.prefix_refl _)
    · exact Or.inr (I.sub p hp)
  · intro p hp
    rw [ha] at hp
    rw [ht]
    rcases hp with hp | hp
    · by_cases he : p = lp
      · exact Or.inl (Or.inl he)
      · have hb : Br (Keys kv) p := by
          have h1 := prefix_dropLast hp he
          rcases hl.2.2.2 with h2 | h2
          · subst h2; exact absurd (List.prefix_nil.1 hp) he
          · exact br_prefix h2 h1
        obtain ⟨b, hb⟩ := I.branch p hb
        rcases touched_or hb with h1 | h1
        · exact Or.inl (Or.inr h1)
        · exact Or.inr ⟨b, h1⟩
    · rcases I.pend p hp with h1 | h1
      · exact Or.inl (Or.inr h1)
      · exact Or.inr h1
  · intro p b side hp
    rw [hg] at hp
    by_cases he : p = lp
    · rw [if_pos he] at hp; cases hp
    · rw [if_neg he] at hp
      refine slots_keep I (fun c hc => under_update hc) hl.2.1 (by rw [hK]; exact lf_not_br hl) (fun x hx => (ha x).2 hx)
        (by rw [hK]; exact getNode_branch_inv I hp) hp side
  · intro _
    exact (ha []).2 (Or.inl List.nil_prefix)
  · exact genuine_push I.genuine v
  · intro a w hm hw
    rcases mem_setKV hm with ⟨rfl, rfl⟩ | ⟨_, h2⟩
    · exact Or.inl (stored_push _ hw)
    · exact (I.stored a w h2 hw).imp (fun h => List.mem_append_left _ h) id

end Fastroll.Trie
