import Verif.Trie.InvRemove
namespace Fastroll.Trie
open Spec (KV under)

/-! ### The order of the affected paths -/

theorem deeper_length {p q : Path} (h : deeper p q = true) : q.length ≤ p.length := by
  unfold deeper at h
  by_cases e : p.length = q.length
  · omega
  · rw [if_neg e, decide_eq_true_eq] at h; omega

theorem not_deeper_length {p q : Path} (h : ¬ deeper p q = true) : p.length ≤ q.length := by
  unfold deeper at h
  by_cases e : p.length = q.length
  · omega
  · rw [if_neg e, decide_eq_true_eq] at h; omega

theorem insertPath_perm (p : Path) (ps : List Path) : (insertPath p ps).Perm (p :: ps) := by
  induction ps with
  | nil => exact List.Perm.refl _
  | cons q ps ih =>
    unfold insertPath
    split
    · exact List.Perm.refl _
    · exact (List.Perm.cons q ih).trans (List.Perm.swap p q ps)

/-- Longer paths come first. -/
def Descending (ps : List Path) : Prop := ps.Pairwise fun a b => b.length ≤ a.length

theorem insertPath_desc {p : Path} {ps : List Path} (h : Descending ps) : Descending (insertPath p ps) := by
  induction ps with
  | nil => exact List.pairwise_singleton _ _
  | cons q ps ih =>
    have h' := List.pairwise_cons.1 h
    unfold insertPath
    by_cases hd : deeper p q = true
    · rw [if_pos hd]
      refine List.pairwise_cons.2 ⟨fun x hx => ?_, h⟩
      have hq := deeper_length hd
      rcases List.mem_cons.1 hx with rfl | hx
      · exact hq
      · exact Nat.le_trans (h'.1 x hx) hq
    · rw [if_neg hd]
      refine List.pairwise_cons.2 ⟨fun x hx => ?_, ih h'.2⟩
      rcases List.mem_cons.1 ((insertPath_perm p ps).mem_iff.1 hx) with rfl | hx
      · exact not_deeper_length hd
      · exact h'.1 x hx

theorem sort_spec (l : List Path) : (l.foldr insertPath []).Perm l ∧ Descending (l.foldr insertPath []) := by
  induction l with
  | nil => exact ⟨List.Perm.refl _, List.Pairwise.nil⟩
  | cons p l ih => exact ⟨(insertPath_perm p _).trans (List.Perm.cons p ih.1), insertPath_desc ih.2⟩

theorem nodup_eraseDups' (l : List Path) : l.eraseDups.Nodup := by
  induction hn : l.length using Nat.strongRecOn generalizing l with
  | ind n ih =>
    cases l with
    | nil => exact List.nodup_nil
    | cons a l =>
      rw [List.eraseDups_cons, List.nodup_cons]
      refine ⟨?_, ih _ ?_ _ rfl⟩
      · rw [List.mem_eraseDups, List.mem_filter]
        intro h
        simp at h
      · have := List.length_filter_le (fun b => !b == a) l
        rw [List.length_cons] at hn
        omega

theorem sortedAffected_spec {env : Env} (hfair : env.fair) (cs : ChangeSet) :
    (sortedAffected env cs).Nodup ∧ Descending (sortedAffected env cs) ∧
    ∀ x, x ∈ sortedAffected env cs ↔ x ∈ cs.affected := by
  obtain ⟨h1, h2⟩ := sort_spec (env.ord cs.affected.eraseDups)
  have h3 := h1.trans (hfair cs.affected.eraseDups)
  refine ⟨h3.nodup_iff.2 (nodup_eraseDups' _), h2, fun x => ?_⟩
  unfold sortedAffected
  rw [h3.mem_iff, List.mem_eraseDups]

/-! ### Recomputing the affected nodes -/

/-- The node a path must have. -/
structure Right (H : Bytes → Bytes) (kv : KV) (p : Path) (w : Option Node) : Prop where
  leaf : ∀ k v, (k, v) ∈ kv → Lf (Keys kv) p k → w = some (.leaf (mkLeaf H k v))
  branch : Br (Keys kv) p → ∃ b, w = some (.branch b) ∧ ∀ side, slot b side = slotOf side (hashAt H kv (p ++ [side]))
  none : ¬ Br (Keys kv) p → (∀ k, ¬ Lf (Keys kv) p k) → w = none

theorem branch_ext {b c : Branch} (h : ∀ s, slot b s = slot c s) : b = c := by
  have h1 := h false
  have h2 := h true
  cases b; cases c
  simp only [slot] at h1 h2
  rw [h1, h2]

theorem right_make {H : Bytes → Bytes} {kv : KV} {p : Path} {b : Branch}
    (h : ∀ side, slot b side = slotOf side (hashAt H kv (p ++ [side]))) :
    b = Branch.make (hashAt H kv (p ++ [false])) (hashAt H kv (p ++ [true])) := by
  apply branch_ext
  intro s
  rw [h, slot_make]
  cases s <;> rfl

theorem right_hash {H : Bytes → Bytes} (hH : ∀ x, (H x).length = 32) {kv : KV} (hn : (kv.map (·.1)).Nodup)
    (hf : Flat (Keys kv)) {p : Path} {w : Option Node} (hr : Right H kv p w) (hp : p = [] ∨ Br (Keys kv) p.dropLast) :
    nodeHashOr H w = hashAt H kv p := by
  by_cases hb : Br (Keys kv) p
  · obtain ⟨b, h1, h2⟩ := hr.branch hb
    rw [h1, hashAt_branch hH hn hf hb, ← right_make h2]
    rfl
  · by_cases hl : ∃ k, Lf (Keys kv) p k
    · obtain ⟨k, hl⟩ := hl
      obtain ⟨v, hv⟩ := mem_of_keys hl.1
      rw [hr.leaf k v hv hl, hashAt_leaf hH hn hf hv hl]
      rfl
    · rw [hr.none hb fun k h => hl ⟨k, h⟩, hashAt_none]
      · rfl
      · intro k hk hpk
        rcases node_exists hp hk hpk with h | h
        · exact hb h
        · exact hl ⟨k, h⟩

/-- The state of the recomputation: `done` paths are written. -/
structure Proc (H : Bytes → Bytes) (kv : KV) (cs0 cs : ChangeSet) (done : List Path) : Prop where
  rest : ∀ x, x ∉ done → get cs.nodes x = get cs0.nodes x
  writes : ∀ x w, (x, w) ∈ cs.nodeWrites → Right H kv x w ∧ get cs.nodes x = some w
  keys : cs.nodeWrites.map (·.1) = done
  leafPaths : cs.leafPaths = cs0.leafPaths
  stateWrites : cs.stateWrites = cs0.stateWrites

theorem proc_push {H : Bytes → Bytes} {kv : KV} {cs0 cs cs' : ChangeSet} {done : List Path} {p : Path} {w : Option Node}
    (P : Proc H kv cs0 cs done) (hp : p ∉ done) (hr : Right H kv p w)
    (h1 : ∀ x, x ≠ p → get cs'.nodes x = get cs.nodes x) (h2 : get cs'.nodes p = some w)
    (h3 : cs'.nodeWrites = cs.nodeWrites ++ [(p, w)]) (h4 : cs'.leafPaths = cs.leafPaths)
    (h5 : cs'.stateWrites = cs.stateWrites) : Proc H kv cs0 cs' (done ++ [p]) := by
  refine ⟨?_, ?_, ?_, h4.trans P.leafPaths, h5.trans P.stateWrites⟩
  · intro x hx
    rw [List.mem_append, List.mem_singleton] at hx
    rw [h1 x fun e => hx (Or.inr e), P.rest x fun e => hx (Or.inl e)]
  · intro x w' hx
    rw [h3, List.mem_append, List.mem_singleton] at hx
    rcases hx with hx | hx
    · have := P.writes x w' hx
      have hxp : x ≠ p := by
        rintro rfl
        apply hp
        rw [← P.keys]
        exact List.mem_map.2 ⟨_, hx, rfl⟩
      exact ⟨this.1, by rw [h1 x hxp]; exact this.2⟩
    · injection hx with e1 e2
      subst e1 e2
      exact ⟨hr, h2⟩
  · rw [h3, List.map_append, P.keys]; rfl

theorem slot_refresh (H : Bytes → Bytes) (cs : ChangeSet) (p : Path) (b : Branch) (s : Bool) :
    slot (refreshRight H cs p (refreshLeft H cs p b)) s =
      match get cs.nodes (p ++ [s]) with
      | some w => slotOf s (nodeHashOr H w)
      | none => slot b s := by
  unfold refreshRight refreshLeft
  cases s with
  | false =>
    cases h1 : get cs.nodes (p ++ [false]) <;> cases h2 : get cs.nodes (p ++ [true]) <;> rfl
  | true =>
    cases h1 : get cs.nodes (p ++ [false]) <;> cases h2 : get cs.nodes (p ++ [true]) <;> rfl

theorem processPath_spec {H : Bytes → Bytes} (hH : ∀ x, (H x).length = 32) {db : Db} {sdb : List (Bytes × Bytes)} {cs0 cs : ChangeSet}
    {kv : KV} {done : List Path} {p : Path} (I : Inv H db sdb cs0 kv) (P : Proc H kv cs0 cs done) (hp : p ∈ cs0.affected)
    (hnd : p ∉ done) (hdeep : ∀ x ∈ cs0.affected, p.length < x.length → x ∈ done) :
    ∃ cs', processPath H db cs p = .ok cs' ∧ Proc H kv cs0 cs' (done ++ [p]) := by
  have hget := P.rest p hnd
  have hnode : getNode db cs p = getNode db cs0 p := by unfold getNode; rw [hget]
  -- the branch case
  have hbranch : ∀ b, getNode db cs0 p = some (.branch b) →
      ∃ cs', rebuildBranch H db cs p = .ok cs' ∧ Proc H kv cs0 cs' (done ++ [p]) := by
    intro b hb
    have hbr := getNode_branch_inv I hb
    have hlen := br_length I.flat hbr
    unfold rebuildBranch
    rw [hnode, hb]
    dsimp only
    rw [if_neg (by unfold nodeSizeBits; unfold keyBits at hlen; omega)]
    refine ⟨_, rfl, proc_push P hnd ?_ ?_ ?_ rfl rfl rfl⟩
    · refine ⟨fun k v _ hl => absurd hbr (lf_not_br hl), fun _ => ⟨_, rfl, fun side => ?_⟩, fun h => absurd hbr h⟩
      rw [slot_refresh]
      have hcl : p.length < (p ++ [side]).length := by rw [List.length_append, List.length_singleton]; omega
      cases hc : get cs.nodes (p ++ [side]) with
      | some w =>
        dsimp only
        have hcd : p ++ [side] ∈ done := by
          by_cases h : p ++ [side] ∈ done
          · exact h
          · rw [P.rest _ h] at hc
            exact hdeep _ (I.sub _ ⟨w, hc⟩) hcl
        have hcd' := hcd
        rw [← P.keys] at hcd
        obtain ⟨⟨x, w'⟩, hx, hxe⟩ := List.mem_map.1 hcd
        dsimp only at hxe
        subst hxe
        obtain ⟨hr, hg⟩ := P.writes _ _ hx
        rw [hc] at hg
        injection hg with hg
        subst hg
        rw [right_hash hH I.nodup I.flat hr (Or.inr (by rw [dropLast_append_one]; exact hbr))]
      | none =>
        dsimp only
        have hnaff : p ++ [side] ∉ cs0.affected := by
          intro h
          have hcd := hdeep _ h hcl
          rw [← P.keys] at hcd
          obtain ⟨⟨x, w'⟩, hx, hxe⟩ := List.mem_map.1 hcd
          dsimp only at hxe
          subst hxe
          rw [(P.writes _ _ hx).2] at hc
          cases hc
        exact (I.slots p b side hb).resolve_left hnaff
    · intro x hx
      show get (hmPut cs.nodes p _) x = _
      rw [get_hmPut, if_neg hx]
    · show get (hmPut cs.nodes p _) p = _
      rw [get_hmPut, if_pos rfl]
  unfold processPath
  rw [hget]
  cases hc : get cs0.nodes p with
  | none =>
    dsimp only
    rcases I.pend p hp with ⟨w, h⟩ | ⟨b, h⟩
    · rw [hc] at h; cases h
    · exact hbranch b (by unfold getNode; rw [hc]; exact h)
  | some w =>
    have hgw : getNode db cs0 p = w := by unfold getNode; rw [hc]
    cases w with
    | none =>
      dsimp only
      refine ⟨_, rfl, proc_push P hnd ?_ (fun _ _ => rfl) (hget.trans hc) rfl rfl rfl⟩
      have := getNode_none_inv I hgw
      exact ⟨fun k _ _ hl => absurd hl (this.2 k), fun h => absurd h this.1, fun _ _ => rfl⟩
    | some n =>
      cases n with
      | leaf l =>
        dsimp only
        refine ⟨_, rfl, proc_push P hnd ?_ (fun _ _ => rfl) (hget.trans hc) rfl rfl rfl⟩
        obtain ⟨k, v, hv, hl, he⟩ := getNode_leaf_inv I hgw
        refine ⟨fun k' v' hv' hl' => ?_, fun h => absurd h (lf_not_br hl), fun _ h => absurd hl (h k)⟩
        rw [← hgw, I.leaf p k' v' hv' hl']
      | branch b => exact hbranch b hgw

theorem processPaths_spec {H : Bytes → Bytes} (hH : ∀ x, (H x).length = 32) {db : Db} {sdb : List (Bytes × Bytes)} {cs0 : ChangeSet}
    {kv : KV} (I : Inv H db sdb cs0 kv) (ps : List Path) : ∀ {cs : ChangeSet} {done : List Path}, Proc H kv cs0 cs done →
    (done ++ ps).Nodup → Descending ps → (∀ x, x ∈ cs0.affected ↔ x ∈ done ++ ps) →
    ∃ cs', processPaths H db cs ps = (.ok (), cs') ∧ Proc H kv cs0 cs' (done ++ ps) := by
  induction ps with
  | nil =>
    intro cs done P _ _ _
    exact ⟨cs, rfl, by rw [List.append_nil]; exact P⟩
  | cons p ps ih =>
    intro cs done P hn hd haff
    have hd' := List.pairwise_cons.1 hd
    have hpd : p ∉ done := fun h => by
      rw [List.nodup_append] at hn
      exact hn.2.2 p h p List.mem_cons_self rfl
    obtain ⟨cs1, e1, P1⟩ := processPath_spec hH I P ((haff p).2 (List.mem_append_right _ List.mem_cons_self)) hpd (by
      intro x hx hlen
      rcases List.mem_append.1 ((haff x).1 hx) with h | h
      · exact h
      · rcases List.mem_cons.1 h with rfl | h
        · omega
        · have := hd'.1 x h; omega)
    have happ : done ++ p :: ps = done ++ [p] ++ ps := by rw [List.append_assoc]; rfl
    rw [happ] at hn ⊢
    obtain ⟨cs2, e2, P2⟩ := ih P1 hn hd'.2 (fun x => by rw [haff, happ])
    refine ⟨cs2, ?_, P2⟩
    unfold processPaths
    rw [e1]
    exact e2

/-! ### Every change affects the root -/

theorem addBranches_affected (H : Bytes → Bytes) (db : Db) (n fuel : Nat) : ∀ (cs : ChangeSet) (bp : Path) (l r : Bytes),
    (addBranches H db n fuel cs bp l r).affected = cs.affected := by
  induction fuel with
  | zero => intros; rfl
  | succ fuel ih =>
    intro cs bp l r
    unfold addBranches
    split
    · rfl
    · dsimp only
      split
      · rfl
      · split
        · rw [ih]; rfl
        · rw [ih]; rfl

theorem nil_mem_affect (cs : ChangeSet) (p : Path) : [] ∈ (cs.affect p).affected := (mem_affect cs p []).2 (Or.inl List.nil_prefix)

theorem entry_affects {env : Env} {db : Db} {cs cs' : ChangeSet} {e : Entry} (h : insertEntry env db cs e = .ok cs') :
    [] ∈ cs'.affected := by
  unfold insertEntry at h
  cases hk : e.kind with
  | add =>
    rw [hk] at h
    dsimp only at h
    unfold addEntry at h
    split at h
    · cases h
    · unfold addBelowBranch at h
      split at h
      · injection h with h; rw [← h]; exact nil_mem_affect _ _
      · cases h
    · unfold splitLeaf at h
      split at h
      · cases h
      · dsimp only at h
        split at h
        · cases h
        · split at h
          · injection h with h
            rw [← h]
            unfold ChangeSet.pushState ChangeSet.setLeaf
            dsimp only
            split
            · rw [addBranches_affected]; exact List.mem_cons_of_mem _ (nil_mem_affect _ _)
            · rw [addBranches_affected]; exact List.mem_cons_of_mem _ (nil_mem_affect _ _)
          · cases h
    · injection h with h; rw [← h]; exact nil_mem_affect _ _
  | update =>
    rw [hk] at h
    dsimp only at h
    unfold updateEntry at h
    split at h
    · cases h
    · injection h with h; rw [← h]; exact nil_mem_affect _ _
  | remove =>
    rw [hk] at h
    dsimp only at h
    unfold removeEntry at h
    split at h
    · cases h
    · split at h
      · cases h
      · split at h
        · cases h
        · injection h with h; rw [← h]; exact nil_mem_affect _ _
        · unfold removeBesideLeaf at h
          split at h
          · cases h
          · dsimp only at h
            split at h
            · injection h with h
              rw [← h]
              show [] ∈ (List.foldl (fun (cs : ChangeSet) p => cs.setNode p none) _ _).affected
              rw [(collapse_fields _ _).1]
              exact List.mem_cons_of_mem _ (nil_mem_affect _ _)
            · cases h

end Fastroll.Trie
