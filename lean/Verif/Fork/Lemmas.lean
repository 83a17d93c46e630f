import Verif.Fork.Spec
import Verif.Chain.Lemmas

/-!
# Lemmas for the fuzzing target
-/
namespace Fastroll.Fork
open Fastroll.Wire Fastroll.Chain Fastroll.Chain.Paper Fastroll.Fork.Paper

variable {K V ρ : Type} [DecidableEq K]

/-! ## Sets of keys -/

theorem mem_insertKey {ks : List K} {k x : K} : x ∈ insertKey ks k ↔ x = k ∨ x ∈ ks := by
  unfold insertKey
  split
  · rename_i h
    constructor
    · exact .inr
    · rintro (rfl | h')
      · exact h
      · exact h'
  · exact List.mem_cons

theorem nodup_insertKey {ks : List K} (h : ks.Nodup) (k : K) : (insertKey ks k).Nodup := by
  unfold insertKey
  split
  · exact h
  · exact List.nodup_cons.2 ⟨by assumption, h⟩

theorem mem_removeKey {ks : List K} {k x : K} : x ∈ removeKey ks k ↔ x ∈ ks ∧ x ≠ k := by
  simp [removeKey, List.mem_filter]

theorem nodup_removeKey {ks : List K} (h : ks.Nodup) (k : K) : (removeKey ks k).Nodup := h.filter _

theorem mem_insertKeys (l ks : List K) (x : K) : x ∈ l.foldl insertKey ks ↔ x ∈ ks ∨ x ∈ l := by
  induction l generalizing ks with
  | nil => simp
  | cons a l ih =>
    rw [List.foldl_cons, ih, mem_insertKey, List.mem_cons]
    constructor
    · rintro ((h | h) | h)
      · exact .inr (.inl h)
      · exact .inl h
      · exact .inr (.inr h)
    · rintro (h | h | h)
      · exact .inl (.inr h)
      · exact .inl (.inl h)
      · exact .inr h

theorem nodup_insertKeys (l ks : List K) (h : ks.Nodup) : (l.foldl insertKey ks).Nodup := by
  induction l generalizing ks with
  | nil => exact h
  | cons a l ih => exact ih _ (nodup_insertKey h a)

theorem mem_removeKeys (l ks : List K) (x : K) : x ∈ l.foldl removeKey ks ↔ x ∈ ks ∧ x ∉ l := by
  induction l generalizing ks with
  | nil => simp
  | cons a l ih =>
    rw [List.foldl_cons, ih, mem_removeKey, List.mem_cons, not_or, and_assoc]

theorem nodup_removeKeys (l ks : List K) (h : ks.Nodup) : (l.foldl removeKey ks).Nodup := by
  induction l generalizing ks with
  | nil => exact h
  | cons a l ih => exact ih _ (nodup_removeKey h a)

theorem mem_applyChanges (ks : List K) (c : Changes K) (x : K) :
    x ∈ applyChanges ks c ↔ (x ∈ ks ∨ x ∈ c.added) ∧ x ∉ c.removed := by
  rw [applyChanges, mem_removeKeys, mem_insertKeys]

theorem nodup_applyChanges {ks : List K} (h : ks.Nodup) (c : Changes K) : (applyChanges ks c).Nodup :=
  nodup_removeKeys _ _ (nodup_insertKeys _ _ h)

theorem mem_deltaKeys (ks : List K) (d : Delta K V) (x : K) :
    x ∈ deltaKeys ks d ↔ (deltaGet d x = none ∧ x ∈ ks) ∨ ∃ v, deltaGet d x = some (some v) := by
  induction d with
  | nil => simp [deltaKeys, deltaGet]
  | cons e d ih =>
    obtain ⟨k, o⟩ := e
    cases o with
    | none =>
      simp only [deltaKeys, mem_removeKey, deltaGet, ih]
      by_cases h : x = k <;> simp [h]
    | some v =>
      simp only [deltaKeys, mem_insertKey, deltaGet, ih]
      by_cases h : x = k <;> simp [h]

theorem nodup_deltaKeys {ks : List K} (h : ks.Nodup) (d : Delta K V) : (deltaKeys ks d).Nodup := by
  induction d with
  | nil => exact h
  | cons e d ih =>
    obtain ⟨k, o⟩ := e
    cases o with
    | none => exact nodup_removeKey ih k
    | some v => exact nodup_insertKey ih k

theorem over_get (d : Delta K V) (s : St K V) (x : K) : over d s x = (deltaGet d x).getD (s x) := by
  induction d with
  | nil => rfl
  | cons e d ih =>
    obtain ⟨k, o⟩ := e
    simp only [over, deltaGet]
    by_cases h : x = k <;> simp [h, ih]

theorem collectKey_some (n : Node K V ρ) (d : Delta K V) (k x : K) (v : V) :
    collectKey n d k = some (x, v) ↔ x = k ∧ over d n.view k = some v := by
  rw [over_get]
  unfold collectKey
  cases deltaGet d k with
  | none =>
    cases n.view k with
    | none => simp
    | some w => simp [eq_comm]
  | some o =>
    cases o with
    | none => simp
    | some w => simp [eq_comm]

/-- What is collected from a set of keys that covers the state is the state. -/
theorem collect_lists (n : Node K V ρ) {ks : List K} (d : Delta K V) (h : ks.Nodup) (hc : ∀ k, over d n.view k ≠ none → k ∈ ks) :
    Lists (collect n ks d) (over d n.view) := by
  have hm : ∀ k v, (k, v) ∈ collect n ks d ↔ k ∈ ks ∧ over d n.view k = some v := by
    intro k v
    simp only [collect, List.mem_filterMap, collectKey_some]
    constructor
    · rintro ⟨a, ha, rfl, e⟩; exact ⟨ha, e⟩
    · rintro ⟨ha, e⟩; exact ⟨k, ha, rfl, e⟩
  refine ⟨?_, fun k v => ?_⟩
  · clear hm hc
    unfold collect
    induction ks with
    | nil => simp
    | cons a ks ih =>
      obtain ⟨h1, h2⟩ := List.nodup_cons.1 h
      rw [List.filterMap_cons]
      split
      · exact ih h2
      · rename_i e he
        obtain ⟨x, v⟩ := e
        have hx := (collectKey_some n d a x v).1 he
        rw [List.map_cons, List.nodup_cons]
        refine ⟨?_, ih h2⟩
        rw [List.mem_map]
        rintro ⟨⟨y, w⟩, hy, hyx⟩
        obtain ⟨z, hz, he'⟩ := List.mem_filterMap.1 hy
        have := (collectKey_some n d z y w).1 he'
        simp only at hyx
        apply h1
        rw [← hx.1, ← hyx, this.1]
        exact hz
  · rw [hm]
    constructor
    · exact fun h => h.2
    · intro e
      exact ⟨hc k (by rw [e]; exact Option.some_ne_none v), e⟩

/-! ## The tree -/

/-- A staged block stands for a child of the finalised point. -/
structure Rel (W : World K V ρ) (hs : List Header) (fin : Point K V ρ) (roots : List (Bytes × Bytes)) (h : Bytes)
    (s : Staged K V ρ) (p : Point K V ρ) : Prop where
  header : p.header = s.header
  hash : hh W p.header = h
  st : p.st = over (s.artifact.getD []) fin.st
  ring : p.ring = s.ring
  anc : p.anc = (p.header.slot, h) :: fin.anc
  root : find roots h = some (W.root p.st)
  ok : Wire.Spec.HeaderOk W.P p.header
  later : fin.header.slot < p.header.slot
  mem : p.header ∈ hs

/-- The target is at the tree. -/
structure Holds (W : World K V ρ) (hs : List Header) (t : Target K V ρ) (f : Tree K V ρ) : Prop where
  node : At W t.node f.fin
  latest : t.latest = hh W f.fin.header
  lastFin : t.lastFin = some (hh W f.fin.header)
  mem : f.fin.header ∈ hs
  staged : ∀ h, (find t.staged h = none ∧ find f.staged h = none) ∨
    ∃ s p, find t.staged h = some s ∧ find f.staged h = some p ∧ Rel W hs f.fin t.node.roots h s p
  noStage : t.forking = false → t.staged = []

/-- The keys cover the finalised state, and what was reported covers the staged ones. -/
structure HoldsKeys (t : Target K V ρ) (f : Tree K V ρ) : Prop where
  nodup : t.keys.Nodup
  cover : ∀ k, f.fin.st k ≠ none → k ∈ t.keys
  tracks : ∀ h s p, find t.staged h = some s → find f.staged h = some p → Tracks s.changes f.fin.st p.st

theorem finalize_feat (t : Target K V ρ) (x : Bytes) :
    (finalize t x).withAnc = t.withAnc ∧ (finalize t x).forking = t.forking := by
  unfold finalize
  split <;> exact ⟨rfl, rfl⟩

theorem finalize_holds {W : World K V ρ} {hs : List Header} {t : Target K V ρ} {f : Tree K V ρ} (h : Holds W hs t f)
    (x : Bytes) : Holds W hs (finalize t x) (settle f x) ∧ (HoldsKeys t f → HoldsKeys (finalize t x) (settle f x)) := by
  unfold finalize settle
  rcases h.staged x with ⟨h1, h2⟩ | ⟨s, p, h1, h2, hr⟩
  · rw [h1, h2]
    exact ⟨h, id⟩
  · rw [h1, h2]
    refine ⟨⟨⟨?_, h.node.dirty, hr.ring.symm, hr.header.symm, ?_, ?_, hr.ok⟩, hr.hash.symm, ?_, hr.mem, ?_, fun _ => rfl⟩,
      fun hk => ⟨nodup_applyChanges hk.nodup _, ?_, ?_⟩⟩
    · simp only [commitStaged, h.node.db, hr.st]
    · simp only [commitStaged, h.node.anc, hr.anc, hr.header]
    · rw [hr.hash]; exact hr.root
    · simp only [hr.hash]
    · intro y; exact .inl ⟨rfl, rfl⟩
    · intro k hne
      rw [mem_applyChanges]
      obtain ⟨a, b⟩ := hk.tracks x s p h1 h2 k hne
      refine ⟨?_, b⟩
      rcases a with a | a
      · exact .inl (hk.cover k a)
      · exact .inr a
    · intro y s p e; cases e

/-- The artifact of a staged block. -/
def artifactOf (d : Delta K V) : Option (Delta K V) := match d with | [] => none | e :: d => some (e :: d)

/-- The import in the staging mode, answered by the specification. -/
theorem stage_cases (W : World K V ρ) (clock : Option Nat) (wa : Bool) (n : Node K V ρ) (p : Point K V ρ) (b : Block)
    (ha : At W n p) (hok : Wire.Spec.BlockOk W.P b) (hz : b.header.parent ≠ zeroHash) :
    (∃ q d r c art, Body W wa p.st p.ring p.anc b d r c ∧ q.st = over d p.st ∧ Extends W wa (timeOk clock) p b q ∧
      q.st = over (Option.getD art []) p.st ∧
      importBlock W clock wa .stageOnly n b = ({ n with ring := q.ring }, .ok ⟨W.root q.st, c, art⟩)) ∨
    ∃ d r e, importBlock W clock wa .stageOnly n b = ({ n with dirty := d, ring := r }, .error e) ∧
      ¬ ∃ q, Extends W wa (timeOk clock) p b q := by
  have hg := notGenesis hz
  have hbest : Wire.Spec.HeaderOk W.P n.best := ha.best ▸ ha.headerOk
  unfold importBlock
  simp only [hash_ok hok.header, validate, hg, Bool.false_eq_true, if_false]
  cases hc : checkPrior W clock n b with
  | error e =>
    right
    refine ⟨n.dirty, n.ring, e, rfl, ?_⟩
    rintro ⟨q, hq⟩
    have : checkPrior W clock n b = .ok () := by
      rw [checkPrior_ok W clock n hok hbest, ha.best]
      refine ⟨hq.later, hq.time, hq.parent, ?_, hq.xt⟩
      rw [hq.parent, hq.root]
      exact ha.root
    rw [hc] at this; cases this
  | ok u =>
    cases u
    rw [checkPrior_ok W clock n hok hbest, ha.best] at hc
    obtain ⟨c1, c2, c3, c4, c5⟩ := hc
    rw [c3, ha.root] at c4
    simp only [runStf]
    rcases exec_cases W wa n b ha.dirty hok hg with ⟨d, r, c, he, hb⟩ | ⟨d, r, e, he, hb⟩
    · left
      rw [ha.db, ha.ring, ha.anc] at hb
      have hd := ha.dirty
      have hdb := ha.db
      refine ⟨⟨b.header, over d p.st, r, (b.header.slot, hh W b.header) :: p.anc⟩, d, r, c,
        artifactOf d, hb, rfl,
        ⟨c3, c1, c2, (Option.some.inj c4).symm, c5, ⟨d, r, c, hb, rfl, rfl⟩, rfl, rfl⟩, ?_, ?_⟩
      · cases d <;> rfl
      · rw [he]
        obtain ⟨n1, n2, n3, n4, n5, n6, n7⟩ := n
        simp only at hd hdb
        subst hd hdb
        cases d <;> rfl
    · right
      rw [he]
      refine ⟨d, r, e, rfl, ?_⟩
      rintro ⟨q, hq⟩
      obtain ⟨d', r', c', hb', _⟩ := hq.body
      rw [ha.db, ha.ring, ha.anc] at hb
      exact hb ⟨d', r', c', hb'⟩

theorem timeOk_none : timeOk none = fun _ => True := by
  funext s
  simp [timeOk]

/-- The headers in play have different hashes. -/
def Distinct (W : World K V ρ) (hs : List Header) : Prop := ∀ a ∈ hs, ∀ b ∈ hs, hh W a = hh W b → a = b

theorem import_step {W : World K V ρ} {hs : List Header} {t : Target K V ρ} {f : Tree K V ρ} (hd : Distinct W hs)
    (h : Holds W hs t f) (b : Block) (hok : Wire.Spec.BlockOk W.P b) (hz : b.header.parent ≠ zeroHash) (hm : b.header ∈ hs) :
    (∃ r f', (importMsg W t b).2 = .root r ∧ Step W t.withAnc t.forking f b (some r) f' ∧
      Holds W hs (importMsg W t b).1 f' ∧ (Reports W t.withAnc → HoldsKeys t f → HoldsKeys (importMsg W t b).1 f')) ∨
    ∃ e, (importMsg W t b).2 = .error e ∧ Step W t.withAnc t.forking f b none (settle f b.header.parent) ∧
      (importMsg W t b).1 = finalize t b.header.parent := by
  obtain ⟨h1, hk1⟩ := finalize_holds h b.header.parent
  obtain ⟨f1, f2⟩ := finalize_feat t b.header.parent
  have hst : ∀ q, Step W t.withAnc t.forking f b q = Step W (finalize t b.header.parent).withAnc (finalize t b.header.parent).forking f b q := by
    intro q; rw [f1, f2]
  have hT : (finalize t b.header.parent).node.dirty = [] := h1.node.dirty
  unfold importMsg
  rw [hash_ok hok.header]
  simp only [f1]
  simp only [hst]
  have hg := notGenesis hz
  generalize hT' : finalize t b.header.parent = T at *
  generalize hF' : settle f b.header.parent = F at *
  by_cases hmode : commitMode T b = .stageOnly
  · rw [hmode]
    have hfork : T.forking = true := by
      unfold commitMode at hmode
      cases hh' : T.forking
      · rw [hh'] at hmode; simp at hmode
      · rfl
    rcases stage_cases W none t.withAnc T.node F.fin b h1.node hok hz with ⟨q, d, r, c, art, hb, hqd, hq, hqa, he⟩ | ⟨d, r, e, he, hq⟩
    · left
      rw [he]
      rw [timeOk_none] at hq
      refine ⟨W.root q.st, ⟨F.fin, (hh W b.header, q) :: F.staged⟩, rfl, ?_, ?_, ?_⟩
      · have := Step.child (W := W) (wa := t.withAnc) (forking := T.forking) (f := f) (b := b) q hfork (by rw [hF']; exact hq)
        rw [hF'] at this
        rw [← f1] at this
        exact this
      · have hne : hh W b.header ≠ hh W F.fin.header := by
          intro e
          have := hd _ hm _ h1.mem e
          have := hq.later
          rw [‹b.header = _›] at this
          omega
        refine ⟨⟨h1.node.db, h1.node.dirty, h1.node.ring, h1.node.best, h1.node.anc, ?_, h1.node.headerOk⟩, h1.latest, h1.lastFin,
          h1.mem, ?_, ?_⟩
        · simp only [succeed, Node.setRoot, find]
          rw [if_neg (fun e => hne e.symm)]
          exact h1.node.root
        · intro x
          simp only [succeed, Node.setRoot, find]
          by_cases hx : x = hh W b.header
          · right
            rw [if_pos hx, if_pos hx]
            refine ⟨_, q, rfl, rfl, ⟨hq.header, ?_, hqa, rfl, ?_, ?_, ?_, ?_, ?_⟩⟩
            · rw [hq.header, hx]
            · rw [hq.anc, hq.header, hx]
            · simp only [find]; rw [if_pos hx]
            · rw [hq.header]; exact hok.header
            · rw [hq.header]; exact hq.later
            · rw [hq.header]; exact hm
          · rw [if_neg hx, if_neg hx]
            rcases h1.staged x with a | ⟨s, p, a1, a2, hr⟩
            · exact .inl a
            · refine .inr ⟨s, p, a1, a2, ⟨hr.header, hr.hash, hr.st, hr.ring, hr.anc, ?_, hr.ok, hr.later, hr.mem⟩⟩
              simp only [find]
              rw [if_neg hx]
              exact hr.root
        · intro hf
          simp only [succeed] at hf
          rw [hfork] at hf; cases hf
      · intro hrep hk
        obtain ⟨k1, k2, k3⟩ := hk1 hk
        refine ⟨k1, k2, ?_⟩
        intro x s p e1 e2
        simp only [succeed, find] at e1 e2
        by_cases hx : x = hh W b.header
        · rw [if_pos hx] at e1 e2
          cases e1; cases e2
          simp only
          rw [hqd]
          exact hrep _ _ _ _ _ _ _ hb
        · rw [if_neg hx] at e1 e2
          exact k3 x s p e1 e2
    · right
      rw [he]
      rw [timeOk_none] at hq
      refine ⟨e, rfl, ?_, ?_⟩
      · rw [← hF']
        exact .reject (by rw [hF', f1]; exact hq)
      · obtain ⟨⟨n1, n2, n3, n4, n5, n6, n7⟩, a2, a3, a4, a5, a6, a7, a8⟩ := T
        simp only at hT f1
        subst hT f1
        rfl
  · have hmode' : commitMode T b = .immediate := by
      cases hc : commitMode T b
      · rfl
      · exact absurd hc hmode
    rw [hmode']
    rcases import_cases W none t.withAnc T.node F.fin b h1.node hok hz with ⟨q, d, r, c, hb, hq, he⟩ | ⟨d, r, e, he, hq⟩
    · left
      rw [timeOk_none] at hq
      have hfork : T.forking = false := by
        unfold commitMode at hmode
        cases hh' : T.forking
        · rfl
        · rw [hh', hg, h1.lastFin, hq.parent] at hmode
          simp at hmode
      have hs0 := h1.noStage hfork
      have hF0 : ∀ x, find F.staged x = none := by
        intro x
        rcases h1.staged x with ⟨_, a⟩ | ⟨s, p, a, _⟩
        · exact a
        · rw [hs0] at a; cases a
      rw [he]
      refine ⟨W.root q.st, ⟨q, F.staged⟩, rfl, ?_, ?_, ?_⟩
      · have := Step.next (W := W) (wa := t.withAnc) (forking := T.forking) (f := f) (b := b) q hfork (by rw [hF']; exact hq)
        rw [hF'] at this
        rw [← f1] at this
        exact this
      · have hat := at_next h1.node hok.header hq
        refine ⟨hat, ?_, ?_, ?_, ?_, ?_⟩
        · simp only [succeed, hq.header]
        · simp only [succeed, hq.header]
        · rw [hq.header]; exact hm
        · intro x
          left
          exact ⟨by simp only [succeed, hs0, find], hF0 x⟩
        · intro _; exact hs0
      · intro hrep hk
        obtain ⟨k1, k2, k3⟩ := hk1 hk
        have hqd : q.st = over d F.fin.st := by
          obtain ⟨d', r', c', hb', e1, _⟩ := hq.body
          rw [(body_inj hb hb').1]; exact e1
        refine ⟨nodup_applyChanges k1 _, ?_, ?_⟩
        · intro k hne
          simp only [succeed]
          rw [mem_applyChanges]
          have := hrep _ _ _ _ _ _ _ hb k (by rw [← hqd]; exact hne)
          refine ⟨?_, this.2⟩
          rcases this.1 with a | a
          · exact .inl (k2 k a)
          · exact .inr a
        · intro x s p e1
          simp only [succeed, hs0, find] at e1
          cases e1
    · right
      rw [he]
      rw [timeOk_none] at hq
      refine ⟨e, rfl, ?_, ?_⟩
      · rw [← hF']
        exact .reject (by rw [hF', f1]; exact hq)
      · obtain ⟨⟨n1, n2, n3, n4, n5, n6, n7⟩, a2, a3, a4, a5, a6, a7, a8⟩ := T
        simp only at hT f1
        subst hT f1
        rfl

end Fastroll.Fork
