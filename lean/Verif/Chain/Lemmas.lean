import Verif.Wire.Lemmas3
import Verif.Wire.Props
import Verif.Chain.Spec

/-! Lemmas for the import of blocks. -/
namespace Fastroll.Chain
open Fastroll.Wire Fastroll.Chain.Paper

variable {K V ρ : Type} [DecidableEq K]

theorem over_append (a b : Delta K V) (s : St K V) : over (a ++ b) s = over a (over b s) := by
  induction a with
  | nil => rfl
  | cons e a ih =>
    obtain ⟨k, v⟩ := e
    simp only [List.cons_append, over, ih]

theorem x_t : ascii "jam_ticket_seal" = X_T := by decide +kernel
theorem x_f : ascii "jam_fallback_seal" = X_F := by decide +kernel
theorem x_e : ascii "jam_entropy" = X_E := by decide +kernel

theorem encData_ok {P : Params} {h : Header} (hok : Spec.HeaderOk P h) : Header.encData h = .ok (Spec.unsealed h) := by
  have := (header_codes P h hok).1
  simp only [Header.enc, Spec.header] at this
  cases he : Header.encData h with
  | error e => simp [he, cat] at this
  | ok x =>
    simp only [he, cat, arrEnc, Except.ok.injEq, List.append_cancel_right_eq] at this
    rw [this]

theorem hash_ok {W : World K V ρ} {h : Header} (hok : Spec.HeaderOk W.P h) : Header.hash W.H h = .ok (hh W h) := by
  have := (header_codes W.P h hok).1
  simp [Header.hash, hashOf, this, hh]

theorem also_ok (a b : Except ImpErr Unit) : also a b = .ok () ↔ a = .ok () ∧ b = .ok () := by
  cases a with
  | error e => simp [also]
  | ok u => simp [also]

theorem checkSeal_ok (W : World K V ρ) {h : Header} (hok : Spec.HeaderOk W.P h) (s : Sealer) (key eta3 : Bytes) :
    checkSeal W h s key eta3 = .ok () ↔ Sealed W h key eta3 s := by
  cases s with
  | ticket t =>
    simp only [checkSeal, sealInput, Sealed, x_t]
    by_cases ho : W.outHash h.sealSig = some t.id
    · simp only [ho, if_true, encData_ok hok, true_and]
      cases W.verify (X_T ++ eta3 ++ [UInt8.ofNat t.attempt]) (Spec.unsealed h) h.sealSig key <;> simp
    · simp [ho]
  | key k =>
    simp only [checkSeal, sealInput, Sealed, x_f]
    by_cases ho : k = key
    · subst ho
      simp only [if_true, encData_ok hok, true_and]
      cases W.verify (X_F ++ eta3) (Spec.unsealed h) h.sealSig k <;> simp
    · simp [ho]

theorem checkVrf_ok (W : World K V ρ) (h : Header) (key : Bytes) : checkVrf W h key = .ok () ↔ Entropy W h key := by
  simp only [checkVrf, Entropy, x_e]
  cases W.outHash h.sealSig with
  | none => simp
  | some o =>
    simp only [Option.some.injEq, exists_eq_left']
    cases W.verify (X_E ++ o) [] h.vrf key <;> simp

theorem checkMarkers_ok (h : Header) (m : Markers) : checkMarkers h m = .ok () ↔ Marked h m := by
  unfold checkMarkers Marked
  by_cases h1 : h.epochMarker = m.epoch <;> by_cases h2 : h.winners = m.winners <;>
    by_cases h3 : h.offenders = m.offenders <;> simp [h1, h2, h3]

theorem checkPost_ok (W : World K V ρ) {h : Header} (hok : Spec.HeaderOk W.P h) (v : St K V) (m : Markers) :
    checkPost W v h m = .ok () ↔ Signed W h v ∧ Marked h m := by
  simp only [checkPost, Signed]
  cases W.authorKey v h.author with
  | none => simp
  | some key =>
    simp only [also_ok, checkSeal_ok W hok, checkVrf_ok, checkMarkers_ok, Option.some.injEq, exists_eq_left', and_assoc]

/-- The condition on the clock that the code checks. -/
def timeOk (clock : Option Nat) (slot : Nat) : Prop := ∀ now, clock = some now → inFuture slot now = false

theorem checkSlot_ok (clock : Option Nat) (best : Header) (b : Block) :
    checkSlot clock best b = .ok () ↔ best.slot < b.header.slot ∧ timeOk clock b.header.slot := by
  unfold checkSlot timeOk
  by_cases h : b.header.slot ≤ best.slot
  · rw [if_pos h]
    constructor
    · intro e; cases e
    · intro ⟨h', _⟩; omega
  · rw [if_neg h]
    cases clock with
    | none => simp; omega
    | some now =>
      cases hf : inFuture b.header.slot now with
      | true => simp [hf]
      | false => simp [hf]; omega

theorem checkParent_ok (W : World K V ρ) {best : Header} (hok : Spec.HeaderOk W.P best) (b : Block) :
    checkParent W best b = .ok () ↔ b.header.parent = hh W best := by
  simp only [checkParent, hash_ok hok]
  by_cases h : b.header.parent = hh W best <;> simp [h]

theorem checkRoot_ok (roots : List (Bytes × Bytes)) (b : Block) :
    checkRoot roots b = .ok () ↔ find roots b.header.parent = some b.header.stateRoot := by
  unfold checkRoot
  cases find roots b.header.parent with
  | none => simp
  | some r =>
    by_cases h : r = b.header.stateRoot <;> simp [h]

theorem checkXt_ok (W : World K V ρ) {b : Block} (hok : Spec.XtOk W.P b.xt) :
    checkXt W b = .ok () ↔ b.header.xtHash = Spec.xtHash W.P W.H b.xt := by
  simp only [checkXt, xt_hash hok]
  by_cases h : b.header.xtHash = Spec.xtHash W.P W.H b.xt <;> simp [h]

theorem checkPrior_ok (W : World K V ρ) (clock : Option Nat) (n : Node K V ρ) {b : Block} (hok : Spec.BlockOk W.P b)
    (hb : Spec.HeaderOk W.P n.best) : checkPrior W clock n b = .ok () ↔
      n.best.slot < b.header.slot ∧ timeOk clock b.header.slot ∧ b.header.parent = hh W n.best ∧
      find n.roots b.header.parent = some b.header.stateRoot ∧ b.header.xtHash = Spec.xtHash W.P W.H b.xt := by
  simp only [checkPrior, also_ok, checkSlot_ok, checkParent_ok W hb, checkRoot_ok, checkXt_ok W hok.xt, and_assoc]

/-- The transition either follows the specification or fails where it has no successor; apart from the writes
and the ring cache the node stays as it is. -/
theorem exec_cases (W : World K V ρ) (wa : Bool) (n : Node K V ρ) (b : Block) (hd : n.dirty = [])
    (hok : Spec.BlockOk W.P b) (hg : isGenesis b = false) :
    (∃ d r c, exec W wa n b = ({ n with dirty := d, ring := r }, .ok c) ∧ Body W wa n.db n.ring n.anc b d r c) ∨
    ∃ d r e, exec W wa n b = ({ n with dirty := d, ring := r }, .error e) ∧
      ¬ ∃ d r c, Body W wa n.db n.ring n.anc b d r c := by
  have hv : n.view = n.db := by simp [Node.view, hd, over]
  unfold exec
  rw [hg]
  simp only [Bool.false_eq_true, if_false, phase1, hv, preIn]
  generalize h1 : W.pre ⟨b.header.slot, b.header.stateRoot, b.xt.disputes, b.xt.tickets⟩ n.db n.db n.ring = r1
  obtain ⟨d1, r1, m⟩ := r1
  cases m with
  | none =>
    right
    refine ⟨_, _, _, rfl, ?_⟩
    rintro ⟨d, r, c, d1', r1', m', d2, out, d3, e, _⟩
    rw [h1] at e; cases e
  | some m =>
    simp only [hd, List.append_nil]
    have hview1 : Node.view { n with dirty := d1, ring := r1 } = over d1 n.db := rfl
    rw [hview1]
    cases h2 : checkPost W (over d1 n.db) b.header m with
    | error e =>
      right
      refine ⟨_, _, _, rfl, ?_⟩
      rintro ⟨d, r, c, d1', r1', m', d2, out, d3, e, hs, hm, _⟩
      rw [h1] at e; cases e
      have := (checkPost_ok W hok.header _ _).mpr ⟨hs, hm⟩
      rw [h2] at this; cases this
    | ok u =>
      cases u
      have h2' := (checkPost_ok W hok.header _ _).mp h2
      simp only [execPost, phase2, postIn]
      rw [hview1]
      generalize h3 : W.post ⟨b.xt, b.header.parent, b.header.author, b.header.vrf⟩ (if wa then some n.anc else none)
        n.db (over d1 n.db) r1 = r3
      obtain ⟨d2, r2, o⟩ := r3
      cases o with
      | none =>
        right
        refine ⟨_, _, _, rfl, ?_⟩
        rintro ⟨d, r, c, d1', r1', m', d2', out, d3, e, _, _, e2, _⟩
        rw [h1] at e; cases e
        rw [h3] at e2; cases e2
      | some oc =>
        obtain ⟨out, c⟩ := oc
        simp only [finish, hash_ok hok.header, phase3]
        have hview2 : Node.view { n with dirty := d2 ++ d1, ring := r2 } = over d2 (over d1 n.db) := over_append _ _ _
        rw [hview2]
        generalize h4 : W.fin (hh W b.header) out n.db (over d2 (over d1 n.db)) = r4
        obtain ⟨d3, o⟩ := r4
        cases o with
        | none =>
          right
          refine ⟨_, _, _, rfl, ?_⟩
          rintro ⟨d, r, c, d1', r1', m', d2', out, d3', e, _, _, e2, e3, _⟩
          rw [h1] at e; cases e
          rw [h3] at e2; cases e2
          rw [h4] at e3; cases e3
        | some u =>
          left
          exact ⟨_, _, _, rfl, d1, r1, m, d2, out, d3, h1, h2'.1, h2'.2, h3, h4, rfl⟩

theorem body_inj {W : World K V ρ} {wa : Bool} {s : St K V} {ring : ρ} {anc : Anc} {b : Block} {d d' : Delta K V} {r r' : ρ}
    {c c' : Changes K} (h : Body W wa s ring anc b d r c) (h' : Body W wa s ring anc b d' r' c') :
    d = d' ∧ r = r' ∧ c = c' := by
  obtain ⟨d1, r1, m, d2, out, d3, e1, _, _, e2, e3, rfl⟩ := h
  obtain ⟨d1', r1', m', d2', out', d3', e1', _, _, e2', e3', rfl⟩ := h'
  rw [e1] at e1'; cases e1'
  rw [e2] at e2'; cases e2'
  rw [e3] at e3'; cases e3'
  exact ⟨rfl, rfl, rfl⟩

/-- A valid block leads to one point. -/
theorem extends_det {W : World K V ρ} {wa : Bool} {t t' : Nat → Prop} {p q q' : Point K V ρ} {b : Block}
    (h : Extends W wa t p b q) (h' : Extends W wa t' p b q') : q = q' := by
  obtain ⟨d, r, c, hb, e1, e2⟩ := h.body
  obtain ⟨d', r', c', hb', e1', e2'⟩ := h'.body
  obtain ⟨rfl, rfl, rfl⟩ := body_inj hb hb'
  obtain ⟨a, s, g, n⟩ := q
  obtain ⟨a', s', g', n'⟩ := q'
  have := h.header; have := h'.header; have := h.anc; have := h'.anc
  simp_all

theorem notGenesis {b : Block} (h : b.header.parent ≠ zeroHash) : isGenesis b = false := by
  simp [isGenesis, h]

/-- The node after the block was imported in the immediate mode. -/
def landed (W : World K V ρ) (n : Node K V ρ) (b : Block) (q : Point K V ρ) (roots : List (Bytes × Bytes)) : Node K V ρ :=
  ⟨q.st, [], q.ring, b.header, (b.header.slot, hh W b.header) :: n.anc, (hh W b.header, b.header) :: n.headers, roots⟩

/-- The import in the immediate mode, answered by the specification. -/
theorem import_cases (W : World K V ρ) (clock : Option Nat) (wa : Bool) (n : Node K V ρ) (p : Point K V ρ) (b : Block)
    (ha : At W n p) (hok : Spec.BlockOk W.P b) (hz : b.header.parent ≠ zeroHash) :
    (∃ q d r c, Body W wa p.st p.ring p.anc b d r c ∧ Extends W wa (timeOk clock) p b q ∧
      importBlock W clock wa .immediate n b = (landed W n b q n.roots, .ok ⟨W.root q.st, c, none⟩)) ∨
    ∃ d r e, importBlock W clock wa .immediate n b = ({ n with dirty := d, ring := r }, .error e) ∧
      ¬ ∃ q, Extends W wa (timeOk clock) p b q := by
  have hg := notGenesis hz
  have hbest : Spec.HeaderOk W.P n.best := ha.best ▸ ha.headerOk
  unfold importBlock
  simp only [hash_ok hok.header, validate, hg, Bool.false_eq_true, if_false]
  cases hc : checkPrior W clock n b with
  | error e =>
    right
    refine ⟨n.dirty, n.ring, e, rfl, ?_⟩
    rintro ⟨q, hq⟩
    have : checkPrior W clock n b = .ok () := by
      rw [checkPrior_ok W clock n hok hbest, ha.best]
      refine ⟨hq.later, hq.time, hq.parent, ?_, hq.xt⟩
      rw [hq.parent, hq.root]
      exact ha.root
    rw [hc] at this; cases this
  | ok u =>
    cases u
    rw [checkPrior_ok W clock n hok hbest, ha.best] at hc
    obtain ⟨c1, c2, c3, c4, c5⟩ := hc
    rw [c3, ha.root] at c4
    simp only [runStf]
    rcases exec_cases W wa n b ha.dirty hok hg with ⟨d, r, c, he, hb⟩ | ⟨d, r, e, he, hb⟩
    · left
      rw [ha.db, ha.ring, ha.anc] at hb
      refine ⟨⟨b.header, over d p.st, r, (b.header.slot, hh W b.header) :: p.anc⟩, d, r, c, hb, ?_, ?_⟩
      · exact ⟨c3, c1, c2, (Option.some.inj c4).symm, c5, ⟨d, r, c, hb, rfl, rfl⟩, rfl, rfl⟩
      · rw [he]
        simp only [conclude, setBest, insertIf, Node.commit, Node.insertHeader, Node.view, ha.db, landed]
    · right
      rw [he]
      refine ⟨d, r, e, rfl, ?_⟩
      rintro ⟨q, hq⟩
      obtain ⟨d', r', c', hb', _⟩ := hq.body
      rw [ha.db, ha.ring, ha.anc] at hb
      exact hb ⟨d', r', c', hb'⟩

/-- One round of the importer, answered by the specification. -/
theorem step_cases (W : World K V ρ) (clock : Option Nat) (n : Node K V ρ) (p : Point K V ρ) (b : Block)
    (ha : At W n p) (hok : Spec.BlockOk W.P b) (hz : b.header.parent ≠ zeroHash) :
    (∃ q, Extends W false (timeOk clock) p b q ∧ 
      importStep W clock n b = (landed W n b q ((hh W b.header, W.root q.st) :: n.roots), .ok (W.root q.st))) ∨
    ∃ r e, importStep W clock n b = ({ n with ring := r }, .error e) ∧
      ¬ ∃ q, Extends W false (timeOk clock) p b q := by
  unfold importStep
  simp only [hash_ok hok.header]
  rcases import_cases W clock false n p b ha hok hz with ⟨q, d, r, c, hb, hq, he⟩ | ⟨d, r, e, he, hq⟩
  · left
    refine ⟨q, hq, ?_⟩
    rw [he]
    rfl
  · right
    refine ⟨r, e, ?_, hq⟩
    rw [he]
    have hd := ha.dirty
    obtain ⟨a, a1, a2, a3, a4, a5, a6⟩ := n
    simp only at hd
    subst hd
    rfl

theorem at_next {W : World K V ρ} {n : Node K V ρ} {p q : Point K V ρ} {b : Block} {t : Nat → Prop} {wa : Bool}
    (ha : At W n p) (hok : Spec.HeaderOk W.P b.header) (hq : Extends W wa t p b q) :
    At W (landed W n b q ((hh W b.header, W.root q.st) :: n.roots)) q := by
  refine ⟨rfl, rfl, rfl, hq.header.symm, ?_, ?_, ?_⟩
  · simp only [landed, hq.anc, ha.anc]
  · simp [landed, find, hq.header]
  · rw [hq.header]; exact hok

theorem at_drift {W : World K V ρ} {n : Node K V ρ} {p : Point K V ρ} (ha : At W n p) (r : ρ) :
    At W { n with ring := r } { p with ring := r } :=
  ⟨ha.db, ha.dirty, rfl, ha.best, ha.anc, ha.root, ha.headerOk⟩

theorem extends_weaken {W : World K V ρ} {wa : Bool} {t t' : Nat → Prop} {p q : Point K V ρ} {b : Block}
    (h : Extends W wa t p b q) (ht : ∀ s, t s → t' s) : Extends W wa t' p b q :=
  ⟨h.parent, h.later, ht _ h.time, h.root, h.xt, h.body, h.header, h.anc⟩

end Fastroll.Chain
