import Verif.Fork.Lemmas
import Verif.Chain.Props

/-!
# C63: the fuzzing target
-/
namespace Fastroll.Fork
open Fastroll.Wire Fastroll.Chain Fastroll.Chain.Paper Fastroll.Fork.Paper

variable {K V ρ : Type} [DecidableEq K]

theorem importMsg_feat (W : World K V ρ) (t : Target K V ρ) (b : Block) :
    (importMsg W t b).1.withAnc = t.withAnc ∧ (importMsg W t b).1.forking = t.forking := by
  obtain ⟨f1, f2⟩ := finalize_feat t b.header.parent
  unfold importMsg
  cases Header.hash W.H b.header with
  | error e => exact ⟨rfl, rfl⟩
  | ok hash =>
    simp only []
    generalize importBlock W none _ _ _ b = r
    obtain ⟨n, r⟩ := r
    cases r with
    | error e => exact ⟨f1, f2⟩
    | ok o =>
      simp only [succeed]
      cases commitMode (finalize t b.header.parent) b <;> exact ⟨f1, f2⟩

theorem build_lists {W : World K V ρ} {hs : List Header} {t : Target K V ρ} {f : Tree K V ρ} (h : Holds W hs t f)
    (hk : HoldsKeys t f) (x : Bytes) (p : Point K V ρ) (e : pointOf W f x = some p) : Lists (buildState t x) p.st := by
  have hv : t.node.view = f.fin.st := by simp [Node.view, h.node.dirty, over, h.node.db]
  unfold pointOf at e
  unfold buildState
  rw [h.latest]
  by_cases hx : x = hh W f.fin.header
  · rw [if_pos hx] at e
    cases e
    rw [if_pos hx.symm, ← hv]
    exact collect_lists t.node [] hk.nodup (by rw [over, hv]; exact hk.cover)
  · rw [if_neg hx] at e
    rw [if_neg (fun a => hx a.symm)]
    rcases h.staged x with ⟨_, a⟩ | ⟨s, p', a1, a2, hr⟩
    · rw [a] at e; cases e
    · rw [a2] at e; cases e
      rw [a1]
      simp only []
      rw [hr.st, ← hv]
      refine collect_lists t.node _ (nodup_deltaKeys hk.nodup _) ?_
      intro k hne
      rw [mem_deltaKeys]
      rw [over_get] at hne
      cases hd : deltaGet (s.artifact.getD []) k with
      | none =>
        rw [hd, hv] at hne
        exact .inl ⟨rfl, hk.cover k hne⟩
      | some o =>
        rw [hd] at hne
        cases o with
        | none => exact absurd rfl hne
        | some v => exact .inr ⟨v, rfl⟩

theorem answers_run {W : World K V ρ} {hs : List Header} (r0 : ρ) (hd : Distinct W hs) (ms : List (Msg K V))
    (hf : ∀ m ∈ ms, Fair W m) (hm : ∀ x ∈ headersOf ms, x ∈ hs) (t : Target K V ρ) (f : Tree K V ρ) (h : Holds W hs t f)
    (hk : Reports W t.withAnc → HoldsKeys t f) :
    ∃ g, Answers W t.withAnc t.forking (Reports W t.withAnc) f ms (session W r0 t true ms).2 g ∧
      Holds W hs (session W r0 t true ms).1 g ∧ (Reports W t.withAnc → HoldsKeys (session W r0 t true ms).1 g) := by
  induction ms generalizing t f with
  | nil => exact ⟨f, .nil f, h, hk⟩
  | cons m ms ih =>
    have hf' := fun m hm => hf m (List.mem_cons_of_mem _ hm)
    have hm0 := hf m List.mem_cons_self
    cases m with
    | «initialize» a b c => exact absurd hm0 id
    | other => exact absurd hm0 id
    | getState x =>
      obtain ⟨g, g1, g2, g3⟩ := ih hf' hm t f h hk
      refine ⟨g, ?_, g2, g3⟩
      exact .state (fun e p hp => build_lists h (hk e) x p hp) g1
    | importBlock b =>
      have hm' : ∀ x ∈ headersOf ms, x ∈ hs := fun x hx => hm x (List.mem_cons_of_mem _ hx)
      obtain ⟨f1, f2⟩ := importMsg_feat W t b
      rcases import_step hd h b hm0.1 hm0.2 (hm _ List.mem_cons_self) with ⟨r, f', e, hs', hh', hk'⟩ | ⟨e, he, hs', hn⟩
      · obtain ⟨g, g1, g2, g3⟩ := ih hf' hm' (importMsg W t b).1 f' hh' (by rw [f1]; exact fun x => hk' x (hk x))
        rw [f1, f2] at g1
        rw [f1] at g3
        have hstep : session W r0 t true (.importBlock b :: ms) =
            ((session W r0 (importMsg W t b).1 true ms).1, .root r :: (session W r0 (importMsg W t b).1 true ms).2) := by
          simp only [session, handle]
          rw [e]
        rw [hstep]
        exact ⟨g, .accept hs' g1, g2, g3⟩
      · obtain ⟨h1, h2⟩ := finalize_holds h b.header.parent
        rw [← hn] at h1 h2
        obtain ⟨g, g1, g2, g3⟩ := ih hf' hm' (importMsg W t b).1 _ h1 (by rw [f1]; exact fun x => h2 (hk x))
        rw [f1, f2] at g1
        rw [f1] at g3
        have hstep : session W r0 t true (.importBlock b :: ms) =
            ((session W r0 (importMsg W t b).1 true ms).1, .error e :: (session W r0 (importMsg W t b).1 true ms).2) := by
          simp only [session, handle]
          rw [he]
        rw [hstep]
        exact ⟨g, .reject hs' g1, g2, g3⟩

/-- The state given by a list of entries: the last value of a key counts. -/
def stateOf (st : List (K × V)) : St K V := fun k => (st.reverse.find? fun e => decide (e.1 = k)).map Prod.snd

theorem initDelta_state (st : List (K × V)) : over (initDelta st) (fun _ => none) = stateOf st := by
  funext k
  unfold initDelta stateOf
  rw [← List.map_reverse]
  induction st.reverse with
  | nil => rfl
  | cons e l ih =>
    simp only [List.map_cons, over, List.find?_cons]
    by_cases h : k = e.1
    · simp [h]
    · have : ¬ e.1 = k := fun a => h a.symm
      simp [h, this, ih]

/-- The point a session starts from. -/
def startPoint (r0 : ρ) (wa : Bool) (h : Header) (st : List (K × V)) (anc : Anc) : Point K V ρ :=
  ⟨h, stateOf st, r0, if wa then anc else []⟩

theorem init_holds (W : World K V ρ) (hs : List Header) (r0 : ρ) (t : Target K V ρ) (wa forking : Bool) (i : Bool)
    (e : t = ⟨freshNode r0, zeroHash, [], wa, forking, none, [], i⟩) (h : Header)
    (hok : Wire.Spec.HeaderOk W.P h) (hm : h ∈ hs) (st : List (K × V)) (anc : Anc) :
    (initFresh W t h st anc).2 = .root (W.root (stateOf st)) ∧
    Holds W hs (initFresh W t h st anc).1 ⟨startPoint r0 wa h st anc, []⟩ ∧
    HoldsKeys (initFresh W t h st anc).1 ⟨startPoint r0 wa h st anc, []⟩ ∧
    (initFresh W t h st anc).1.withAnc = wa ∧ (initFresh W t h st anc).1.forking = forking := by
  subst e
  simp only [initFresh, hash_ok hok, freshNode, initDelta_state]
  refine ⟨trivial, ⟨⟨rfl, rfl, rfl, rfl, ?_, ?_, hok⟩, rfl, rfl, hm, fun x => .inl ⟨rfl, rfl⟩, fun _ => rfl⟩, ⟨?_, ?_, ?_⟩,
    trivial, trivial⟩
  · simp [startPoint]
  · simp [find, startPoint]
  · exact nodup_insertKeys _ _ List.nodup_nil
  · intro k hk
    simp only [startPoint, stateOf] at hk
    rw [mem_insertKeys]
    right
    cases hfd : st.reverse.find? (fun e => decide (e.1 = k)) with
    | none => rw [hfd] at hk; exact absurd rfl hk
    | some x =>
      have h1 := List.mem_of_find?_eq_some hfd
      have h2 := List.find?_some hfd
      rw [List.mem_map]
      exact ⟨x, List.mem_reverse.1 h1, by simpa using h2⟩
  · intro x s p e1; cases e1

/-- **C63** (partial: states are exact only if blocks report every key they add, which they do not, see
`C63_unreported_key`; blocks with a zero parent hash are left out, see C62; a rejected block may finalise its parent,
see `C63_invalid_child`): in every session, whatever the target did before, with or without forks and ancestors, the
replies to the start, to any sequence of blocks and requests for states are the right ones: every block is judged, and
its state root computed, on top of the point of its parent, finalised or not, as if its siblings had not been
imported; and the state for a hash is the state after that block, every entry once.  The hashes of the headers in play
are assumed to be different. -/
theorem C63_session_partial (W : World K V ρ) (r0 : ρ) (first wa forking : Bool) (t : Target K V ρ) (h : Header)
    (st : List (K × V)) (anc : Anc) (ms : List (Msg K V)) (hfirst : first = true → t = newTarget r0)
    (hok : Wire.Spec.HeaderOk W.P h) (hf : ∀ m ∈ ms, Fair W m)
    (hd : ∀ a ∈ h :: headersOf ms, ∀ b ∈ h :: headersOf ms, hh W a = hh W b → a = b) :
    ∃ rs g, (session W r0 (begin r0 first wa forking t) false (.initialize h st anc :: ms)).2 =
        .root (W.root (stateOf st)) :: rs ∧
      Answers W wa forking (Reports W wa) ⟨startPoint r0 wa h st anc, []⟩ ms rs g := by
  have hb : ∃ i, begin r0 first wa forking t = ⟨freshNode r0, zeroHash, [], wa, forking, none, [], i⟩ ∧ i = false := by
    unfold begin
    cases first with
    | true => rw [hfirst rfl]; exact ⟨false, rfl, rfl⟩
    | false => exact ⟨false, rfl, rfl⟩
  obtain ⟨i, hb, hi⟩ := hb
  subst hi
  rw [hb]
  obtain ⟨i1, i2, i3, i4, i5⟩ := init_holds W (h :: headersOf ms) r0 _ wa forking false rfl h hok List.mem_cons_self st anc
  obtain ⟨g, g1, _⟩ := answers_run r0 hd ms hf (fun x hx => List.mem_cons_of_mem _ hx) _ _ i2 (fun _ => i3)
  rw [i4, i5] at g1
  refine ⟨_, g, ?_, g1⟩
  simp only [session, handle, Bool.false_eq_true, if_false]
  rw [i1]

/-! ## Examples -/

/-- A world whose blocks report the keys they write. -/
def exR : World Nat Nat Nat := { exW with post := fun i _ _ _ r => ([(1, some i.author)], r, some (ex32 1, ⟨[0, 1], []⟩)) }

theorem exReports (wa : Bool) : Reports exR wa := by
  intro s ring anc b d r c hb k hk
  obtain ⟨d1, r1, m, d2, out, d3, e1, _, _, e2, e3, rfl⟩ := hb
  simp only [exR, exW, Prod.mk.injEq, Option.some.injEq] at e1 e2 e3
  obtain ⟨rfl, _⟩ := e1
  obtain ⟨rfl, _, _, rfl⟩ := e2
  obtain ⟨rfl, _⟩ := e3
  refine ⟨?_, by simp⟩
  simp only [List.nil_append, List.cons_append, over] at hk
  by_cases h1 : k = 1
  · right; simp [h1]
  · by_cases h0 : k = 0
    · right; simp [h0]
    · left; simpa [h1, h0] using hk

/-- Another child of the first header. -/
def exSib : Block := ((authorBlock exW (ex32 9) 2 11 exNode).2.getD (⟨exDefault, noXt⟩, [])).1

/-- Two children of the first header, a child of the first of them, and the states of two of the points. -/
def exMs : List (Msg Nat Nat) :=
  [.importBlock exB, .importBlock exSib, .getState (hh exR exSib.header), .importBlock exC, .getState (hh exR exB.header),
   .importBlock exSib]

theorem exSib_ok : Wire.Spec.BlockOk exW.P exSib := ⟨exPlain (by decide +kernel), by
  have : exSib.xt = noXt := by decide +kernel
  rw [this]; exact exXt0⟩

theorem exMs_fair : ∀ m ∈ exMs, Fair exR m := by
  intro m hm
  simp only [exMs, List.mem_cons, List.not_mem_nil, or_false] at hm
  rcases hm with rfl | rfl | rfl | rfl | rfl | rfl
  · exact ⟨exB_ok, exB_parent⟩
  · exact ⟨exSib_ok, by decide +kernel⟩
  · trivial
  · exact ⟨exC_ok, exC_parent⟩
  · trivial
  · exact ⟨exSib_ok, by decide +kernel⟩

def exSession (W : World Nat Nat Nat) : List (Reply Nat Nat) :=
  (session W 0 (begin 0 true false true (newTarget 0)) false (.initialize exGen [(0, 5)] [] :: exMs)).2

example : exSession exR = [.root (exRoot exSt), .root (exRoot fun k => if k = 0 then some 8 else none),
    .root (exRoot fun k => if k = 0 then some 11 else none), .state [(1, 2), (0, 11)],
    .root (exRoot fun k => if k = 0 then some 9 else none), .state [(1, 2), (0, 8)], .error .parent] := by
  decide +kernel

example : ∃ rs g, exSession exR = .root (exRoot (stateOf [(0, 5)])) :: rs ∧
    Answers exR false true (Reports exR false) ⟨startPoint 0 false exGen [(0, 5)] [], []⟩ exMs rs g :=
  C63_session_partial exR 0 true false true (newTarget 0) exGen [(0, 5)] [] exMs (fun _ => rfl) exGen_ok exMs_fair
    (by decide +kernel)

/-! ## Siblings -/

theorem settle_fin {W : World K V ρ} {hs : List Header} {t : Target K V ρ} {f : Tree K V ρ} (hd : Distinct W hs)
    (h : Holds W hs t f) : settle f (hh W f.fin.header) = f := by
  unfold settle
  rcases h.staged (hh W f.fin.header) with ⟨_, a⟩ | ⟨s, p, _, a, hr⟩
  · rw [a]
  · have := hd _ hr.mem _ h.mem hr.hash
    have := hr.later
    rw [‹p.header = _›] at this
    omega

theorem step_root {W : World K V ρ} {wa forking : Bool} {f f' : Tree K V ρ} {b : Block} {r : Bytes}
    (h : Step W wa forking f b (some r) f') :
    ∃ q, Extends W wa (fun _ => True) (settle f b.header.parent).fin b q ∧ r = W.root q.st := by
  cases h with
  | child q _ hq => exact ⟨q, hq, rfl⟩
  | next q _ hq => exact ⟨q, hq, rfl⟩

theorem step_none {W : World K V ρ} {wa forking : Bool} {f f' : Tree K V ρ} {b : Block}
    (h : Step W wa forking f b none f') : ¬ ∃ q, Extends W wa (fun _ => True) (settle f b.header.parent).fin b q := by
  cases h with
  | reject hq => exact hq

theorem step_child {W : World K V ρ} {wa : Bool} {f f' : Tree K V ρ} {b : Block} {r : Bytes}
    (h : Step W wa true f b (some r) f') : f'.fin = (settle f b.header.parent).fin := by
  cases h with
  | child q _ hq => rfl
  | next q hf _ => cases hf

/-- The root in a reply. -/
def rootOf : Reply K V → Option Bytes
  | .root r => some r
  | _ => none

/-- **C63**: siblings do not influence each other: the root answered for a child of the finalised block, and whether it
is accepted, are the same before and after any other child was imported. -/
theorem C63_siblings (W : World K V ρ) (hs : List Header) (t : Target K V ρ) (f : Tree K V ρ) (h : Holds W hs t f)
    (hd : ∀ a ∈ hs, ∀ b ∈ hs, hh W a = hh W b → a = b) (hfork : t.forking = true) (b c : Block)
    (hb : Wire.Spec.BlockOk W.P b) (hc : Wire.Spec.BlockOk W.P c) (zb : b.header.parent ≠ zeroHash)
    (mb : b.header ∈ hs) (mc : c.header ∈ hs) (pb : b.header.parent = hh W f.fin.header)
    (pc : c.header.parent = hh W f.fin.header) :
    rootOf (importMsg W (importMsg W t c).1 b).2 = rootOf (importMsg W t b).2 := by
  have zc : c.header.parent ≠ zeroHash := by rw [pc, ← pb]; exact zb
  have hset := settle_fin hd h
  -- after `c` the finalised point is the same
  have key : ∃ f', Holds W hs (importMsg W t c).1 f' ∧ f'.fin = f.fin := by
    rcases import_step hd h c hc zc mc with ⟨r, f', _, hst, hh', _⟩ | ⟨e, _, _, hn⟩
    · refine ⟨f', hh', ?_⟩
      rw [hfork] at hst
      rw [step_child hst, pc, hset]
    · refine ⟨settle f c.header.parent, ?_, by rw [pc, hset]⟩
      rw [hn]
      exact (finalize_holds h c.header.parent).1
  obtain ⟨f', h', hfin⟩ := key
  have hset' := settle_fin hd h'
  obtain ⟨w1, _⟩ := importMsg_feat W t c
  have e1 : (settle f b.header.parent).fin = f.fin := by rw [pb, hset]
  have e2 : (settle f' b.header.parent).fin = f.fin := by rw [pb, ← hfin, hset']
  rcases import_step hd h b hb zb mb with ⟨r, _, e, hst, _⟩ | ⟨x, e, hst, _⟩
  · obtain ⟨q, hq, rfl⟩ := step_root hst
    rcases import_step hd h' b hb zb mb with ⟨r', _, e', hst', _⟩ | ⟨x', e', hst', _⟩
    · obtain ⟨q', hq', rfl⟩ := step_root hst'
      rw [e1] at hq
      rw [e2, w1] at hq'
      rw [e, e', extends_det hq hq']
    · exact absurd ⟨q, by rw [e2, w1, ← e1]; exact hq⟩ (step_none hst')
  · rcases import_step hd h' b hb zb mb with ⟨r', _, e', hst', _⟩ | ⟨x', e', hst', _⟩
    · obtain ⟨q', hq', rfl⟩ := step_root hst'
      exact absurd ⟨q', by rw [e1, ← w1, ← e2]; exact hq'⟩ (step_none hst)
    · rw [e, e']; rfl

/-- The target at the start of the example. -/
def exT (W : World Nat Nat Nat) : Target Nat Nat Nat := (initFresh W (begin 0 true false true (newTarget 0)) exGen [(0, 5)] []).1

def exHs : List Header := [exGen, exB.header, exSib.header, exC.header]

theorem exT_holds : Holds exW exHs (exT exW) ⟨startPoint 0 false exGen [(0, 5)] [], []⟩ :=
  (init_holds exW exHs 0 _ false true false rfl exGen exGen_ok List.mem_cons_self [(0, 5)] []).2.1

theorem exHs_distinct : ∀ a ∈ exHs, ∀ b ∈ exHs, hh exW a = hh exW b → a = b := by decide +kernel

example : rootOf (importMsg exW (importMsg exW (exT exW) exSib).1 exB).2 = rootOf (importMsg exW (exT exW) exB).2 ∧
    rootOf (importMsg exW (exT exW) exB).2 = some (exRoot fun k => if k = 0 then some 8 else none) :=
  ⟨C63_siblings exW exHs _ _ exT_holds exHs_distinct rfl exB exSib exB_ok exSib_ok exB_parent (by simp [exHs]) (by simp [exHs])
    (by decide +kernel) (by decide +kernel), by decide +kernel⟩

/-! ## Departures -/

/-- **C63** fails for rejected blocks: a block that names a staged block as its parent finalises that block and drops its
siblings, even if it is itself invalid; every block on top of a sibling is then rejected. -/
theorem C63_invalid_child (W : World K V ρ) (hs : List Header) (t : Target K V ρ) (f : Tree K V ρ) (h : Holds W hs t f)
    (hd : ∀ a ∈ hs, ∀ b ∈ hs, hh W a = hh W b → a = b) (b c : Block) (p : Point K V ρ)
    (hb : Wire.Spec.BlockOk W.P b) (hc : Wire.Spec.BlockOk W.P c) (zb : b.header.parent ≠ zeroHash)
    (zc : c.header.parent ≠ zeroHash) (mb : b.header ∈ hs) (mc : c.header ∈ hs)
    (hp : find f.staged b.header.parent = some p) (hbad : ¬ ∃ q, Extends W t.withAnc (fun _ => True) p b q)
    (hsib : c.header.parent ≠ b.header.parent) :
    (∃ e, (importMsg W t b).2 = .error e) ∧ (importMsg W t b).1.node.db = p.st ∧
      ∃ e, (importMsg W (importMsg W t b).1 c).2 = .error e := by
  have hset : settle f b.header.parent = ⟨p, []⟩ := by unfold settle; rw [hp]
  rcases import_step hd h b hb zb mb with ⟨r, f', _, hst, _⟩ | ⟨e, he, hst, hn⟩
  · obtain ⟨q, hq, _⟩ := step_root hst
    rw [hset] at hq
    exact absurd ⟨q, hq⟩ hbad
  · have h1 := (finalize_holds h b.header.parent).1
    rw [← hn, hset] at h1
    have hpb : b.header.parent = hh W p.header := by
      rcases h.staged b.header.parent with ⟨_, a⟩ | ⟨s, p', _, a, hr⟩
      · rw [a] at hp; cases hp
      · rw [a] at hp; cases hp; exact hr.hash.symm
    refine ⟨⟨e, he⟩, h1.node.db, ?_⟩
    rcases import_step hd h1 c hc zc mc with ⟨r, f', _, hst', _⟩ | ⟨e', he', _⟩
    · obtain ⟨q, hq, _⟩ := step_root hst'
      have := hq.parent
      simp only [settle, find] at this
      rw [← hpb] at this
      exact absurd this hsib
    · exact ⟨e', he'⟩

/-- Blocks on top of the two siblings: an invalid one on the first, a valid one on the second. -/
def exBad : Block := ⟨{ exC.header with slot := 12 }, noXt⟩
def exSibNode : Node Nat Nat Nat := (authorBlock exW (ex32 9) 2 11 exNode).1
def exSibC : Block := ((authorBlock exW (ex32 9) 2 13 exSibNode).2.getD (⟨exDefault, noXt⟩, [])).1

/-- After the invalid block the valid one is rejected, which would have been accepted. -/
example : (session exW 0 (exT exW) true [.importBlock exB, .importBlock exSib, .importBlock exBad, .importBlock exSibC]).2 =
      [.root (exRoot fun k => if k = 0 then some 8 else none), .root (exRoot fun k => if k = 0 then some 11 else none),
       .error .sealSig, .error .parent] ∧
    (session exW 0 (exT exW) true [.importBlock exB, .importBlock exSib, .importBlock exSibC]).2 =
      [.root (exRoot fun k => if k = 0 then some 8 else none), .root (exRoot fun k => if k = 0 then some 11 else none),
       .root (exRoot fun k => if k = 0 then some 13 else none)] := by decide +kernel

/-- **C63** fails for states: if a staged block has a value under a key that is new and that it does not report as added,
the entry is in the state answered for it while it is staged, and not any more once a block on top of it was received.
The preimages of a block are such entries: only accumulation reports keys. -/
theorem C63_unreported_key (W : World K V ρ) (hs : List Header) (t : Target K V ρ) (f : Tree K V ρ) (h : Holds W hs t f)
    (hd : ∀ a ∈ hs, ∀ b ∈ hs, hh W a = hh W b → a = b) (x : Bytes) (s : Staged K V ρ) (p : Point K V ρ)
    (hts : find t.staged x = some s) (hp : find f.staged x = some p) (k : K) (v : V) (hv : p.st k = some v)
    (hnew : f.fin.st k = none) (hk : k ∉ t.keys) (hc : k ∉ s.changes.added) :
    (k, v) ∈ buildState t x ∧ ∀ w, (k, w) ∉ buildState (finalize t x) x := by
  have hview : t.node.view = f.fin.st := by simp [Node.view, h.node.dirty, over, h.node.db]
  have hrel : Rel W hs f.fin t.node.roots x s p := by
    rcases h.staged x with ⟨a, _⟩ | ⟨s', p', a, a', hr⟩
    · rw [hts] at a; cases a
    · rw [hts] at a; rw [hp] at a'; cases a; cases a'; exact hr
  constructor
  · unfold buildState
    have hne : t.latest ≠ x := by
      rw [h.latest]
      intro e
      have := hd _ hrel.mem _ h.mem (by rw [hrel.hash, e])
      have := hrel.later
      rw [‹p.header = _›] at this
      omega
    rw [if_neg hne, hts]
    simp only [collect, List.mem_filterMap, collectKey_some]
    refine ⟨k, ?_, rfl, ?_⟩
    · rw [mem_deltaKeys]
      have := hv
      rw [hrel.st, over_get] at this
      cases hdg : deltaGet (s.artifact.getD []) k with
      | none => rw [hdg, hnew] at this; cases this
      | some o =>
        rw [hdg] at this
        exact .inr ⟨v, by rw [← this]; rfl⟩
    · rw [hview, ← hrel.st]; exact hv
  · intro w hw
    unfold finalize at hw
    rw [hts] at hw
    simp only [buildState, if_true, collect, List.mem_filterMap, collectKey_some] at hw
    obtain ⟨a, ha, rfl, _⟩ := hw
    rw [mem_applyChanges] at ha
    rcases ha.1 with ha | ha
    · exact hk ha
    · exact hc ha

/-- The same block before and after its child: the entry under the key 1 disappears from the answer. -/
example : (session exW 0 (exT exW) true [.importBlock exB, .getState (hh exW exB.header), .importBlock exC,
      .getState (hh exW exB.header)]).2 =
    [.root (exRoot fun k => if k = 0 then some 8 else none), .state [(1, 2), (0, 8)],
     .root (exRoot fun k => if k = 0 then some 9 else none), .state [(0, 8)]] := by decide +kernel

/-- **C63** fails for unknown hashes: the state for a hash that is neither finalised nor staged is answered with the
finalised state. -/
theorem C63_unknown_hash (t : Target K V ρ) (x : Bytes) (h1 : x ≠ t.latest) (h2 : find t.staged x = none) :
    buildState t x = buildState t t.latest := by
  unfold buildState
  rw [if_neg (fun e => h1 e.symm), if_pos rfl, h2]

example : buildState (exT exW) (ex32 77) = [(0, 5)] ∧ find (exT exW).staged (ex32 77) = none ∧ (exT exW).latest ≠ ex32 77 := by
  decide +kernel

/-! ## One start per session -/

theorem importMsg_open (W : World K V ρ) (t : Target K V ρ) (b : Block) (hok : Wire.Spec.BlockOk W.P b) :
    (∃ r, (importMsg W t b).2 = .root r) ∨ ∃ e, (importMsg W t b).2 = .error e := by
  unfold importMsg
  rw [hash_ok hok.header]
  simp only []
  generalize importBlock W none _ _ _ b = r
  obtain ⟨n, r⟩ := r
  cases r with
  | error e => exact .inr ⟨e, rfl⟩
  | ok o => exact .inl ⟨o.root, rfl⟩

/-- **C63**: a session is started once: a second start closes it, after all earlier messages were answered, and nothing
later is answered. -/
theorem C63_second_start (W : World K V ρ) (r0 : ρ) (t : Target K V ρ) (ms rest : List (Msg K V)) (h : Header)
    (st : List (K × V)) (anc : Anc) (hf : ∀ m ∈ ms, Fair W m) :
    (session W r0 t true (ms ++ .initialize h st anc :: rest)).2 = (session W r0 t true ms).2 ++ [.closed] ∧
      (session W r0 t true ms).2.length = ms.length := by
  induction ms generalizing t with
  | nil => exact ⟨rfl, rfl⟩
  | cons m ms ih =>
    have hf' := fun m hm => hf m (List.mem_cons_of_mem _ hm)
    have hm0 := hf m List.mem_cons_self
    cases m with
    | «initialize» a b c => exact absurd hm0 id
    | other => exact absurd hm0 id
    | getState x =>
      obtain ⟨i1, i2⟩ := ih t hf'
      simp only [List.cons_append, session, handle, List.length_cons]
      exact ⟨by rw [i1], by rw [i2]⟩
    | importBlock b =>
      obtain ⟨i1, i2⟩ := ih (importMsg W t b).1 hf'
      simp only [List.cons_append, session, handle]
      rcases importMsg_open W t b hm0.1 with ⟨r, e⟩ | ⟨r, e⟩
      · simp only [e, List.length_cons]
        exact ⟨by rw [i1]; rfl, by rw [i2]⟩
      · simp only [e, List.length_cons]
        exact ⟨by rw [i1]; rfl, by rw [i2]⟩

example : (session exW 0 (exT exW) true [.getState (ex32 1), .initialize exGen [] [], .getState (ex32 1)]).2 =
    [.state [(0, 5)], .closed] := by decide +kernel

end Fastroll.Fork
