import Verif.Chain.Lemmas2

/-!
# C62: importing blocks

A node at a point of a chain accepts the valid successors of that point, and only those up to one slot of the
clock; accepted blocks form a chain; the hash of its last header determines the state; rejected blocks change
nothing but the ring cache; authored blocks are accepted.  A block whose parent hash is zero is not checked.
-/
namespace Fastroll.Chain
open Fastroll.Wire Fastroll.Chain.Paper

variable {K V ρ : Type} [DecidableEq K]

/-! ## A concrete world for the examples -/

/-- A signature names the key, the context and the message. -/
def exSign (sk i m : Bytes) : Bytes := sk ++ exH i ++ exH m
def exRoot (s : St Nat Nat) : Bytes := List.replicate 32 (UInt8.ofNat ((s 0).getD 0 + 3 * (s 7).getD 0))

/-- The slot is kept under the key 0 and the author under the key 1; the genesis transition adds to the key 7. -/
def exW : World Nat Nat Nat where
  P := exP
  H := exH
  root := exRoot
  outHash := fun s => some ((s.drop 32).take 32)
  verify := fun i m s k => decide (s = exSign k i m)
  sign := exSign
  pre := fun i _ _ r => ([(0, some i.slot)], r + 1, some ⟨none, none, []⟩)
  sealer := fun _ _ => .key (ex32 9)
  authorKey := fun _ i => if i = 2 then some (ex32 9) else none
  eta3 := fun _ => ex32 4
  post := fun i _ _ _ r => ([(1, some i.author)], r, some (ex32 1, ⟨[], []⟩))
  fin := fun _ _ _ _ => ([], some ())
  genesis := fun _ _ v r => ([(7, some ((v 7).getD 0 + 1))], r, some ())

def exSt : St Nat Nat := fun k => if k = 0 then some 5 else none
def exGen : Header := ⟨ex32 22, ex32 23, ex32 3, 5, none, none, 0, List.replicate 96 7, [], List.replicate 96 8⟩
def exPoint : Point Nat Nat Nat := ⟨exGen, exSt, 0, []⟩
def exNode : Node Nat Nat Nat := ⟨exSt, [], 0, exGen, [], [], [(hh exW exGen, exRoot exSt)]⟩

def exDefault : Header := ⟨[], [], [], 0, none, none, 0, [], [], []⟩
/-- The block authored in slot 8 on top of `exNode`, and the next one. -/
def exA : Node Nat Nat Nat × Option (Block × Bytes) := authorBlock exW (ex32 9) 2 8 exNode
def exB : Block := (exA.2.getD (⟨exDefault, noXt⟩, [])).1
def exC : Block := ((authorBlock exW (ex32 9) 2 9 exA.1).2.getD (⟨exDefault, noXt⟩, [])).1

theorem exXt0 : Spec.XtOk exP noXt := by
  refine ⟨by unfold Spec.Fits; decide, ?_, by unfold Spec.Fits; decide, ?_, by decide, by decide, ?_, by decide, by decide, ?_, ?_⟩
  · intro t ht; cases ht
  · intro t ht; cases ht
  · intro t ht; cases ht
  · intro t ht; cases ht
  · refine ⟨by unfold Spec.Fits; decide, ?_, by unfold Spec.Fits; decide, ?_, by unfold Spec.Fits; decide, ?_⟩ <;>
      intro t ht <;> cases ht

theorem exPlain {h : Header} (h1 : h.parent.length = 32 ∧ h.stateRoot.length = 32 ∧ h.xtHash.length = 32 ∧ h.slot < 2 ^ 32 ∧
    h.epochMarker = none ∧ h.winners = none ∧ h.author < 2 ^ 16 ∧ h.vrf.length = 96 ∧ h.offenders = [] ∧
    h.sealSig.length = 96) : Spec.HeaderOk exP h := by
  obtain ⟨a, b, c, d, e, f, g, i, j, k⟩ := h1
  refine ⟨a, b, c, d, ?_, ?_, g, i, ?_, ?_, k⟩
  · intro m hm; rw [e] at hm; cases hm
  · intro m hm; rw [f] at hm; cases hm
  · rw [j]; unfold Spec.Fits; decide
  · rw [j]; intro x hx; cases hx

theorem exGen_ok : Spec.HeaderOk exW.P exGen := exPlain (by decide +kernel)
theorem exB_ok : Spec.BlockOk exW.P exB := ⟨exPlain (by decide +kernel), by
  have : exB.xt = noXt := by decide +kernel
  rw [this]; exact exXt0⟩
theorem exC_ok : Spec.BlockOk exW.P exC := ⟨exPlain (by decide +kernel), by
  have : exC.xt = noXt := by decide +kernel
  rw [this]; exact exXt0⟩
theorem exNode_at : At exW exNode exPoint := ⟨rfl, rfl, rfl, rfl, rfl, by decide +kernel, exGen_ok⟩
theorem exB_parent : exB.header.parent ≠ List.replicate 32 0 := by decide +kernel
theorem exC_parent : exC.header.parent ≠ List.replicate 32 0 := by decide +kernel

theorem exH_len (x : Bytes) : (exW.H x).length = 32 := by simp [exW, exH]

/-! ## One block -/

theorem inFuture_iff (slot now : Nat) : inFuture slot now = false ↔ slotBeginning slot ≤ now := by
  unfold inFuture
  rw [decide_eq_false_iff_not]
  omega

theorem slotBeginning_eq (slot : Nat) : slotBeginning slot = 1735732800 + (slot - 1) * 6 := by
  unfold slotBeginning era slotDuration
  split
  · subst_vars; rfl
  · rfl

/-- **C62**: a valid block is accepted: if `b` satisfies every rule for a successor of the point the node is at,
with its slot begun by the time `now`, the importer answers the root of the state after `b`, and the node is at
the point `b` leads to. -/
theorem C62_complete (W : World K V ρ) (now : Nat) (n : Node K V ρ) (p q : Point K V ρ) (b : Block) (ha : At W n p)
    (hok : Spec.BlockOk W.P b) (hz : b.header.parent ≠ List.replicate 32 0) (h : Extends W false (OnTime now) p b q) :
    (importStep W (some now) n b).2 = .ok (W.root q.st) ∧ At W (importStep W (some now) n b).1 q := by
  have h' : Extends W false (timeOk (some now)) p b q := by
    refine extends_weaken h fun s hs t ht => ?_
    cases ht
    unfold OnTime at hs
    rw [inFuture_iff, slotBeginning_eq]
    omega
  rcases step_cases W (some now) n p b ha hok hz with ⟨q', hq, he⟩ | ⟨r, e, he, hq⟩
  · have := extends_det h hq
    subst this
    rw [he]
    exact ⟨rfl, at_next ha hok.header hq⟩
  · exact absurd ⟨q, h'⟩ hq

/-- **C62** (partial: the clock is checked one slot too late, see `C62_early`): an accepted block is a valid
successor of the point the node is at, but for its slot, which need only begin within the next six seconds; the
node is then at the point the block leads to and answers its state root.  A rejected block leaves everything in
place but the ring cache. -/
theorem C62_sound_partial (W : World K V ρ) (now : Nat) (n : Node K V ρ) (p : Point K V ρ) (b : Block) (ha : At W n p)
    (hok : Spec.BlockOk W.P b) (hz : b.header.parent ≠ List.replicate 32 0) :
    (∀ root, (importStep W (some now) n b).2 = .ok root →
      ∃ q, Extends W false (OnTime (now + 6)) p b q ∧ root = W.root q.st ∧ At W (importStep W (some now) n b).1 q) ∧
    ∀ e, (importStep W (some now) n b).2 = .error e →
      ∃ r, (importStep W (some now) n b).1 = { n with ring := r } := by
  rcases step_cases W (some now) n p b ha hok hz with ⟨q, hq, he⟩ | ⟨r, e, he, _⟩
  · rw [he]
    refine ⟨fun root hr => ?_, fun e h => by cases h⟩
    cases hr
    refine ⟨q, ⟨hq.parent, hq.later, ?_, hq.root, hq.xt, hq.body, hq.header, hq.anc⟩, rfl, at_next ha hok.header hq⟩
    have h1 := hq.time now rfl
    have h2 := hq.later
    unfold OnTime
    rw [inFuture_iff, slotBeginning_eq] at h1
    omega
  · rw [he]
    exact ⟨fun root h => (by cases h), fun e' _ => ⟨r, rfl⟩⟩

/-- The first authored block is accepted by a node that did not author it, at the time its slot begins. -/
theorem exB_accepted : (importStep exW (some 1735732848) exNode exB).2 = .ok (exRoot fun k => if k = 0 then some 8 else none) := by
  decide +kernel

theorem exB_extends : ∃ q, Extends exW false (OnTime (1735732848 + 6)) exPoint exB q ∧
    At exW (importStep exW (some 1735732848) exNode exB).1 q := by
  obtain ⟨q, h, _, h'⟩ := (C62_sound_partial exW 1735732848 exNode exPoint exB exNode_at exB_ok exB_parent).1 _ exB_accepted
  exact ⟨q, h, h'⟩

example : ∃ q, Extends exW false (OnTime 1735732854) exPoint exB q ∧
    (importStep exW (some 1735732854) exNode exB).2 = .ok (exW.root q.st) ∧ exB.header.slot = 8 := by
  obtain ⟨q, h, _⟩ := exB_extends
  exact ⟨q, h, (C62_complete exW 1735732854 exNode exPoint q exB exNode_at exB_ok exB_parent h).1, by decide +kernel⟩

/-- A wrong seal, a wrong root and an old slot are rejected. -/
example : (importStep exW (some 1735732848) exNode ⟨{ exB.header with sealSig := List.replicate 96 1 }, noXt⟩).2 =
      .error .sealSig ∧
    (importStep exW (some 1735732848) exNode ⟨{ exB.header with stateRoot := ex32 1 }, noXt⟩).2 = .error .rootWrong ∧
    (importStep exW (some 1735732848) exNode ⟨{ exB.header with slot := 5 }, noXt⟩).2 = .error .timeslot := by
  decide +kernel

/-- **C62** fails for the clock: a slot after the first is taken to have begun six seconds before it does, so the
test passes exactly for the slots that begin within the next six seconds. -/
theorem C62_early (slot now : Nat) (hs : 0 < slot) : inFuture slot now = false ↔ OnTime (now + 6) slot := by
  unfold OnTime
  rw [inFuture_iff, slotBeginning_eq]
  omega

/-- The block of slot 8 is accepted while slot 7 has just begun. -/
example : ¬ OnTime (1735732800 + 42) exB.header.slot ∧
    (importStep exW (some (1735732800 + 42)) exNode exB).2 = .ok (exRoot fun k => if k = 0 then some 8 else none) ∧
    (importStep exW (some (1735732800 + 41)) exNode exB).2 = .error .future := by
  have : exB.header.slot = 8 := by decide +kernel
  refine ⟨by rw [this]; unfold OnTime; omega, ?_⟩
  decide +kernel

/-! ## Runs of the importer -/

/-- **C62** (partial: blocks with a zero parent hash are left out, see `C62_zero_parent_unchecked`; the ring cache may
change between blocks, see C40): after any sequence of blocks, at any times, the node is at the point reached by the
accepted blocks, which form a chain from where it started, and every accepted header can be looked up by its
hash: the header found has that hash. -/
theorem C62_history_partial (W : World K V ρ) (n : Node K V ρ) (p : Point K V ρ) (l : List (Option Nat × Block))
    (ha : At W n p) (hh' : ∀ e ∈ n.headers, e.1 = hh W e.2)
    (hok : ∀ e ∈ l, Spec.BlockOk W.P e.2 ∧ e.2.header.parent ≠ List.replicate 32 0) :
    ∃ q, Trace W false p (accepted l (importAll W n l).2) q ∧ At W (importAll W n l).1 q ∧
      ∀ b ∈ accepted l (importAll W n l).2, ∃ h, find (importAll W n l).1.headers (hh W b.header) = some h ∧
        hh W h = hh W b.header := by
  obtain ⟨q, ht, hq, hs, hm⟩ := importAll_trace W l hok n p p [] .nil ha hh' (fun b hb => by cases hb)
  rw [List.nil_append] at ht hm
  refine ⟨q, ht, hq, fun b hb => ?_⟩
  obtain ⟨h, hf⟩ := find_isSome (hm b hb)
  exact ⟨h, hf, (hs _ (find_mem hf)).symm⟩

/-- Of five blocks, two are accepted. -/
def exRun : List (Option Nat × Block) :=
  [(some 0, exB), (some 1735732900, exC), (some 1735732900, exB), (some 1735732900, exB), (some 1735732900, exC)]

theorem exRun_accepted : accepted exRun (importAll exW exNode exRun).2 = [exB, exC] := by decide +kernel

theorem exRun_ok : ∀ e ∈ exRun, Spec.BlockOk exW.P e.2 ∧ e.2.header.parent ≠ List.replicate 32 0 := by
  intro e he
  simp only [exRun, List.mem_cons, List.not_mem_nil, or_false] at he
  rcases he with rfl | rfl | rfl | rfl | rfl
  · exact ⟨exB_ok, exB_parent⟩
  · exact ⟨exC_ok, exC_parent⟩
  · exact ⟨exB_ok, exB_parent⟩
  · exact ⟨exB_ok, exB_parent⟩
  · exact ⟨exC_ok, exC_parent⟩

example : ∃ q, Trace exW false exPoint [exB, exC] q ∧ At exW (importAll exW exNode exRun).1 q := by
  obtain ⟨q, h, h', _⟩ := C62_history_partial exW exNode exPoint exRun exNode_at (fun e he => by cases he) exRun_ok
  rw [exRun_accepted] at h
  exact ⟨q, h, h'⟩

/-- **C62**: along a chain the slots strictly increase. -/
theorem C62_slots (W : World K V ρ) (wa : Bool) (p q : Point K V ρ) (bs : List Block) (h : Chain W wa p bs q) :
    (p.header.slot :: bs.map fun b => b.header.slot).Pairwise (· < ·) := (chain_increasing h).1

/-- **C62**: the hash of the last header commits to the whole chain and to the state after it: two chains from the same
point whose last headers have the same hash consist of the same blocks and lead to the same point, or two different
strings hashed for them have the same hash. -/
theorem C62_commits (W : World K V ρ) (wa : Bool) (hH : ∀ x, (W.H x).length = 32) (g p p' : Point K V ρ)
    (bs bs' : List Block) (hg : Spec.HeaderOk W.P g.header) (hb : ∀ b ∈ bs, Spec.BlockOk W.P b)
    (hb' : ∀ b ∈ bs', Spec.BlockOk W.P b) (h : Chain W wa g bs p) (h' : Chain W wa g bs' p')
    (e : hh W p.header = hh W p'.header) :
    bs = bs' ∧ p = p' ∨ ∃ y ∈ strings W g.header bs, ∃ z ∈ strings W g.header bs', y ≠ z ∧ W.H y = W.H z :=
  commits hH hg h bs' p' hb hb' h' e

theorem exOblivious : Oblivious exW :=
  ⟨fun _ _ _ _ _ => ⟨rfl, rfl⟩, fun _ _ _ _ _ _ => ⟨rfl, rfl⟩⟩

example : ∃ q, Chain exW false exPoint [exB, exC] q ∧ exPoint.header.slot < exB.header.slot ∧
    exB.header.slot < exC.header.slot ∧ ∀ bs q', (∀ b ∈ bs, Spec.BlockOk exW.P b) → Chain exW false exPoint bs q' →
      hh exW q.header = hh exW q'.header → [exB, exC] = bs ∧ q = q' ∨
      ∃ y ∈ strings exW exPoint.header [exB, exC], ∃ z ∈ strings exW exPoint.header bs, y ≠ z ∧ exW.H y = exW.H z := by
  obtain ⟨q, h, h', _⟩ := C62_history_partial exW exNode exPoint exRun exNode_at (fun e he => by cases he) exRun_ok
  rw [exRun_accepted] at h
  obtain ⟨r, h⟩ := trace_chain exOblivious h
  have hb : ∀ b ∈ [exB, exC], Spec.BlockOk exW.P b := by
    intro b hb
    simp only [List.mem_cons, List.not_mem_nil, or_false] at hb
    rcases hb with rfl | rfl
    · exact exB_ok
    · exact exC_ok
  have := C62_slots exW false _ _ _ h
  simp only [List.map, List.pairwise_cons, List.mem_cons, List.not_mem_nil, or_false] at this
  exact ⟨_, h, this.1 _ (.inl rfl), this.2.1 _ rfl,
    fun bs q' hb' h' e => C62_commits exW false exH_len exPoint _ _ _ _ exGen_ok hb hb' h h' e⟩

/-- **C62** (partial, as `C62_history_partial`): agreement.  Two nodes at the same point, given any blocks in any order,
that end with best headers of the same hash have committed the same state, or two different strings hashed for the
blocks they accepted have the same hash; provided the ring cache is only a cache. -/
theorem C62_agree_partial (W : World K V ρ) (hH : ∀ x, (W.H x).length = 32) (ho : Oblivious W) (n n' : Node K V ρ)
    (p : Point K V ρ) (l l' : List (Option Nat × Block)) (ha : At W n p) (ha' : At W n' p)
    (hh1 : ∀ e ∈ n.headers, e.1 = hh W e.2) (hh2 : ∀ e ∈ n'.headers, e.1 = hh W e.2)
    (hok : ∀ e ∈ l, Spec.BlockOk W.P e.2 ∧ e.2.header.parent ≠ List.replicate 32 0)
    (hok' : ∀ e ∈ l', Spec.BlockOk W.P e.2 ∧ e.2.header.parent ≠ List.replicate 32 0)
    (e : hh W (importAll W n l).1.best = hh W (importAll W n' l').1.best) :
    (importAll W n l).1.db = (importAll W n' l').1.db ∨
    ∃ y ∈ strings W p.header (accepted l (importAll W n l).2),
      ∃ z ∈ strings W p.header (accepted l' (importAll W n' l').2), y ≠ z ∧ W.H y = W.H z := by
  obtain ⟨q, ht, hq, _⟩ := C62_history_partial W n p l ha hh1 hok
  obtain ⟨q', ht', hq', _⟩ := C62_history_partial W n' p l' ha' hh2 hok'
  obtain ⟨r, hc⟩ := trace_chain ho ht
  obtain ⟨r', hc'⟩ := trace_chain ho ht'
  have sub : ∀ (l : List (Option Nat × Block)) rs, (∀ e ∈ l, Spec.BlockOk W.P e.2 ∧ e.2.header.parent ≠ List.replicate 32 0) →
      ∀ b ∈ accepted l rs, Spec.BlockOk W.P b := by
    intro l
    induction l with
    | nil => intro rs _ b hb; simp [accepted] at hb
    | cons x l ih =>
      obtain ⟨t, x⟩ := x
      intro rs hl b hb
      cases rs with
      | nil => simp [accepted] at hb
      | cons r rs =>
        have hl' := fun e he => hl e (List.mem_cons_of_mem _ he)
        cases r with
        | error e => exact ih rs hl' b (by simpa [accepted] using hb)
        | ok y =>
          simp only [accepted, List.mem_cons] at hb
          rcases hb with rfl | hb
          · exact (hl (t, b) List.mem_cons_self).1
          · exact ih rs hl' b hb
  rw [hq.best, hq'.best] at e
  rcases commits hH ha.headerOk hc _ _ (sub _ _ hok) (sub _ _ hok') hc' e with ⟨_, h⟩ | h
  · left
    have hs : q.st = q'.st := by have := congrArg Point.st h; exact this
    rw [hq.db, hq'.db, hs]
  · exact .inr h

/-- One node sees the blocks in order, the other rejects some first; both end at the second block. -/
example : ∀ l', (∀ e ∈ l', e ∈ exRun) → hh exW (importAll exW exNode exRun).1.best = hh exW (importAll exW exNode l').1.best →
    (importAll exW exNode exRun).1.db = (importAll exW exNode l').1.db ∨
    ∃ y ∈ strings exW exPoint.header (accepted exRun (importAll exW exNode exRun).2),
      ∃ z ∈ strings exW exPoint.header (accepted l' (importAll exW exNode l').2), y ≠ z ∧ exW.H y = exW.H z :=
  fun l' hl e => C62_agree_partial exW exH_len exOblivious exNode exNode exPoint exRun l'
    exNode_at exNode_at (fun e he => by cases he) (fun e he => by cases he) exRun_ok (fun e he => exRun_ok e (hl e he)) e
example : hh exW (importAll exW exNode exRun).1.best = hh exW (importAll exW exNode (exRun.drop 3)).1.best ∧
    (importAll exW exNode exRun).2.length = 5 ∧ (importAll exW exNode (exRun.drop 3)).2.length = 2 := by decide +kernel

/-! ## Blocks whose parent hash is zero -/

/-- **C62** fails for a block whose parent hash is zero.  Nothing in its header is checked: neither the slot, nor the
clock, nor the prior state root, nor the extrinsic hash, nor the seal.  It is accepted, by a node at any point and
at any time, whenever the genesis transition and the final phase succeed; its writes are then committed, while the
best header stays what it was. -/
theorem C62_zero_parent_unchecked (W : World K V ρ) (clock : Option Nat) (n : Node K V ρ) (p : Point K V ρ) (b : Block)
    (ha : At W n p) (hb : Spec.HeaderOk W.P b.header) (hz : b.header.parent = List.replicate 32 0) (d d' : Delta K V) (r : ρ)
    (h1 : W.genesis b p.st p.st p.ring = (d, r, some ()))
    (h2 : W.fin (hh W b.header) (List.replicate 32 0) p.st (over d p.st) = (d', some ())) :
    ∃ n', importStep W clock n b = (n', .ok (W.root (over (d' ++ d) p.st))) ∧ n'.db = over (d' ++ d) p.st ∧
      n'.best = p.header ∧ n'.dirty = [] ∧ n'.ring = r := by
  obtain ⟨db, dirty, ring, best, anc, headers, roots⟩ := n
  obtain ⟨a1, a2, a3, a4, a5, a6, a7⟩ := ha
  simp only at a1 a2 a3 a4 a5 a6
  subst a1 a2 a3 a4 a5
  have hg : isGenesis b = true := by simp [isGenesis, zeroHash, hz]
  have hx := hash_ok (W := W) hb
  unfold importStep
  rw [hx]
  simp only [importBlock, hx, validate, hg, if_true, runStf, exec, phaseG, Node.view, over, h1]
  simp only [finish, hx, phase3, Node.view, List.append_nil, genesisOut, h2]
  refine ⟨_, rfl, ?_, ?_, ?_, ?_⟩ <;> simp [Node.setRoot, insertIf, Node.insertHeader, conclude, Node.commit, Node.view]

def exZ' : Block := ⟨⟨List.replicate 32 0, ex32 0, ex32 0, 1, none, none, 77, List.replicate 96 0, [], List.replicate 96 0⟩, noXt⟩

/-- A block with a zero seal, an old slot and an author that does not exist is accepted. -/
example : ∃ n', importStep exW (some 0) exNode exZ' = (n', .ok (exRoot (over [(7, some 1)] exSt))) ∧
    n'.db = over [(7, some 1)] exSt ∧ n'.best = exGen ∧ n'.dirty = [] ∧ n'.ring = 0 :=
  C62_zero_parent_unchecked exW (some 0) exNode exPoint exZ' exNode_at (exPlain (by decide +kernel)) rfl [(7, some 1)] [] 0
    (by rfl) (by rfl)

/-- **C62** fails for the chain after such a block: there are a node, a block anybody can make, and two further blocks
which form a valid chain from the point the node is at, such that the node accepts the first block, then executes the
second on the wrong state and answers another root than that of its valid execution, and rejects the third. -/
theorem C62_zero_parent_breaks : ∃ (W : World Nat Nat Nat) (n : Node Nat Nat Nat) (p q r : Point Nat Nat Nat) (z b c : Block)
    (x y : Bytes), At W n p ∧ z.header.parent = List.replicate 32 0 ∧ z.header.sealSig = List.replicate 96 0 ∧
    Chain W false p [b, c] r ∧ Extends W false (fun _ => True) p b q ∧
    (importAll W n [(some 2000000000, z), (some 2000000000, b), (some 2000000000, c)]).2 =
      [.ok x, .ok y, .error .rootWrong] ∧ y ≠ W.root q.st := by
  obtain ⟨q, hq, hqn⟩ := exB_extends
  obtain ⟨r, h, h', _⟩ := C62_history_partial exW exNode exPoint exRun exNode_at (fun e he => by cases he) exRun_ok
  rw [exRun_accepted] at h
  obtain ⟨r', h⟩ := trace_chain exOblivious h
  have hroot : exW.root q.st = exRoot fun k => if k = 0 then some 8 else none := by
    have := (C62_complete exW (1735732848 + 6) exNode exPoint q exB exNode_at exB_ok exB_parent hq).1
    have h2 : (importStep exW (some (1735732848 + 6)) exNode exB).2 =
        .ok (exRoot fun k => if k = 0 then some 8 else none) := by decide +kernel
    exact (Except.ok.inj (h2.symm.trans this)).symm
  refine ⟨exW, exNode, exPoint, q, _, exZ', exB, exC, exRoot (over [(7, some 1)] exSt),
    exRoot (fun k => if k = 0 then some 8 else if k = 7 then some 1 else none), exNode_at, by decide +kernel, by decide +kernel, h,
    extends_weaken hq (fun _ _ => trivial), by decide +kernel, ?_⟩
  rw [hroot]
  decide +kernel

example : exZ'.header.slot < exPoint.header.slot ∧ exW.authorKey exSt exZ'.header.author = none := by decide +kernel

/-! ## Authoring -/

/-- **C62**: an authored block is a valid one: if the author's secret key works and is the one its index stands for after
the first phase, then every node at the same point that receives the block when its slot has begun accepts it, with
the root the author found, and ends with the same state, ring, best header and recorded root. -/
theorem C62_authored (W : World K V ρ) (sk pk : Bytes) (hk : KeyPair W sk pk) (i slot now : Nat) (n n' m : Node K V ρ)
    (p : Point K V ρ) (b : Block) (root : Bytes) (hn : At W n p) (hm : At W m p)
    (e : authorBlock W sk i slot n = (n', some (b, root))) (hl : p.header.slot < slot) (ht : OnTime now slot)
    (hz : b.header.parent ≠ List.replicate 32 0)
    (hkey : ∀ d1 r1 mk, W.pre ⟨slot, W.root p.st, noXt.disputes, noXt.tickets⟩ p.st p.st p.ring = (d1, r1, some mk) →
      W.authorKey (over d1 p.st) i = some pk ∧ ∀ k, W.sealer (over d1 p.st) slot = .key k → k = pk) :
    ∃ m', importStep W (some now) m b = (m', .ok root) ∧ m'.db = n'.db ∧ m'.dirty = n'.dirty ∧ m'.ring = n'.ring ∧
      m'.best = n'.best ∧ ∃ x, m'.roots = (x, root) :: m.roots ∧ n'.roots = (x, root) :: n.roots := by
  have ht' : timeOk (some now) slot := by
    intro t e
    cases e
    unfold OnTime at ht
    rw [inFuture_iff, slotBeginning_eq]
    omega
  obtain ⟨m', h1, h2, h3, h4, h5, ⟨x, h6, h7, _⟩, _⟩ := authored_import hk hn hm e hl ht' hz hkey
  exact ⟨m', h1, h2, h3, h4, h5, x, h6, h7⟩

theorem exKey : KeyPair exW (ex32 9) (ex32 9) :=
  ⟨fun i m => by simp [exW], fun i => ⟨exH i, fun m => by
    have : (exH i).length = 32 := exH_len i
    simp [exW, exSign, ex32, ← this]⟩⟩

theorem exA_some : exA = (exA.1, some (exB, exRoot fun k => if k = 0 then some 8 else none)) := by
  have : exA.2 = some (exB, exRoot fun k => if k = 0 then some 8 else none) := by decide +kernel
  exact Prod.ext rfl this

example : ∃ m', importStep exW (some 1735732848) exNode exB = (m', .ok (exRoot fun k => if k = 0 then some 8 else none)) ∧
    m'.db = exA.1.db ∧ m'.best = exA.1.best := by
  obtain ⟨m', h1, h2, _, _, h5, _⟩ := C62_authored exW (ex32 9) (ex32 9) exKey 2 8 1735732848 exNode exA.1 exNode exPoint exB _
    exNode_at exNode_at exA_some (by decide) (by unfold OnTime; decide) exB_parent (fun d1 r1 mk _ => ⟨rfl, fun k hk => by
      cases hk; rfl⟩)
  exact ⟨m', h1, h2, h5⟩

/-- **C62** fails for the ancestors of an author: a node that imports the block records it among its ancestors, the node
that authored it does not, so the two no longer agree on the ancestors. -/
theorem C62_author_ancestors (W : World K V ρ) (sk pk : Bytes) (hk : KeyPair W sk pk) (i slot now : Nat) (n n' m : Node K V ρ)
    (p : Point K V ρ) (b : Block) (root : Bytes) (hn : At W n p) (hm : At W m p)
    (e : authorBlock W sk i slot n = (n', some (b, root))) (hl : p.header.slot < slot) (ht : OnTime now slot)
    (hz : b.header.parent ≠ List.replicate 32 0)
    (hkey : ∀ d1 r1 mk, W.pre ⟨slot, W.root p.st, noXt.disputes, noXt.tickets⟩ p.st p.st p.ring = (d1, r1, some mk) →
      W.authorKey (over d1 p.st) i = some pk ∧ ∀ k, W.sealer (over d1 p.st) slot = .key k → k = pk) :
    n'.anc = p.anc ∧ ∃ x, (importStep W (some now) m b).1.anc = (slot, x) :: p.anc := by
  have ht' : timeOk (some now) slot := by
    intro t e
    cases e
    unfold OnTime at ht
    rw [inFuture_iff, slotBeginning_eq]
    omega
  obtain ⟨m', h1, _, _, _, _, ⟨x, _, _, h8⟩, h9⟩ := authored_import hk hn hm e hl ht' hz hkey
  exact ⟨h9, x, by rw [h1]; exact h8⟩

example : exA.1.anc = [] ∧ (importStep exW (some 1735732848) exNode exB).1.anc.length = 1 := by decide +kernel

/-- A world whose second phase always fails. -/
def exF : World Nat Nat Nat := { exW with post := fun _ _ _ _ r => ([], r, none) }
def exFn : Node Nat Nat Nat := (authorBlock exF (ex32 9) 2 8 exNode).1
def exFh : Header := exFn.best
/-- The block a peer authors next, on the previous best header. -/
def exPeer : Block := ((authorBlock exW (ex32 9) 2 9 exNode).2.getD (⟨exDefault, noXt⟩, [])).1

theorem authorState_none {W : World K V ρ} {n : Node K V ρ} {h : Header} (e : (authorState W n h).2 = none) :
    (authorState W n h).1.best = n.best ∧ (authorState W n h).1.roots = n.roots := by
  have hx : (execPost W false n ⟨h, noXt⟩).1.best = n.best ∧ (execPost W false n ⟨h, noXt⟩).1.roots = n.roots := by
    unfold execPost phase2
    generalize W.post (postIn ⟨h, noXt⟩) (if false = true then some n.anc else none) n.db n.view n.ring = r
    obtain ⟨d, r, o⟩ := r
    cases o with
    | none => exact ⟨rfl, rfl⟩
    | some o =>
      obtain ⟨out, c⟩ := o
      simp only [finish]
      cases Header.hash W.H h with
      | error e => exact ⟨rfl, rfl⟩
      | ok hash =>
        simp only [phase3]
        generalize W.fin hash out _ _ = f
        obtain ⟨d3, o⟩ := f
        cases o <;> exact ⟨rfl, rfl⟩
  unfold authorState at e ⊢
  generalize execPost W false n ⟨h, noXt⟩ = r at e hx ⊢
  obtain ⟨m, r⟩ := r
  cases r with
  | error x => exact hx
  | ok c =>
    cases hh' : Header.hash W.H h with
    | error x => exact hx
    | ok hash => rw [hh'] at e; simp at e

/-- A node with no root recorded for its best header rejects every block with a parent hash other than zero. -/
theorem rootless {W : World K V ρ} {h : Header} (hw : Spec.HeaderOk W.P h) (l : List (Option Nat × Block))
    (hok : ∀ e ∈ l, Spec.BlockOk W.P e.2 ∧ e.2.header.parent ≠ List.replicate 32 0) (n : Node K V ρ) (hb : n.best = h)
    (hr : find n.roots (hh W h) = none) : ∀ r ∈ (importAll W n l).2, ∃ e, r = .error e := by
  induction l generalizing n with
  | nil => intro r hr; simp [importAll] at hr
  | cons x l ih =>
    obtain ⟨t, b⟩ := x
    obtain ⟨hbok, hz⟩ := hok (t, b) List.mem_cons_self
    have hg : isGenesis b = false := notGenesis hz
    have hst : ∃ e, importStep W t n b = (n.rollback, .error e) := by
      unfold importStep
      rw [hash_ok hbok.header]
      simp only [importBlock, hash_ok hbok.header, validate, hg, Bool.false_eq_true, if_false]
      cases hc : checkPrior W t n b with
      | error e => exact ⟨e, rfl⟩
      | ok u =>
        exfalso
        have := (checkPrior_ok W t n hbok (by rw [hb]; exact hw)).1 hc
        rw [this.2.2.1, hb, hr] at this
        simp at this
    obtain ⟨e, he⟩ := hst
    intro r hr'
    simp only [importAll, he, List.mem_cons] at hr'
    rcases hr' with rfl | hr'
    · exact ⟨e, rfl⟩
    · exact ih (fun e he => hok e (List.mem_cons_of_mem _ he)) n.rollback hb hr r hr'

/-- **C62** fails for an author whose second phase fails: the header has already become the best one, and no state root
is recorded for it, so every later block with a parent hash other than zero is rejected. -/
theorem C62_author_stuck (W : World K V ρ) (sk : Bytes) (i slot : Nat) (n n1 : Node K V ρ) (h : Header)
    (hw : Spec.HeaderOk W.P h) (e1 : authorHeader W sk i slot n = (n1, some h)) (e2 : (authorState W n1 h).2 = none)
    (hr : find n.roots (hh W h) = none) (l : List (Option Nat × Block))
    (hok : ∀ e ∈ l, Spec.BlockOk W.P e.2 ∧ e.2.header.parent ≠ List.replicate 32 0) :
    ∀ r ∈ (importAll W (authorBlock W sk i slot n).1 l).2, ∃ e, r = .error e := by
  have hn : (authorBlock W sk i slot n).1 = (authorState W n1 h).1 := by
    unfold authorBlock
    rw [e1]
    simp only []
    generalize authorState W n1 h = s at e2 ⊢
    obtain ⟨s1, s2⟩ := s
    simp only at e2
    subst e2
    rfl
  obtain ⟨x1, x2⟩ := authorState_none e2
  obtain ⟨xh, parent, d1, r1, m, vrf, s, hash, h0, -, -, -, -, -, -, -, -, hn1⟩ := authorHeader_some e1
  have y1 : n1.best = h := by rw [hn1]
  have y2 : n1.roots = n.roots := by rw [hn1]
  exact rootless hw l hok _ (by rw [hn, x1, y1]) (by rw [hn, x2, y2]; exact hr)

/-- The author is left with a dirty cache and rejects the block a peer makes on the header before, which it would
otherwise accept. -/
example : exFn.best.slot = 8 ∧ exFn.dirty = [(0, some 8)] ∧
    (importStep exF none exFn exPeer).2 = .error .parent ∧
    (importStep exW none exNode exPeer).2 = .ok (exRoot fun k => if k = 0 then some 9 else none) := by decide +kernel

example : ∀ r ∈ (importAll exF exFn exRun).2, ∃ e, r = .error e := by
  have h2 : (authorHeader exF (ex32 9) 2 8 exNode).2 = some exFh := by decide +kernel
  exact C62_author_stuck exF (ex32 9) 2 8 exNode _ exFh (exPlain (by decide +kernel))
    (Prod.ext rfl h2) (by decide +kernel) (by decide +kernel) exRun exRun_ok

end Fastroll.Chain
