import Verif.Ring.Chains
/-!
# C40: the ring verifier is the one of the requested set
-/
namespace Fastroll.Ring
open Fastroll.Ring.Spec

variable {V H : Type} [DecidableEq H]

/-- **C40, epoch transition.**  In every history of blocks (accepted or rejected at any point, with the ring
cache put back after a rejection or not), completions of background tasks at any time and returns to earlier
blocks, the ring root a block computes when an epoch begins is that of the staging set with all offenders
nulled; or else the set behind it is another set with the same hash. -/
theorem C40_epoch_ring_root (W : World V H) (E : Nat) (restores : Bool) (h0 : H) (c : Chain)
    (ops : List Op) (e : Entry V) (he : e ∈ (run W E restores (start h0 c) ops).2) (v : V)
    (hv : e.out.root = some v) :
    ∃ s, Effective e.pre.staging (e.pre.punish ++ e.block.offenders) s ∧
      (v = W.gen s ∨ ∃ a, a ≠ s ∧ W.hash a = W.hash s ∧ v = W.gen a) :=
  ⟨_, effective_nullify _ _, run_root E restores ops (start h0 c)
    ⟨⟨ctxOk_none, ctxOk_none⟩, fun s h => by cases h⟩ e he v hv⟩

theorem newEpoch_iff (E p s : Nat) : newEpoch E p s = true ↔ p / E < s / E := by
  simp [newEpoch]

/-- **C40, tickets.**  The tickets of every block are checked with the verifier generated from the pending
set of that block, in every history
* without two sets of the same hash,
* in which no block that begins an epoch designates a staging set,
* in which the ring cache is put back when a block is rejected (the fuzz target does; the block importer of
  the node does not), or no block is rejected once it touched the cache,
* and in which background tasks may complete at any time if there are no forks and no block is rejected after
  accumulation, and otherwise at any time except between the first step of a block and the end of its
  disputes.

Missing: each of the first three restrictions is necessary (see the witnesses below and
`C40_tickets_epoch_start_designation_wrong`). -/
theorem C40_ticket_verifier_partial (W : World V H) (E : Nat) (restores : Bool) (h0 : H) (c : Chain)
    (ops : List Op) (hcol : NoCollision W c ops)
    (hquiet : QuietStart E (run W E restores (start h0 c) ops).2)
    (hrej : restores = true ∨ ∀ b, Op.block b ∈ ops → b.reject = none ∨ b.reject = some .early)
    (htime : (∀ b, Op.block b ∈ ops → b.t1 = [] ∧ b.t2 = []) ∨
      ((∀ k, Op.fork k ∉ ops) ∧ ∀ b, Op.block b ∈ ops → b.reject ≠ some .late))
    (e : Entry V) (he : e ∈ (run W E restores (start h0 c) ops).2) (v : V)
    (hv : e.out.tickets = some v) :
    ∃ s, Pending E e.pre e.block s ∧ v = W.gen s := by
  have occ_null : ∀ (s : List VKey) (p : List Nat), Effective s p (nullify s p) := effective_nullify
  have hself : ∀ (s : List VKey), Effective s [] s := by
    intro s
    rw [effective_iff]
    induction s with
    | nil => rfl
    | cons k ks ih => simp [nullify, ← ih]
  have ok : W.Ok (Occurs c ops) := by
    refine ⟨hcol, ?_⟩
    rintro a p ⟨s, q, hs, hm⟩
    refine ⟨s, q ++ p, ?_, hm⟩
    rw [effective_iff] at hs ⊢
    rw [hs, nullify_nullify]
  have hst := start_inv (W := W) (occ := Occurs c ops) h0 c
    (fun p => ⟨c.staging, p, occ_null _ _, Or.inl rfl⟩) ⟨c.pending, [], hself _, Or.inr (Or.inl rfl)⟩
  have := run_tickets E restores ok ops (start h0 c) hst.1 ⟨hrej, htime⟩ (fun _ => hst.2)
    (fun b hb s hs p => ⟨s, p, occ_null _ _, Or.inr (Or.inr ⟨b, hb, hs⟩)⟩) hquiet e he v hv
  refine ⟨_, ?_, this⟩
  unfold pendingOf Pending
  by_cases h : e.pre.slot / E < e.block.slot / E
  · rw [if_pos ((newEpoch_iff _ _ _).2 h)]
    exact Or.inl ⟨h, effective_nullify _ _⟩
  · rw [if_neg (fun x => h ((newEpoch_iff _ _ _).1 x))]
    exact Or.inr ⟨Nat.le_of_not_lt h, rfl⟩

/-- **C40, what blocks ask for.**  An accepted block asks for a ring root exactly when it begins an epoch and
for a verifier exactly when it has tickets, and moves the mirrored chain state as the Gray Paper says. -/
theorem C40_block_requests (W : World V H) (E : Nat) (restores : Bool) (n : Node V H) (b : Block)
    (hs : n.chain.slot < b.slot) (hr : b.reject = none) :
    ((runBlock W E restores n b).2.root.isSome ↔ n.chain.slot / E < b.slot / E) ∧
    ((runBlock W E restores n b).2.tickets.isSome ↔ b.tickets = true) ∧
    (runBlock W E restores n b).1.chain.slot = b.slot ∧
    (∀ k, k ∈ (runBlock W E restores n b).1.chain.punish ↔ k ∈ n.chain.punish ∨ k ∈ b.offenders) ∧
    (∀ s, (runBlock W E restores n b).1.chain.staging = s ↔
      b.designate = some s ∨ (b.designate = none ∧ s = n.chain.staging)) ∧
    Pending E n.chain b (runBlock W E restores n b).1.chain.pending := by
  unfold runBlock
  rw [if_neg (by rw [hr]; simp; omega)]
  dsimp only
  rw [if_neg (by rw [hr]; simp), if_neg (by rw [hr]; simp), if_neg (by rw [hr]; simp)]
  dsimp only
  refine ⟨?_, ?_, rfl, fun k => List.mem_append, ?_, ?_⟩
  · unfold epochStep
    rw [← newEpoch_iff]
    split
    · rename_i h; simp [h]
    · rename_i h; simp [h]
  · unfold ticketStep
    split
    · rename_i h; simp [h]
    · rename_i h; simp [h]
  · intro s
    cases b.designate with
    | none => simp [eq_comm]
    | some x => simp
  · unfold Pending
    by_cases h : n.chain.slot / E < b.slot / E
    · rw [if_pos ((newEpoch_iff _ _ _).2 h)]
      exact Or.inl ⟨h, effective_nullify _ _⟩
    · rw [if_neg (fun x => h ((newEpoch_iff _ _ _).1 x))]
      exact Or.inr ⟨Nat.le_of_not_lt h, rfl⟩

/-! ## Examples -/

/-- Verifiers and hashes that are the sets themselves. -/
def exW : World (List VKey) (List VKey) := ⟨id, id⟩

def exChain : Chain := ⟨0, [⟨1, 1⟩, ⟨2, 2⟩], [], [⟨1, 1⟩, ⟨2, 2⟩]⟩

def exBlock (slot : Nat) : Block := ⟨slot, [], true, none, none, [], [], [], [], []⟩

/-- An epoch begins; a staging set is designated, the task building its ring completes in the middle of the
first block of the next epoch, which also punishes a validator of that set. -/
def exOps : List Op :=
  [.block (exBlock 12), .block { exBlock 13 with designate := some [⟨3, 3⟩, ⟨4, 4⟩] },
   .block { exBlock 24 with offenders := [4], t1 := [0] }, .block { exBlock 25 with offenders := [3] }]

example : (run exW 12 false (start [] exChain) exOps).2.map (fun e => e.out.tickets) =
    [some [⟨1, 1⟩, ⟨2, 2⟩], some [⟨1, 1⟩, ⟨2, 2⟩], some [⟨3, 3⟩, ⟨0, 0⟩], some [⟨3, 3⟩, ⟨0, 0⟩]] := by
  decide +kernel

example : (run exW 12 false (start [] exChain) exOps).2.map (fun e => e.out.root) =
    [some [⟨1, 1⟩, ⟨2, 2⟩], none, some [⟨3, 3⟩, ⟨0, 0⟩], none] := by
  decide +kernel

example : NoCollision exW exChain exOps ∧
    QuietStart 12 (run exW 12 false (start [] exChain) exOps).2 ∧
    (∀ b, Op.block b ∈ exOps → b.reject = none ∨ b.reject = some .early) ∧
    ((∀ k, Op.fork k ∉ exOps) ∧ ∀ b, Op.block b ∈ exOps → b.reject ≠ some .late) := by
  refine ⟨fun a a' _ _ h => h, ?_, ?_, ?_, ?_⟩
  · have : ∀ e ∈ (run exW 12 false (start [] exChain) exOps).2,
        e.pre.slot / 12 < e.block.slot / 12 → e.block.designate = none := by decide +kernel
    exact this
  all_goals simp [exOps, exBlock]

/-- A fork, a rejected block that had designated a set, and its task completing on the other branch, with
the ring cache put back after the rejection. -/
def exOpsFork : List Op :=
  [.block (exBlock 12), .block { exBlock 13 with designate := some [⟨3, 3⟩, ⟨4, 4⟩] }, .fork 0,
   .block { exBlock 13 with designate := some [⟨5, 5⟩, ⟨6, 6⟩], reject := some .late },
   .block { exBlock 14 with designate := some [⟨7, 7⟩, ⟨8, 8⟩] }, .tasks [0, 0, 0], .block (exBlock 24)]

example : (run exW 12 true (start [] exChain) exOpsFork).2.map (fun e => e.out.tickets) =
    [some [⟨1, 1⟩, ⟨2, 2⟩], some [⟨1, 1⟩, ⟨2, 2⟩], some [⟨1, 1⟩, ⟨2, 2⟩], some [⟨1, 1⟩, ⟨2, 2⟩],
     some [⟨7, 7⟩, ⟨8, 8⟩]] := by
  decide +kernel

/-! ## The restrictions are necessary -/

/-- The verifier `v` is not that of the pending set of the block. -/
def Wrong (E : Nat) (e : Entry (List VKey)) : Prop :=
  ∃ v, e.out.tickets = some v ∧ ∀ s, Pending E e.pre e.block s → v ≠ exW.gen s

theorem wrong_of (E : Nat) (e : Entry (List VKey)) (v : List VKey) (h : e.out.tickets = some v)
    (h1 : v ≠ pendingOf E e.pre e.block) : Wrong E e := by
  refine ⟨v, h, ?_⟩
  intro s hs hv
  apply h1
  rw [hv]
  unfold pendingOf
  show s = _
  rcases hs with ⟨h2, h3⟩ | ⟨h2, h3⟩
  · rw [if_pos ((newEpoch_iff _ _ _).2 h2)]
    exact (effective_iff _ _ _).1 h3
  · rw [if_neg (fun x => by have := (newEpoch_iff _ _ _).1 x; omega)]
    exact h3

/-- The first block of an epoch designates a set whose second key, new, is punished in the next epoch. -/
def badDesignate : List Op :=
  [.block { exBlock 12 with designate := some [⟨1, 1⟩, ⟨3, 3⟩], tickets := false }, .tasks [0],
   .block { exBlock 24 with tickets := false }, .block { exBlock 25 with offenders := [3] }]

/-- **C40, counterexample.**  Four ordinary steps of one chain, every block accepted, no two sets with the
same hash, all tasks completed between blocks: the first block of an epoch designates a staging set, and in
the next epoch the key it added is punished.  The tickets are then checked against the ring of the staging
set of two epochs before: the cached entry carries the slot of the designation and, since its hash equals the
*new* effective staging set, passes for current; the requested pending set is not looked at. -/
theorem C40_tickets_epoch_start_designation_wrong :
    ∃ (c : Chain) (ops : List Op), NoCollision exW c ops ∧
      (∀ b, Op.block b ∈ ops → b.reject = none ∧ b.t1 = [] ∧ b.t2 = []) ∧ (∀ k, Op.fork k ∉ ops) ∧
      ∃ e ∈ (run exW 12 false (start [] c) ops).2, Wrong 12 e := by
  refine ⟨⟨0, [⟨1, 1⟩, VKey.zero], [], [⟨1, 1⟩, VKey.zero]⟩, badDesignate, fun a a' _ _ h => h, ?_, ?_, ?_⟩
  · simp [badDesignate, exBlock]
  · simp [badDesignate]
  · refine ⟨((run exW 12 false (start [] ⟨0, [⟨1, 1⟩, VKey.zero], [], [⟨1, 1⟩, VKey.zero]⟩) badDesignate).2)[2]'(by decide +kernel), List.getElem_mem _, ?_⟩
    refine wrong_of 12 _ [⟨1, 1⟩, VKey.zero] (by decide +kernel) (by decide +kernel)

/-- A block whose disputes do not stand up names validator 1 as an offender. -/
def badRejected : List Op :=
  [.block (exBlock 12), .block { exBlock 13 with offenders := [1], reject := some .disputes },
   .block (exBlock 24)]

/-- **C40, counterexample.**  The node's block importer rolls back the state but not the ring cache when a
block is rejected.  A block with made-up disputes nulls keys in the cached staging ring before the disputes
are looked at; it is rejected, and in the next epoch the tickets of valid blocks are checked against the ring
without those keys. -/
theorem C40_rejected_block_poisons_ring :
    ∃ (c : Chain) (ops : List Op), NoCollision exW c ops ∧ QuietStart 12 (run exW 12 false (start [] c) ops).2 ∧
      (∀ b, Op.block b ∈ ops → b.designate = none) ∧
      ∃ e ∈ (run exW 12 false (start [] c) ops).2, e.block.reject = none ∧ Wrong 12 e := by
  refine ⟨exChain, badRejected, fun a a' _ _ h => h, ?_, ?_, ?_⟩
  · have : ∀ e ∈ (run exW 12 false (start [] exChain) badRejected).2,
        e.pre.slot / 12 < e.block.slot / 12 → e.block.designate = none := by decide +kernel
    exact this
  · simp [badRejected, exBlock]
  · refine ⟨((run exW 12 false (start [] exChain) badRejected).2)[2]'(by decide +kernel), List.getElem_mem _, by decide +kernel, ?_⟩
    exact wrong_of 12 _ [VKey.zero, ⟨2, 2⟩] (by decide +kernel) (by decide +kernel)

/-- A rejected block of the next epoch, then a valid block of the current one. -/
def badRotate : List Op :=
  [.block (exBlock 12), .block { exBlock 13 with designate := some [⟨3, 3⟩, ⟨4, 4⟩] }, .tasks [0],
   .block { exBlock 24 with reject := some .disputes }, .block (exBlock 14)]

/-- **C40, counterexample.**  A rejected block of a later epoch rotates the cache: a valid block of the
current epoch that comes after it has its tickets checked against the ring of the next epoch. -/
theorem C40_rejected_block_rotates_ring :
    ∃ (c : Chain) (ops : List Op), NoCollision exW c ops ∧ QuietStart 12 (run exW 12 false (start [] c) ops).2 ∧
      (∀ b, Op.block b ∈ ops → b.offenders = []) ∧
      ∃ e ∈ (run exW 12 false (start [] c) ops).2, e.block.reject = none ∧ Wrong 12 e := by
  refine ⟨exChain, badRotate, fun a a' _ _ h => h, ?_, ?_, ?_⟩
  · have : ∀ e ∈ (run exW 12 false (start [] exChain) badRotate).2,
        e.pre.slot / 12 < e.block.slot / 12 → e.block.designate = none := by decide +kernel
    exact this
  · simp [badRotate, exBlock]
  · refine ⟨((run exW 12 false (start [] exChain) badRotate).2)[3]'(by decide +kernel), List.getElem_mem _, by decide +kernel, ?_⟩
    exact wrong_of 12 _ [⟨3, 3⟩, ⟨4, 4⟩] (by decide +kernel) (by decide +kernel)

/-- C40 (nullify_punished_validators, state/src/types/validators.rs 39-48).  Punished validators have all their keys replaced by
zeros; everyone keeps their position, so ring positions and the order of the others do not change. -/
theorem C40_punished_zeroed (s : List VKey) (p : List Nat) :
    (nullify s p).length = s.length ∧ ∀ (i : Nat) (k : VKey), s[i]? = some k →
      (k.ed ∈ p → (nullify s p)[i]? = some ⟨0, 0⟩) ∧ (k.ed ∉ p → (nullify s p)[i]? = some k) := by
  induction s with
  | nil => exact ⟨rfl, fun i k h => (by simp at h)⟩
  | cons a s ih =>
    refine ⟨by simp [nullify, ih.1], fun i k h => ?_⟩
    cases i with
    | zero =>
      simp only [List.getElem?_cons_zero, Option.some.injEq] at h
      subst h
      constructor
      · intro hp
        simp [nullify, VKey.zero, hp]
      · intro hp
        simp [nullify, hp]
    | succ i =>
      simp only [List.getElem?_cons_succ, nullify] at h ⊢
      exact ih.2 i k h

example : nullify [⟨1, 11⟩, ⟨2, 12⟩, ⟨3, 13⟩] [2] = [⟨1, 11⟩, ⟨0, 0⟩, ⟨3, 13⟩] := by decide

end Fastroll.Ring
