import Verif.Restart.Catch
/-
C80, second part: a node that has missed blocks, for instance because it was down.  The importer is the one of C62; it
is the only consumer of blocks, keeps none it has rejected, and nothing asks a peer for the parent of a block
(`node/src/roles/importer.rs` 118-140, `network/src/streams/up_streams.rs`: one request per announcement, for the announced
block; `storage/src/node_storage.rs` 43-56: other requests are not implemented).
-/
namespace Fastroll.Chain
open Fastroll.Wire Fastroll.Chain.Paper

variable {K V ρ : Type} [DecidableEq K]

/-- **C80** A node that is given the blocks of a chain in their order, each not before its slot, follows it: it accepts
every one and ends with the header and the state the chain leads to. -/
theorem C80_follows (W : World K V ρ) (n : Node K V ρ) (p z : Point K V ρ) (ha : At W n p) (l : List (Nat × Block))
    (hc : Chain W false p (l.map Prod.snd) z)
    (hok : ∀ e ∈ l, Spec.BlockOk W.P e.2 ∧ e.2.header.parent ≠ List.replicate 32 0)
    (ht : ∀ e ∈ l, OnTime e.1 e.2.header.slot) :
    accepted (l.map fun e => (some e.1, e.2)) (importAll W n (l.map fun e => (some e.1, e.2))).2 = l.map Prod.snd ∧
    At W (importAll W n (l.map fun e => (some e.1, e.2))).1 z := follows l n p z ha hc hok ht

/-- The chain of the two example blocks. -/
theorem exChain : ∃ z, Chain exW false exPoint ([] ++ exB :: [exC]) z := by
  obtain ⟨q, h, _, _⟩ := C62_history_partial exW exNode exPoint exRun exNode_at (fun e he => by cases he) exRun_ok
  rw [exRun_accepted] at h
  obtain ⟨r, h⟩ := trace_chain exOblivious h
  exact ⟨_, h⟩

theorem exBoth_ok : ∀ b ∈ [] ++ exB :: [exC], Spec.BlockOk exW.P b ∧ b.header.parent ≠ List.replicate 32 0 := by
  intro b hb
  simp only [List.nil_append, List.mem_cons, List.not_mem_nil, or_false] at hb
  rcases hb with rfl | rfl
  · exact ⟨exB_ok, exB_parent⟩
  · exact ⟨exC_ok, exC_parent⟩

example : accepted [(some 1735732900, exB), (some 1735732900, exC)]
    (importAll exW exNode [(some 1735732900, exB), (some 1735732900, exC)]).2 = [exB, exC] := by
  obtain ⟨z, h⟩ := exChain
  refine (C80_follows exW exNode exPoint z exNode_at [(1735732900, exB), (1735732900, exC)] h (fun e he => ?_) (fun e he => ?_)).1
  · exact exBoth_ok e.2 (List.mem_map_of_mem (f := Prod.snd) he)
  · have h1 : exB.header.slot = 8 := by decide +kernel
    have h2 : exC.header.slot = 9 := by decide +kernel
    simp only [List.mem_cons, List.not_mem_nil, or_false] at he
    rcases he with rfl | rfl
    · show OnTime _ _
      dsimp only
      rw [h1]
      unfold OnTime
      omega
    · show OnTime _ _
      dsimp only
      rw [h2]
      unfold OnTime
      omega

/-- **C80** (negation) A node that has missed a block is stuck: as long as that one block is not given to it, it accepts
none of the other blocks of the chain, earlier or later, however often, in whatever order and at whatever time they
arrive, and its best header and its state stay where they are - or two different strings hashed for the chain have the
same hash. -/
theorem C80_stuck_partial (W : World K V ρ) (hH : ∀ x, (W.H x).length = 32) (g p z : Point K V ρ) (n : Node K V ρ)
    (ha : At W n p) (hh' : ∀ e ∈ n.headers, e.1 = hh W e.2) (hg : Spec.HeaderOk W.P g.header)
    (pre post : List Block) (m : Block) (hpre : Chain W false g pre p) (hpost : Chain W false p (m :: post) z)
    (hok : ∀ b ∈ pre ++ m :: post, Spec.BlockOk W.P b ∧ b.header.parent ≠ List.replicate 32 0)
    (l : List (Option Nat × Block)) (hl : ∀ e ∈ l, e.2 ∈ pre ++ post) :
    (accepted l (importAll W n l).2 = [] ∧ (importAll W n l).1.best = p.header ∧ (importAll W n l).1.db = p.st) ∨
    ∃ y ∈ strings W g.header (pre ++ m :: post), ∃ w ∈ strings W g.header (pre ++ m :: post), y ≠ w ∧ W.H y = W.H w := by
  have hsub : ∀ b ∈ pre ++ post, b ∈ pre ++ m :: post := by
    intro b hb
    rcases List.mem_append.1 hb with h | h
    · exact List.mem_append_left _ h
    · exact List.mem_append_right _ (List.mem_cons_of_mem _ h)
  obtain ⟨q, ht, hq, _⟩ := C62_history_partial W n p l ha hh' (fun e he => hok e.2 (hsub _ (hl e he)))
  have hd := trace_head ht
  have hmem : ∀ b ∈ accepted l (importAll W n l).2, b ∈ pre ++ post := by
    intro b hb
    obtain ⟨e, he, e2⟩ := accepted_mem l _ b hb
    rw [← e2]
    exact hl e he
  cases hacc : accepted l (importAll W n l).2 with
  | nil => exact .inl ⟨rfl, by rw [hq.best, (hd.1 hacc).1], by rw [hq.db, (hd.1 hacc).2]⟩
  | cons c cs =>
    refine .inr ?_
    have hpar := hd.2 c cs hacc
    have hc := hmem c (by rw [hacc]; exact List.mem_cons_self ..)
    -- `c` is found in the chain after some blocks `as`, which are not the blocks up to `p`
    have key : ∃ as bs, as ++ c :: bs = pre ++ m :: post ∧ as ≠ pre := by
      rcases List.mem_append.1 hc with h | h
      · obtain ⟨as, bs, e⟩ := List.append_of_mem h
        refine ⟨as, bs ++ m :: post, by rw [e]; simp, fun e' => ?_⟩
        have := congrArg List.length e
        rw [e', List.length_append, List.length_cons] at this
        omega
      · obtain ⟨as, bs, e⟩ := List.append_of_mem h
        refine ⟨pre ++ m :: as, bs, by rw [e]; simp, fun e' => ?_⟩
        have := congrArg List.length e'
        rw [List.length_append, List.length_cons] at this
        omega
    obtain ⟨as, bs, e, hne⟩ := key
    obtain ⟨x, h1, h2⟩ := chain_split (chain_append hpre hpost) as (c :: bs) e.symm
    obtain ⟨y, h3, _⟩ := chain_cons h2
    have has : ∀ b ∈ as, b ∈ pre ++ m :: post := fun b hb => by rw [← e]; exact List.mem_append_left _ hb
    have hpr : ∀ b ∈ pre, b ∈ pre ++ m :: post := fun b hb => List.mem_append_left _ hb
    rcases C62_commits W false hH g x p as pre hg (fun b hb => (hok b (has b hb)).1) (fun b hb => (hok b (hpr b hb)).1)
      h1 hpre (h3.parent.symm.trans hpar) with ⟨e1, _⟩ | ⟨y, hy, w, hw, hne, he⟩
    · exact absurd e1 hne
    · exact ⟨y, strings_mono has y hy, w, strings_mono hpr w hw, hne, he⟩

example : accepted [(some 1735732900, exC), (some 1735733900, exC)]
    (importAll exW exNode [(some 1735732900, exC), (some 1735733900, exC)]).2 = [] ∧
    ∃ z, Chain exW false exPoint [] exPoint ∧ Chain exW false exPoint (exB :: [exC]) z := by
  refine ⟨by decide +kernel, ?_⟩
  obtain ⟨z, h⟩ := exChain
  exact ⟨z, .nil, h⟩

/-- **C80** Rejected blocks do no lasting harm: after any of that the node still accepts the missing block and then the
rest of the chain, if they come in order; provided the ring cache is only a cache (C40). -/
theorem C80_catches_up (W : World K V ρ) (ho : Oblivious W) (p z : Point K V ρ) (n : Node K V ρ) (ha : At W n p)
    (hh' : ∀ e ∈ n.headers, e.1 = hh W e.2) (l : List (Option Nat × Block))
    (hl : ∀ e ∈ l, Spec.BlockOk W.P e.2 ∧ e.2.header.parent ≠ List.replicate 32 0)
    (hnone : accepted l (importAll W n l).2 = []) (rest : List (Nat × Block))
    (hc : Chain W false p (rest.map Prod.snd) z)
    (hok : ∀ e ∈ rest, Spec.BlockOk W.P e.2 ∧ e.2.header.parent ≠ List.replicate 32 0)
    (ht : ∀ e ∈ rest, OnTime e.1 e.2.header.slot) :
    accepted (rest.map fun e => (some e.1, e.2)) (importAll W (importAll W n l).1 (rest.map fun e => (some e.1, e.2))).2 =
      rest.map Prod.snd ∧
    (importAll W (importAll W n l).1 (rest.map fun e => (some e.1, e.2))).1.best = z.header ∧
    (importAll W (importAll W n l).1 (rest.map fun e => (some e.1, e.2))).1.db = z.st := by
  obtain ⟨q, htr, hq, _⟩ := C62_history_partial W n p l ha hh' hl
  rw [hnone] at htr
  have hanc : q.anc = p.anc := by
    have : ∀ {bs : List Block} {q : Point K V ρ}, Trace W false p bs q → bs = [] → q.anc = p.anc := by
      intro bs q h
      induction h with
      | nil => exact fun _ => rfl
      | snoc _ _ _ => exact fun e => by simp at e
      | drift r _ ih => exact ih
    exact this htr rfl
  have hd := (trace_head htr).1 rfl
  have hqp : q = { p with ring := q.ring } := by
    obtain ⟨a, b, c, d⟩ := q
    simp only at hd hanc
    rw [hd.1, hd.2, hanc]
  obtain ⟨r', hc'⟩ := chain_drift ho hc q.ring
  rw [← hqp] at hc'
  obtain ⟨h1, h2⟩ := follows rest _ q _ hq hc' hok ht
  exact ⟨h1, h2.best, h2.db⟩

example : accepted [(some 1735732900, exB), (some 1735732900, exC)] (importAll exW
    (importAll exW exNode [(some 1735732900, exC), (some 1735733900, exC)]).1
    [(some 1735732900, exB), (some 1735732900, exC)]).2 = [exB, exC] := by decide +kernel

end Fastroll.Chain
