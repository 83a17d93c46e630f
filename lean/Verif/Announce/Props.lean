import Verif.Announce.Lemmas
/-
C78: announcing authored blocks to the peers, and what a lost or slow peer does to the author.
-/
namespace Fastroll.Announce

/-! ### A small world for the examples: two peers, channels of one place, states are numbers -/

/-- Two peers in two shards. -/
def exW : World Nat where
  peers := 2
  cap := 1
  shard := fun p => p
  root := fun v => v + 100
  phase1 := fun h v => v + h.slot
  phase2 := fun _ v => v + 1
  stf := fun b v => some (v + b.slot)

/-- A node with streams to both peers, at a header whose state root is stored. -/
def exS : Node Nat where
  links := fun p => if p < 2 then .up true [] else .absent
  sent := fun _ => []
  best := ⟨7, 6, 3, 0⟩
  headers := [⟨7, 6, 3, 0⟩]
  roots := fun h => if h = 7 then some 105 else none
  committed := 5
  visible := 5
  tasks := []
  done := []
  failed := []

section
variable {σ : Type}

/-- **C78, every peer is told of every block once.**  While the stream of a peer stays up, whatever the other peers, the
tasks and the importer do, what was written to the peer together with what waits in its channel contains each hash exactly as often
as there are blocks of that hash authored and finished, or still being announced and past this peer, or given up after this
peer. -/
theorem C78_announced (W : World σ) (s : Node σ) (p : Nat) (q : List Nat) (evs : List Ev) (hp : p < W.peers)
    (hq : s.links p = .up true q) (ht : s.tasks = []) (hd : s.done = []) (hf : s.failed = [])
    (hl : .lose p ∉ evs) (hs : .store p ∉ evs) :
    ∃ q', (run W s evs).links p = .up true q' ∧
      ∀ h, ((run W s evs).sent p ++ q').count h = (s.sent p ++ q).count h + owed (run W s evs) p h := by
  have key : ∀ h, Told p h ((s.sent p ++ q).count h) (run W s evs) := fun h =>
    told_run W p h _ hp evs s hl hs ⟨q, hq, by simp [owed, ht, hd, hf]⟩
  obtain ⟨q', hq', _⟩ := key 0
  refine ⟨q', hq', fun h => ?_⟩
  obtain ⟨q2, h2, h3⟩ := key h
  rw [hq'] at h2
  injection h2 with _ h2
  subst h2
  exact h3

/-- A block is announced to both peers, while peer 0 is lost after it was told and a foreign block comes in between. -/
example : (run exW exS [.slot 9 4, .go 0, .write 0, .lose 0, .arrive ⟨50, 9, 5, 0⟩, .go 0, .attach 1, .go 0]).sent 1 = [9] ∧
    ((run exW exS [.slot 9 4, .go 0, .write 0, .lose 0, .arrive ⟨50, 9, 5, 0⟩, .go 0, .attach 1, .go 0]).done.map Hdr.hash)
      = [9] := by decide +kernel

/-- **C78, a block whose state was committed was announced** to each peer whose stream stayed up. -/
theorem C78_committed_announced (W : World σ) (s : Node σ) (p : Nat) (q : List Nat) (evs : List Ev) (hp : p < W.peers)
    (hq : s.links p = .up true q) (ht : s.tasks = []) (hd : s.done = []) (hf : s.failed = [])
    (hl : .lose p ∉ evs) (hs : .store p ∉ evs) (b : Hdr) (hb : b ∈ (run W s evs).done) :
    b.hash ∈ (run W s evs).sent p ∨ ∃ q', (run W s evs).links p = .up true q' ∧ b.hash ∈ q' := by
  obtain ⟨q', hq', hc⟩ := C78_announced W s p q evs hp hq ht hd hf hl hs
  have h1 : 0 < (run W s evs).done.countP (fun x => decide (x.hash = b.hash)) :=
    List.countP_pos_iff.mpr ⟨b, hb, by simp⟩
  have h2 : 0 < ((run W s evs).sent p ++ q').count b.hash := by
    rw [hc]; unfold owed; omega
  rcases List.mem_append.mp (List.count_pos_iff.mp h2) with h | h
  · exact .inl h
  · exact .inr ⟨q', hq', h⟩

/-- The announcement to peer 1 is still in the channel. -/
example : (run exW exS [.slot 9 4, .go 0, .go 0, .go 0]).done = [⟨9, 7, 4, 105⟩] ∧
    (run exW exS [.slot 9 4, .go 0, .go 0, .go 0]).links 1 = .up true [9] := by decide +kernel

/-- **C78, without lost streams no announcement fails**, in any history. -/
theorem C78_no_failure (W : World σ) (s : Node σ) (evs : List Ev) (hl : ∀ p, .lose p ∉ evs) (H : ∀ p, ¬ (s.links p).Dead) :
    (run W s evs).failed = s.failed :=
  (healthy_run W evs s hl H).2

example : ∀ p, ¬ (exS.links p).Dead := by
  rintro p ⟨q, h⟩; simp only [exS] at h; split at h <;> cases h

/-- **C78, an announcement with room in all channels goes through** and the state is committed: the header extends
the best one and carries the root of the committed state, every peer with a stream has the hash at the end of its channel,
the state committed is that of both halves of the transition, and its root is stored for the next block. -/
theorem C78_completes (W : World σ) (s : Node σ) (h n : Nat) (ht : s.tasks = [])
    (hr : ∀ p, p < W.peers → (s.links p).Room W.cap) :
    let b : Hdr := ⟨h, s.best.hash, n, W.root s.committed⟩
    let v := W.phase2 b (W.phase1 b s.visible)
    run W s (.slot h n :: List.replicate (W.peers + 1) (.go 0)) =
      { s with best := b, headers := s.headers ++ [b], visible := v, committed := v, done := s.done ++ [b],
               roots := fun k => if k = h then some (W.root v) else s.roots k,
               links := fun p => if p < W.peers then (s.links p).told h else s.links p } := by
  intro b v
  have hs : ∀ (u : Node σ) k, run W u (List.replicate (k + 1) (.go 0)) =
      step W (run W u (List.replicate k (.go 0))) (.go 0) := by
    intro u k; rw [List.replicate_succ', run, List.foldl_append]; rfl
  show run W (author W s h n) _ = _
  rw [hs, sweep W b W.peers 0 (author W s h n) (by omega) (by simp [author, ht, b]) (fun p _ hp => hr p hp)]
  rw [go_zero W _ ⟨b, W.peers⟩ rfl]
  simp only [go, Nat.lt_irrefl, if_false, finish, author, List.eraseIdx_cons_zero, Nat.zero_le, true_and]
  cases s; simp only at ht; subst ht; rfl

example : (∀ p, p < exW.peers → (exS.links p).Room exW.cap) ∧
    (run exW exS [.slot 9 4, .go 0, .go 0, .go 0]).committed = 10 := by
  refine ⟨fun p hp => .inr (.inr ⟨[], ?_, by decide⟩), by decide +kernel⟩
  exact if_pos hp

/-- **C78, the code's fault: one lost peer stops the author.**  When the stream of a peer is broken and the peer does not
come back, then in no history, whatever the other peers and the importer do, is any authored block finished: no state is committed by the
author, and no announcement reaches the peers behind the lost one. -/
theorem C78_lost_peer_partial (W : World σ) (s : Node σ) (p : Nat) (evs : List Ev) (hp : p < W.peers)
    (hd : (s.links p).Dead) (ht : ∀ t ∈ s.tasks, t.pos ≤ p) (hs : .store p ∉ evs) (ha : .attach p ∉ evs) :
    (run W s evs).done = s.done ∧ ∀ t ∈ (run W s evs).tasks, t.pos ≤ p :=
  have H := blocked_run W p hp s.done evs s hs ha ⟨hd, ht, rfl⟩
  ⟨H.2.2, H.2.1⟩

/-- The node after the loss of peer 0. -/
def exLost : Node Nat := step exW exS (.lose 0)

/-- Peer 1, which is well, is never told of the block, and the author gives it up. -/
example : (exLost.links 0).Dead ∧
    (run exW exLost [.slot 9 4, .go 0, .go 0, .go 0, .go 0]).links 1 = .up true [] ∧
    (run exW exLost [.slot 9 4, .go 0, .go 0, .go 0, .go 0]).sent 1 = [] ∧
    (run exW exLost [.slot 9 4, .go 0, .go 0, .go 0, .go 0]).failed.map (fun t => t.hdr.hash) = [9] :=
  ⟨⟨[], by decide +kernel⟩, by decide +kernel, by decide +kernel, by decide +kernel⟩

/-- **C78, the code's fault: the author is off the chain.**  After the loss of a peer the next block the node authors becomes its best header and
is never finished.  From then on, for every history in which the lost peer does not come back (any further slots, any
blocks imported), the committed state and the stored roots stay what they were, the best header is one of the
node's own, and every block is rejected. -/
theorem C78_off_chain_partial (W : World σ) (s : Node σ) (p h n : Nat) (evs : List Ev) (hp : p < W.peers)
    (hd : (s.links p).Dead) (ht : ∀ t ∈ s.tasks, t.pos ≤ p) (hs : .store p ∉ evs) (ha : .attach p ∉ evs)
    (hr : ∀ a ∈ h :: ownHashes evs, s.roots a = none) :
    (run W s (.slot h n :: evs)).committed = s.committed ∧
    (run W s (.slot h n :: evs)).roots = s.roots ∧
    (run W s (.slot h n :: evs)).best.hash ∈ h :: ownHashes evs ∧
    ∀ b, headerOk (run W s (.slot h n :: evs)) b = false := by
  have hb : Blocked p s.done (step W s (.slot h n)) :=
    blocked_step W p hp s.done s _ (by simp) (by simp) ⟨hd, ht, rfl⟩
  have H := off_run W (h :: ownHashes evs) s.committed s.roots hr p hp s.done evs (step W s (.slot h n)) hs ha
    (fun a ha => List.mem_cons_of_mem _ ha) hb ⟨by simp [step, author], rfl, rfl⟩
  refine ⟨H.2.1, H.2.2, H.1, fun b => ?_⟩
  have hn := hr _ H.1
  rw [← H.2.2] at hn
  cases hk : headerOk (run W s (.slot h n :: evs)) b with
  | false => rfl
  | true =>
    simp only [headerOk, Bool.and_eq_true, decide_eq_true_eq] at hk
    rw [hk.1.2] at hk
    exact absurd (hn.symm.trans hk.2) (by simp)

/-- A block that the node would have imported before its own slot, and not after. -/
example : headerOk exLost ⟨50, 7, 5, 105⟩ = true ∧ headerOk (run exW exLost [.slot 9 4]) ⟨50, 7, 5, 105⟩ = false ∧
    exLost.roots 9 = none := by decide +kernel

/-- **C78, the code's fault, from the break of the stream on.**  An idle node loses the stream of one peer, and some time later authors
a block.  If the peer does not come back, the node commits no state from then on, its own or another's. -/
theorem C78_one_loss_partial (W : World σ) (s : Node σ) (p : Nat) (q : List Nat) (h n : Nat) (evs : List Ev) (hp : p < W.peers)
    (hq : s.links p = .up true q) (ht : s.tasks = []) (hs : .store p ∉ evs) (ha : .attach p ∉ evs)
    (hr : ∀ a ∈ h :: ownHashes evs, s.roots a = none) :
    (run W s (.lose p :: .slot h n :: evs)).committed = s.committed ∧
    (run W s (.lose p :: .slot h n :: evs)).done = s.done ∧
    ∀ b, headerOk (run W s (.lose p :: .slot h n :: evs)) b = false := by
  have e : step W s (.lose p) = { s with links := put s.links p (.up false []) } := by simp [step, hq]
  have hd : ((step W s (.lose p)).links p).Dead := ⟨[], by simp [e, put]⟩
  have ht' : ∀ t ∈ (step W s (.lose p)).tasks, t.pos ≤ p := by simp [e, ht]
  have H := C78_off_chain_partial W (step W s (.lose p)) p h n evs hp hd ht' hs ha (by simpa [e] using hr)
  have H2 := C78_lost_peer_partial W (step W s (.lose p)) p (.slot h n :: evs) hp hd ht' (by simp [hs]) (by simp [ha])
  refine ⟨H.1.trans (by rw [e]), H2.1.trans (by rw [e]), H.2.2.2⟩

/-- Peer 1 is lost; then two slots, and a block on the old chain. -/
example : (run exW exS (.lose 1 :: .slot 9 4 :: [.go 0, .go 0, .slot 10 5, .write 0, .go 0, .go 0, .arrive ⟨50, 7, 6, 105⟩])).committed = 5 ∧
    (run exW exS (.lose 1 :: .slot 9 4 :: [.go 0, .go 0, .slot 10 5, .write 0, .go 0, .go 0, .arrive ⟨50, 7, 6, 105⟩])).failed.map
      Task.pos = [1, 1] ∧ (run exW exS [.lose 1, .arrive ⟨50, 7, 6, 105⟩]).committed = 11 := by decide +kernel

/-- **C78, the code's fault: the peer's return does not help.**  Once the announcement has failed, no event at all, reconnections and
imports of any blocks included, changes the best header or the committed state until the node authors again. -/
theorem C78_stays_off_partial (W : World σ) (s : Node σ) (evs : List Ev) (hr : s.roots s.best.hash = none)
    (ht : s.tasks = []) (hs : ∀ a n, .slot a n ∉ evs) :
    (run W s evs).best = s.best ∧ (run W s evs).committed = s.committed ∧
    ∀ b, headerOk (run W s evs) b = false := by
  obtain ⟨h1, h2, h3⟩ := idle_run W s.best s.committed s.roots hr evs s hs ht rfl rfl rfl
  refine ⟨h1, h2, fun b => ?_⟩
  cases hk : headerOk (run W s evs) b with
  | false => rfl
  | true =>
    simp only [headerOk, h1, h3, Bool.and_eq_true, decide_eq_true_eq] at hk
    rw [hk.1.2, hr] at hk
    exact absurd hk.2 (by simp)

/-- Peer 0 comes back, too late; the state the cache shows in the meantime is one that was never committed. -/
example : (run exW exLost [.slot 9 4, .go 0]).tasks = [] ∧ (run exW exLost [.slot 9 4, .go 0]).best.hash = 9 ∧
    (run exW exLost [.slot 9 4, .go 0]).roots 9 = none ∧
    (run exW exLost [.slot 9 4, .go 0]).visible = 9 ∧ (run exW exLost [.slot 9 4, .go 0]).committed = 5 ∧
    (run exW exLost [.slot 9 4, .go 0, .store 0, .attach 0, .arrive ⟨50, 7, 5, 105⟩]).links 0 = .up true [] ∧
    (run exW exLost [.slot 9 4, .go 0, .store 0, .attach 0, .arrive ⟨50, 7, 5, 105⟩]).committed = 5 := by decide +kernel

/-- **C78, the code's fault: one slow peer stops the author.**  While an announcement waits at a peer whose channel is full, and the
peer neither reads nor goes away, no authored block is finished, no announcement gets past the peer, and no peer in the
same shard of the table can be connected anew: the requests have no effect at any time. -/
theorem C78_stall_partial (W : World σ) (s : Node σ) (p : Nat) (q : List Nat) (evs : List Ev) (hp : p < W.peers)
    (hq : s.links p = .up true q) (hc : W.cap ≤ q.length) (hw : ∃ t ∈ s.tasks, t.pos = p) (ht : ∀ t ∈ s.tasks, t.pos ≤ p)
    (hwr : .write p ∉ evs) (hl : .lose p ∉ evs) :
    (run W s evs).done = s.done ∧ (∀ t ∈ (run W s evs).tasks, t.pos ≤ p) ∧ (run W s evs).links p = .up true q ∧
    ∀ r, W.shard r = W.shard p →
      step W (run W s evs) (.store r) = run W s evs ∧ step W (run W s evs) (.attach r) = run W s evs := by
  have H := stalled_run W p hp q s.done evs s hwr hl ⟨hq, hc, hw, ht, rfl⟩
  refine ⟨H.2.2.2.2, H.2.2.2.1, H.1, fun r hr => ?_⟩
  have := stalled_held W p hp q s.done _ H r hr
  simp [step, this]

/-- Two slots, and peer 0 does not read: the second announcement waits, and peer 1 gets the first only. -/
example : (run exW exS [.slot 9 4, .go 0, .go 0, .go 0, .slot 10 5, .go 0]).links 0 = .up true [9] ∧
    (run exW exS [.slot 9 4, .go 0, .go 0, .go 0, .slot 10 5, .go 0]).tasks.map Task.pos = [0] ∧
    (run exW exS [.slot 9 4, .go 0, .go 0, .go 0, .slot 10 5, .go 0, .write 1, .go 0, .go 0, .store 0]).links 0 = .up true [9] ∧
    (run exW exS [.slot 9 4, .go 0, .go 0, .go 0, .slot 10 5, .go 0, .write 1, .go 0, .go 0]).sent 1 = [9] := by decide +kernel

end
end Fastroll.Announce
