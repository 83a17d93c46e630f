import Verif.Dial.Boot
import Verif.Net.PropsGossip
/-
C79: which nodes are connected after they have started.
-/
namespace Fastroll.Dial

/-! ### Small worlds for the examples -/

/-- Three nodes, each preferred over the later ones. -/
def exW : World := ⟨3, fun a b => decide (a < b)⟩
/-- Three nodes, each preferred over the earlier ones. -/
def exV : World := ⟨3, fun a b => decide (b < a)⟩
/-- All three nodes of `exW` listen before any of them calls. -/
def exEvs : List Ev :=
  [.start 0, .start 1, .start 2, .begin 0, .begin 1, .begin 2, .reach 0 2, .accept 2 0, .reach 1 2, .reach 0 1, .accept 1 0, .fin 2,
   .again 2, .reach 2 1, .accept 1 2, .accept 2 1, .fin 0, .again 0, .fin 0, .fin 1, .again 1, .fin 1, .fin 2]
/-- Keys of 32 octets. -/
def exKey (x : UInt8) : List UInt8 := List.replicate 31 0 ++ [x]

/-! ### What a start gives -/

/-- **C79**: in every history, a node that is through both rounds has a connection to every other node in its table. -/
theorem C79_ready (W : World) (evs : List Ev) (a b : Nat) (hr : (run W dark evs).phase a = .ready) (hb : b < W.n) (hab : b ≠ a) :
    (run W dark evs).conn a b = true := by
  have := has_run W a evs dark (fun _ _ _ => trivial) b hb hab
  rw [hr] at this
  exact this

example : (run exW dark exEvs).conn 1 0 = true := C79_ready exW exEvs 1 0 (by decide +kernel) (by decide) (by decide)

/-- **C79**: in every history, a connection in the table of one node is in that of the other, or waits there to be
accepted; and nothing waits that the caller does not have. -/
theorem C79_both_sides (W : World) (evs : List Ev) (a b : Nat) :
    ((run W dark evs).conn a b = true → (run W dark evs).conn b a = true ∨ (run W dark evs).inb b a = true) ∧
    ((run W dark evs).inb b a = true → (run W dark evs).conn a b = true) :=
  paired_run W evs dark (fun _ _ => ⟨fun h => (by cases h), fun h => (by cases h)⟩) a b

/-- After the first call node 2 has not yet accepted it. -/
example : (run exW dark (exEvs.take 7)).conn 0 2 = true ∧ (run exW dark (exEvs.take 7)).conn 2 0 = false ∧
    (run exW dark (exEvs.take 7)).inb 2 0 = true := by decide +kernel

/-- **C79**: in every history, connections are between two distinct nodes that both run. -/
theorem C79_sound (W : World) (evs : List Ev) (a b : Nat) (h : (run W dark evs).conn a b = true) :
    a ≠ b ∧ a < W.n ∧ b < W.n ∧ (run W dark evs).phase a ≠ .off ∧ (run W dark evs).phase b ≠ .off := by
  obtain ⟨h1, _, h3⟩ := sound_run W evs dark (sound_dark W)
  obtain ⟨k1, k2, k3⟩ := h3 a b (.inl h)
  refine ⟨k1, h1 a k2, h1 b k3, fun e => ?_, fun e => ?_⟩
  · rw [e] at k2; cases k2
  · rw [e] at k3; cases k3

/-- A world in which a node is preferred over itself, too. -/
example : (run ⟨2, fun _ _ => true⟩ dark [.start 0, .start 1, .begin 0, .reach 0 0, .reach 0 1]).conn 0 0 = false ∧
    (run ⟨2, fun _ _ => true⟩ dark [.start 0, .start 1, .begin 0, .reach 0 0, .reach 0 1]).conn 0 1 = true := by decide +kernel

/-- **C79**: a node calls a peer with success at most once: after a call that got through no call to that peer goes on or
is made again, in any continuation; nor does a node call a peer that has called it before the round began. -/
theorem C79_once (W : World) (pre evs : List Ev) (a b : Nat) :
    (b ∈ ((run W dark pre).phase a).pending → (run W dark pre).phase b ≠ .off →
      b ∉ ((run W dark (pre ++ .reach a b :: evs)).phase a).pending) ∧
    ((run W dark pre).conn a b = true → b ∉ ((run W dark pre).phase a).pending →
      b ∉ ((run W dark (pre ++ evs)).phase a).pending) := by
  have e : ∀ l, run W dark (pre ++ l) = run W (run W dark pre) l := fun l => by simp only [run, List.foldl_append]
  have hnd := pending_nodup W a pre dark List.nodup_nil
  rw [e, e]
  generalize run W dark pre = s at hnd
  refine ⟨fun h1 h2 => ?_, fun h1 h2 => once_run W a b evs s h1 h2⟩
  have hl : (s.phase b).listens = true := by
    cases e : s.phase b <;> first | rfl | exact absurd e h2
  have hs : step W s (.reach a b) = { setPhase s a ((s.phase a).drop b false) with conn := setPair s.conn a b true, inb := setPair s.inb b a true } := by
    simp only [step]; rw [if_pos ⟨h1, hl⟩]
  show b ∉ ((run W (step W s (.reach a b)) evs).phase a).pending
  apply once_run
  · rw [hs]; simp [setPair]
  · rw [hs]
    simp only [setPhase_phase, if_true, drop_pending]
    exact hnd.not_mem_erase

/-- Node 0 has called node 2, and does not call it in its second round. -/
example : ((run exW dark (exEvs.take 18)).phase 0).pending = [] ∧ (run exW dark (exEvs.take 18)).phase 0 = .second [] false ∧
    2 ∈ ((run exW dark (exEvs.take 6)).phase 0).pending := by decide +kernel

/-- **C79**: calls that still go on when the round has failed connect the two nodes if they get through. -/
theorem C79_late_call (W : World) (s : Net) (a b : Nat) (p : List Nat) (hp : s.phase a = .stopped p) (hb : b ∈ p)
    (hl : s.phase b ≠ .off) :
    (run W s [.reach a b, .accept b a]).conn a b = true ∧ (run W s [.reach a b, .accept b a]).conn b a = true ∧
    (run W s [.reach a b, .accept b a]).phase a = .stopped (p.erase b) := by
  have hl' : (s.phase b).listens = true := by
    cases e : s.phase b <;> first | rfl | exact absurd e hl
  have hs : step W s (.reach a b) = { setPhase s a (.stopped (p.erase b)) with conn := setPair s.conn a b true, inb := setPair s.inb b a true } := by
    simp only [step]; rw [if_pos ⟨by rw [hp]; exact hb, hl'⟩, hp]; rfl
  have hi : setPair s.inb b a true b a = true := by simp [setPair]
  simp only [run, List.foldl_cons, List.foldl_nil, hs]
  simp only [step, hi, if_true, setPhase_phase]
  refine ⟨?_, by simp [setPair], trivial⟩
  simp [setPair]

/-- Node 0 has given up because of node 1, and node 2 comes up in time. -/
example : (run exW dark ([.start 0, .begin 0, .timeout 0 1, .fin 0, .start 2] ++ [.reach 0 2, .accept 2 0])).conn 2 0 = true := by
  decide +kernel

/-- **C79**: if no call runs into the time limit, then nodes that have ended their start are all connected, whatever the
order of their steps. -/
theorem C79_no_timeout (W : World) (evs : List Ev) (ht : ∀ a b, Ev.timeout a b ∉ evs)
    (hs : ∀ a, a < W.n → (run W dark evs).phase a = .ready ∨ ∃ p, (run W dark evs).phase a = .stopped p)
    (a b : Nat) (ha : a < W.n) (hb : b < W.n) (hab : b ≠ a) : (run W dark evs).conn a b = true := by
  rcases hs a ha with h | ⟨p, h⟩
  · exact C79_ready W evs a b h hb hab
  · have := clean_run_no_timeout W a evs dark (fun b => ht a b) rfl
    rw [h] at this
    cases this

example : (run exW dark exEvs).conn 2 1 = true := by
  refine C79_no_timeout exW exEvs (fun a b h => by simp [exEvs] at h) (fun a ha => .inl ?_) 2 1 (by decide) (by decide) (by decide)
  have : a = 0 ∨ a = 1 ∨ a = 2 := by have : a < 3 := ha; omega
  rcases this with rfl | rfl | rfl <;> decide +kernel

/-- **C79**: a node that starts when all others listen never gives up, and is connected to all of them once it is
through, whatever the others do meanwhile. -/
theorem C79_last (W : World) (pre evs : List Ev) (a : Nat) (hoff : (run W dark pre).phase a = .off)
    (hl : ∀ b, b < W.n → b ≠ a → (run W dark pre).phase b ≠ .off) :
    (∀ p, (run W dark (pre ++ evs)).phase a ≠ .stopped p) ∧
    ((run W dark (pre ++ evs)).phase a = .ready → ∀ b, b < W.n → b ≠ a → (run W dark (pre ++ evs)).conn a b = true) := by
  refine ⟨fun p h => ?_, fun h b hb hab => C79_ready W _ a b h hb hab⟩
  have e : run W dark (pre ++ evs) = run W (run W dark pre) evs := by simp only [run, List.foldl_append]
  have := clean_run_last W a evs (run W dark pre) (fun b h1 h2 => by
      have := hl b h1 h2
      cases e : (run W dark pre).phase b <;> first | rfl | exact absurd e this)
    (by rw [hoff]; intro b hb; cases hb) (by rw [hoff]; rfl)
  rw [← e, h] at this
  cases this

example : (run exW dark ((boot exW 0 ++ boot exW 1) ++ boot exW 2)).conn 2 0 = true :=
  (C79_last exW (boot exW 0 ++ boot exW 1) (boot exW 2) 2 (by decide +kernel) (fun b hb hab => by
    have : b = 0 ∨ b = 1 := by have : b < 3 := hb; omega
    rcases this with rfl | rfl <;> decide +kernel)).2 (by decide +kernel) 0 (by decide) (by decide)

/-! ### Where it fails -/

/-- **C79**, partial (the code does not meet the property): when one call of the first round has run into the time limit,
the node never makes the second round.  A node to which it has no call going on gets into its table only by
calling itself. -/
theorem C79_gives_up_partial (W : World) (s : Net) (a b : Nat) (p : List Nat) (hp : s.phase a = .first p true) (hb : b ∉ p)
    (hc : s.conn a b = false) (hi : s.inb a b = false) (evs : List Ev) (hev : Ev.reach b a ∉ evs) :
    (run W s evs).conn a b = false ∧ ∃ q, (run W s evs).phase a = .first q true ∨ (run W s evs).phase a = .stopped q := by
  suffices h : ∀ (evs : List Ev) (s : Net), Ev.reach b a ∉ evs →
      (s.conn a b = false ∧ s.inb a b = false ∧ ∃ q, b ∉ q ∧ (s.phase a = .first q true ∨ s.phase a = .stopped q)) →
      ((run W s evs).conn a b = false ∧ (run W s evs).inb a b = false ∧
        ∃ q, b ∉ q ∧ ((run W s evs).phase a = .first q true ∨ (run W s evs).phase a = .stopped q)) by
    obtain ⟨h1, _, q, _, h2⟩ := h evs s hev ⟨hc, hi, p, hb, .inl hp⟩
    exact ⟨h1, q, h2⟩
  intro evs
  induction evs with
  | nil => intro s _ h; exact h
  | cons e evs ih =>
    intro s hev h
    refine ih _ (fun h => hev (List.mem_cons_of_mem _ h)) ?_
    have hne : e ≠ .reach b a := fun h => hev (by rw [h]; exact List.mem_cons_self)
    obtain ⟨h1, h2, q, h3, h4⟩ := h
    have h3' : ∀ d, b ∉ q.erase d := fun d h => h3 (List.mem_of_mem_erase h)
    have hpd : (s.phase a).pending = q := by rcases h4 with h | h <;> rw [h] <;> rfl
    have hoff : s.phase a ≠ .off ∧ s.phase a ≠ .up ∧ s.phase a ≠ .pause := by
      rcases h4 with h | h <;> rw [h] <;> exact ⟨nofun, nofun, nofun⟩
    have hdr : ∀ d f, ∃ q', b ∉ q' ∧ ((s.phase a).drop d f = .first q' true ∨ (s.phase a).drop d f = .stopped q') := by
      intro d f
      refine ⟨q.erase d, h3' d, ?_⟩
      rcases h4 with h | h <;> rw [h] <;> simp [Phase.drop]
    cases e with
    | start c =>
      simp only [step]; split
      · rename_i hh
        refine ⟨h1, h2, q, h3, ?_⟩
        simp only [setPhase_phase]; split
        · rename_i e; subst e; exact absurd hh.2 hoff.1
        · exact h4
      · exact ⟨h1, h2, q, h3, h4⟩
    | begin c =>
      simp only [step]; split
      · rename_i hh
        refine ⟨h1, h2, q, h3, ?_⟩
        simp only [setPhase_phase]; split
        · rename_i e; subst e; exact absurd hh hoff.2.1
        · exact h4
      · exact ⟨h1, h2, q, h3, h4⟩
    | again c =>
      simp only [step]; split
      · rename_i hh
        refine ⟨h1, h2, q, h3, ?_⟩
        simp only [setPhase_phase]; split
        · rename_i e; subst e; exact absurd hh hoff.2.2
        · exact h4
      · exact ⟨h1, h2, q, h3, h4⟩
    | accept c d =>
      simp only [step]; split
      · rename_i hh
        have n1 : ¬ (a = c ∧ b = d) := by rintro ⟨rfl, rfl⟩; rw [h2] at hh; cases hh
        refine ⟨by simp only [setPair, n1, if_false]; exact h1, by simp only [setPair, n1, if_false]; exact h2, q, h3, h4⟩
      · exact ⟨h1, h2, q, h3, h4⟩
    | reach c d =>
      simp only [step]; split
      · rename_i hh
        have n1 : ¬ (a = c ∧ b = d) := by rintro ⟨rfl, rfl⟩; rw [hpd] at hh; exact h3 hh.1
        have n2 : ¬ (a = d ∧ b = c) := by rintro ⟨rfl, rfl⟩; exact hne rfl
        refine ⟨by simp only [setPair, n1, if_false]; exact h1, by simp only [setPair, n2, if_false]; exact h2, ?_⟩
        simp only [setPhase_phase]
        split
        · rename_i e; subst e; exact hdr d false
        · exact ⟨q, h3, h4⟩
      · exact ⟨h1, h2, q, h3, h4⟩
    | timeout c d =>
      simp only [step]; split
      · refine ⟨h1, h2, ?_⟩
        simp only [setPhase_phase]
        split
        · rename_i e; subst e; exact hdr d true
        · exact ⟨q, h3, h4⟩
      · exact ⟨h1, h2, q, h3, h4⟩
    | fin c =>
      have hk : (step W s (.fin c)).conn = s.conn ∧ (step W s (.fin c)).inb = s.inb := by
        simp only [step]; repeat' split
        all_goals exact ⟨rfl, rfl⟩
      rw [hk.1, hk.2]
      refine ⟨h1, h2, q, h3, ?_⟩
      by_cases e : a = c
      · subst e
        simp only [step]
        rcases h4 with h | h <;> rw [h] <;> simp [h]
      · have : (step W s (.fin c)).phase a = s.phase a := by
          simp only [step]; repeat' split
          all_goals simp [e]
        rw [this]; exact h4

/-- Node 1 of `exV` calls node 0 only; with node 0 away it gives up and never calls node 2, which runs all the time. -/
example (evs : List Ev) (h : Ev.reach 2 1 ∉ evs) :
    (run exV (run exV dark [.start 1, .start 2, .begin 1, .timeout 1 0]) evs).conn 1 2 = false :=
  (C79_gives_up_partial exV _ 1 2 [] (by decide +kernel) (by decide) (by decide +kernel) (by decide +kernel) evs h).1

/-- **C79**: if the nodes start one after the other, each with all its calls before the next one starts, two nodes end up
connected exactly if the later one is preferred over the earlier one, or is preferred over none of the nodes that
start after it. -/
theorem C79_sequential (W : World) (i j : Nat) (hij : i < j) (hj : j < W.n) :
    ((run W dark ((List.range W.n).flatMap (boot W))).conn i j = true ↔
      W.pref j i = true ∨ ∀ k, j < k → k < W.n → W.pref j k = false) ∧
    ((run W dark ((List.range W.n).flatMap (boot W))).conn j i = true ↔
      W.pref j i = true ∨ ∀ k, j < k → k < W.n → W.pref j k = false) := by
  have H := seq_all W W.n (Nat.le_refl _)
  constructor
  · rw [H.conn]
    constructor
    · rintro (⟨_, _, h⟩ | ⟨h, _⟩)
      · exact h
      · omega
    · intro h; exact .inl ⟨hij, hj, h⟩
  · rw [H.conn]
    constructor
    · rintro (⟨h, _⟩ | ⟨_, _, h⟩)
      · omega
      · exact h
    · intro h; exact .inr ⟨hij, hj, h⟩

/-- `exV` becomes a full network, `exW` does not. -/
example : (run exV dark ((List.range 3).flatMap (boot exV))).conn 0 1 = true ∧
    (run exW dark ((List.range 3).flatMap (boot exW))).conn 0 1 = false ∧
    (run exW dark ((List.range 3).flatMap (boot exW))).conn 0 2 = true := by decide +kernel

/-- **C79**, partial (the code does not meet the property): a node `j` that is not preferred over an earlier `i` but over a
later `k` stays without connection to `i` for ever, although all nodes run and can reach each other: no continuation
connects them. -/
theorem C79_split_partial (W : World) (i j k : Nat) (hij : i < j) (hjk : j < k) (hk : k < W.n) (h1 : W.pref j i = false)
    (h2 : W.pref j k = true) (evs : List Ev) :
    let s := run W (run W dark ((List.range W.n).flatMap (boot W))) evs
    (∀ c, c < W.n → s.phase c ≠ .off) ∧ s.conn i j = false ∧ s.conn j i = false := by
  have H := seq_all W W.n (Nat.le_refl _)
  generalize run W dark ((List.range W.n).flatMap (boot W)) = t at H
  have hno : ∀ {x y}, ((x = i ∧ y = j) ∨ (x = j ∧ y = i)) → t.conn x y = false := by
    intro x y hxy
    cases e : t.conn x y with
    | false => rfl
    | true =>
      exfalso
      have hl : Linked W i j := by
        rcases (H.conn x y).1 e with ⟨a1, _, a2⟩ | ⟨a1, _, a2⟩ <;> rcases hxy with ⟨rfl, rfl⟩ | ⟨rfl, rfl⟩ <;>
          first | exact a2 | omega
      rcases hl with h | h
      · rw [h1] at h; cases h
      · rw [h k hjk hk] at h2; cases h2
  have hover : ∀ c d, c < W.n → (t.phase c).over d = true := fun c d hc => by
    rcases H.old c hc with e | e <;> rw [e] <;> rfl
  have A := apart_run W i j evs t ⟨hover i j (by omega), hover j i (by omega), hno (.inl ⟨rfl, rfl⟩), hno (.inr ⟨rfl, rfl⟩), H.inb _ _, H.inb _ _⟩
  refine ⟨fun c hc h => ?_, A.2.2.1, A.2.2.2.1⟩
  have : ∀ (evs : List Ev) (s : Net), (s.phase c).listens = true → ((run W s evs).phase c).listens = true := by
    intro evs
    induction evs with
    | nil => intro s h; exact h
    | cons e evs ih => intro s h; exact ih _ (listens_mono W s e c h)
  have := this evs t (by rcases H.old c hc with e | e <;> rw [e] <;> rfl)
  rw [h] at this
  cases this

example (evs : List Ev) : (run exW (run exW dark ((List.range 3).flatMap (boot exW))) evs).conn 1 0 = false :=
  (C79_split_partial exW 0 1 2 (by decide) (by decide) (by decide) (by decide) (by decide) evs).2.2

/-- **C79**, partial (the code does not meet the property): any three validators with distinct keys can be started in an
order that leaves two of them unconnected for ever. -/
theorem C79_any_three_partial (a b c : List UInt8) (ha : a.length = 32) (hb : b.length = 32) (hc : c.length = 32)
    (hab : a ≠ b) (hac : a ≠ c) (hbc : b ≠ c) :
    ∃ keys : List (List UInt8), keys.Perm [a, b, c] ∧ ∀ evs,
      let W := keyWorld keys
      (run W (run W dark ((List.range 3).flatMap (boot W))) evs).conn 0 1 = false ∧
      (run W (run W dark ((List.range 3).flatMap (boot W))) evs).conn 1 0 = false := by
  have key : ∀ x y z : List UInt8, x.length = 32 → y.length = 32 → x ≠ y → Net.connectsFirst x false ⟨y, ([], 0)⟩ = true →
      Net.connectsFirst y false ⟨z, ([], 0)⟩ = true → ∀ evs,
      (run (keyWorld [x, y, z]) (run (keyWorld [x, y, z]) dark ((List.range 3).flatMap (boot (keyWorld [x, y, z])))) evs).conn 0 1 = false ∧
      (run (keyWorld [x, y, z]) (run (keyWorld [x, y, z]) dark ((List.range 3).flatMap (boot (keyWorld [x, y, z])))) evs).conn 1 0 = false := by
    intro x y z hx hy hxy h1 h2 evs
    have h3 := (Net.C67_initiator x y hx hy hxy ([], 0) ([], 0)).1.1 h1
    exact (C79_split_partial (keyWorld [x, y, z]) 0 1 2 (by decide) (by decide) (by decide : 2 < 3) h3 h2 evs).2
  have rev : ∀ x y : List UInt8, x.length = 32 → y.length = 32 → x ≠ y → Net.connectsFirst x false ⟨y, ([], 0)⟩ = false →
      Net.connectsFirst y false ⟨x, ([], 0)⟩ = true := by
    intro x y hx hy hxy h
    exact (Net.C67_initiator y x hy hx (Ne.symm hxy) ([], 0) ([], 0)).1.2 h
  have p1 : [b, c, a].Perm [a, b, c] := (List.perm_append_comm (l₁ := [b, c]) (l₂ := [a]))
  have p2 : [c, a, b].Perm [a, b, c] := (List.perm_append_comm (l₁ := [c]) (l₂ := [a, b]))
  have p3 : [b, a, c].Perm [a, b, c] := List.Perm.swap _ _ _
  have p4 : [a, c, b].Perm [a, b, c] := (List.Perm.swap _ _ _).cons a
  cases e1 : Net.connectsFirst a false ⟨b, ([], 0)⟩ with
  | true =>
    cases e2 : Net.connectsFirst b false ⟨c, ([], 0)⟩ with
    | true => exact ⟨[a, b, c], .refl _, key a b c ha hb hab e1 e2⟩
    | false =>
      have e2' := rev b c hb hc hbc e2
      cases e3 : Net.connectsFirst c false ⟨a, ([], 0)⟩ with
      | true => exact ⟨[c, a, b], p2, key c a b hc ha (Ne.symm hac) e3 e1⟩
      | false => exact ⟨[a, c, b], p4, key a c b ha hc hac (rev c a hc ha (Ne.symm hac) e3) e2'⟩
  | false =>
    have e1' := rev a b ha hb hab e1
    cases e2 : Net.connectsFirst a false ⟨c, ([], 0)⟩ with
    | true => exact ⟨[b, a, c], p3, key b a c hb ha (Ne.symm hab) e1' e2⟩
    | false =>
      have e2' := rev a c ha hc hac e2
      cases e3 : Net.connectsFirst b false ⟨c, ([], 0)⟩ with
      | true => exact ⟨[b, c, a], p1, key b c a hb hc hbc e3 e2'⟩
      | false =>
        have e3' := rev b c hb hc hbc e3
        exact ⟨[c, b, a], (List.Perm.swap _ _ _).trans p1, key c b a hc hb (Ne.symm hbc) e3' e1'⟩

/-- Keys that end in 1, 2 and 3, started in this order: the first two stay apart. -/
example : (run (keyWorld [exKey 1, exKey 2, exKey 3]) dark ((List.range 3).flatMap (boot (keyWorld [exKey 1, exKey 2, exKey 3])))).conn 0 1 = false ∧
    (run (keyWorld [exKey 3, exKey 2, exKey 1]) dark ((List.range 3).flatMap (boot (keyWorld [exKey 3, exKey 2, exKey 1])))).conn 0 1 = true := by
  decide +kernel

end Fastroll.Dial
