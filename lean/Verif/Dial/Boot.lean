import Verif.Dial.Lemmas
/-
Nodes that start one after the other: what their tables are in the end.
-/
namespace Fastroll.Dial

/-- The steps for one peer in `round`. -/
def trio (a b : Nat) : List Ev := [.reach a b, .timeout a b, .accept b a]

/-- A phase with attempts in it. -/
structure Kind (K : List Nat → Bool → Phase) : Prop where
  pending : ∀ p f, (K p f).pending = p
  drop : ∀ p f b g, (K p f).drop b g = K (p.erase b) (f || g)

theorem kind_first : Kind Phase.first := ⟨fun _ _ => rfl, fun _ _ _ _ => rfl⟩
theorem kind_second : Kind Phase.second := ⟨fun _ _ => rfl, fun _ _ _ _ => rfl⟩

/-- What the steps for a peer do. -/
theorem trio_run (W : World) {K : List Nat → Bool → Phase} (hK : Kind K) (s : Net) (a b : Nat) (p : List Nat) (f : Bool)
    (hp : s.phase a = K p f) (hnd : p.Nodup) (ha : a ∉ p) (hi : ∀ x y, s.inb x y = false) :
    ((run W s (trio a b)).phase a = K (p.filter (· ≠ b)) (f || (p.contains b && !(s.phase b).listens))) ∧
    (∀ c, c ≠ a → (run W s (trio a b)).phase c = s.phase c) ∧
    (∀ x y, (run W s (trio a b)).inb x y = false) ∧
    (∀ x y, (run W s (trio a b)).conn x y = true ↔ s.conn x y = true ∨
      (b ∈ p ∧ (s.phase b).listens = true ∧ ((x = a ∧ y = b) ∨ (x = b ∧ y = a)))) := by
  by_cases hb : b ∈ p
  · have hab : b ≠ a := fun h => ha (h ▸ hb)
    have hf : p.erase b = p.filter (· ≠ b) := by
      rw [hnd.erase_eq_filter]
      congr 1
      funext x
      by_cases h : x = b <;> simp [h, bne]
    cases hl : (s.phase b).listens with
    | true =>
      have h1 : step W s (.reach a b) = { setPhase s a (K (p.filter (· ≠ b)) f) with
          conn := setPair s.conn a b true, inb := setPair s.inb b a true } := by
        simp only [step, hp, hK.pending, hK.drop, hb, hl, and_self, if_true, Bool.or_false, hf]
      have h2 : step W (step W s (.reach a b)) (.timeout a b) = step W s (.reach a b) := by
        rw [h1]
        simp only [step, setPhase_phase, if_neg hab, hl]
        rw [if_neg (fun h => by cases h.2)]
      have hr : run W s (trio a b) = step W (step W s (.reach a b)) (.accept b a) := by
        simp only [run, trio, List.foldl_cons, List.foldl_nil, h2]
      rw [hr, h1]
      have h3 : setPair s.inb b a true b a = true := by simp [setPair]
      simp only [step, h3, if_true, setPhase_phase]
      refine ⟨by simp, fun c hc => by simp [hc], fun x y => ?_, fun x y => ?_⟩
      · simp only [setPair]; split <;> first | rfl | exact hi x y
      · simp only [setPair]
        by_cases e1 : x = b ∧ y = a
        · simp [e1, hb]
        · by_cases e2 : x = a ∧ y = b
          · simp [e2, hb]
          · simp [e1, e2]
    | false =>
      have h1 : step W s (.reach a b) = s := by
        simp only [step, hl]; rw [if_neg (fun h => by cases h.2)]
      have h2 : step W s (.timeout a b) = setPhase s a (K (p.filter (· ≠ b)) (f || true)) := by
        simp only [step, hp, hK.pending, hK.drop, hb, hl, and_self, if_true, hf]
      have hr : run W s (trio a b) = setPhase s a (K (p.filter (· ≠ b)) (f || true)) := by
        simp only [run, trio, List.foldl_cons, List.foldl_nil, h1, h2]
        simp only [step, setPhase_inb, hi]
        rw [if_neg (by simp)]
      rw [hr]
      refine ⟨?_, fun c hc => by simp [hc], fun x y => hi x y, fun x y => by simp⟩
      simp [hb]
  · have h1 : step W s (.reach a b) = s := by
      simp only [step, hp, hK.pending]; rw [if_neg (fun h => hb h.1)]
    have h2 : step W s (.timeout a b) = s := by
      simp only [step, hp, hK.pending]; rw [if_neg (fun h => hb h.1)]
    have h3 : step W s (.accept b a) = s := by
      simp only [step, hi]; rw [if_neg (by simp)]
    have hr : run W s (trio a b) = s := by
      simp only [run, trio, List.foldl_cons, List.foldl_nil, h1, h2, h3]
    rw [hr]
    have hf : p.filter (· ≠ b) = p := List.filter_eq_self.2 (fun x hx => by
      simp only [decide_eq_true_eq]; exact fun h => hb (h ▸ hx))
    refine ⟨?_, fun c _ => rfl, hi, fun x y => by simp [hb]⟩
    rw [hf, hp]
    simp [hb]

/-- What a round does. -/
theorem round_run (W : World) {K : List Nat → Bool → Phase} (hK : Kind K) (a : Nat) : ∀ (ks : List Nat) (s : Net) (p : List Nat) (f : Bool),
    s.phase a = K p f → p.Nodup → a ∉ p → (∀ x y, s.inb x y = false) →
    ((run W s (ks.flatMap (trio a))).phase a =
      K (p.filter fun b => !ks.contains b) (f || p.any fun b => ks.contains b && !(s.phase b).listens)) ∧
    (∀ c, c ≠ a → (run W s (ks.flatMap (trio a))).phase c = s.phase c) ∧
    (∀ x y, (run W s (ks.flatMap (trio a))).inb x y = false) ∧
    (∀ x y, (run W s (ks.flatMap (trio a))).conn x y = true ↔ s.conn x y = true ∨
      (∃ b, b ∈ ks ∧ b ∈ p ∧ (s.phase b).listens = true ∧ ((x = a ∧ y = b) ∨ (x = b ∧ y = a))))
  | [], s, p, f, hp, hnd, ha, hi => by
    refine ⟨?_, fun c _ => rfl, hi, fun x y => by simp [run]⟩
    have : p.filter (fun b => !([] : List Nat).contains b) = p := List.filter_eq_self.2 (fun x _ => by simp)
    have h2 : (p.any fun b => ([] : List Nat).contains b && !(s.phase b).listens) = false := by
      rw [List.any_eq_false]; intro x _; simp
    rw [this, h2, Bool.or_false]
    exact hp
  | b :: ks, s, p, f, hp, hnd, ha, hi => by
    obtain ⟨t1, t2, t3, t4⟩ := trio_run W hK s a b p f hp hnd ha hi
    have ha' : a ∉ p.filter (· ≠ b) := fun h => ha (List.mem_filter.1 h).1
    obtain ⟨r1, r2, r3, r4⟩ := round_run W hK a ks (run W s (trio a b)) _ _ t1 (hnd.filter _) ha' t3
    have hr : run W s ((b :: ks).flatMap (trio a)) = run W (run W s (trio a b)) (ks.flatMap (trio a)) := by
      simp only [run, List.flatMap_cons, List.foldl_append]
    have hl : ∀ c, c ∈ p → ((run W s (trio a b)).phase c).listens = (s.phase c).listens := fun c hc => by
      rw [t2 c (fun h => ha (h ▸ hc))]
    rw [hr]
    refine ⟨?_, fun c hc => (r2 c hc).trans (t2 c hc), r3, fun x y => ?_⟩
    · rw [r1]
      congr 1
      · rw [List.filter_filter]
        congr 1
        funext x
        by_cases h : x = b <;> simp [h]
      · rw [Bool.eq_iff_iff]
        simp only [Bool.or_eq_true, Bool.and_eq_true, List.any_eq_true, List.mem_filter, decide_eq_true_eq,
          List.contains_eq_mem, Bool.not_eq_true', List.mem_cons]
        constructor
        · rintro ((h | ⟨h1, h2⟩) | ⟨c, ⟨h1, h2⟩, h3, h4⟩)
          · exact .inl h
          · exact .inr ⟨b, h1, .inl rfl, h2⟩
          · exact .inr ⟨c, h1, .inr h3, by rw [← hl c h1]; exact h4⟩
        · rintro (h | ⟨c, h1, h2, h3⟩)
          · exact .inl (.inl h)
          · by_cases e : c = b
            · subst e; exact .inl (.inr ⟨h1, h3⟩)
            · exact .inr ⟨c, ⟨h1, e⟩, h2.resolve_left e, by rw [hl c h1]; exact h3⟩
    · rw [r4 x y, t4 x y]
      constructor
      · rintro ((h | ⟨h1, h2, h3⟩) | ⟨c, h1, h2, h3, h4⟩)
        · exact .inl h
        · exact .inr ⟨b, List.mem_cons_self, h1, h2, h3⟩
        · have h2' := (List.mem_filter.1 h2).1
          exact .inr ⟨c, List.mem_cons_of_mem _ h1, h2', by rw [← hl c h2']; exact h3, h4⟩
      · rintro (h | ⟨c, h1, h2, h3, h4⟩)
        · exact .inl (.inl h)
        · by_cases e : c = b
          · subst e; exact .inl (.inr ⟨h2, h3, h4⟩)
          · exact .inr ⟨c, (List.mem_cons.1 h1).resolve_left e, List.mem_filter.2 ⟨h2, by simpa using e⟩,
              by rw [hl c h2]; exact h3, h4⟩

/-- A whole round over all nodes. -/
theorem round_all (W : World) {K : List Nat → Bool → Phase} (hK : Kind K) (a : Nat) (s : Net) (p : List Nat) (f : Bool)
    (hp : s.phase a = K p f) (hnd : p.Nodup) (ha : a ∉ p) (hlt : ∀ b ∈ p, b < W.n) (hi : ∀ x y, s.inb x y = false) :
    ((run W s (round W a)).phase a = K [] (f || p.any fun b => !(s.phase b).listens)) ∧
    (∀ c, c ≠ a → (run W s (round W a)).phase c = s.phase c) ∧
    (∀ x y, (run W s (round W a)).inb x y = false) ∧
    (∀ x y, (run W s (round W a)).conn x y = true ↔ s.conn x y = true ∨
      (∃ b, b ∈ p ∧ (s.phase b).listens = true ∧ ((x = a ∧ y = b) ∨ (x = b ∧ y = a)))) := by
  obtain ⟨h1, h2, h3, h4⟩ := round_run W hK a (List.range W.n) s p f hp hnd ha hi
  have e : (round W a) = (List.range W.n).flatMap (trio a) := rfl
  rw [e]
  refine ⟨?_, h2, h3, fun x y => ?_⟩
  · rw [h1]
    congr 1
    · rw [List.filter_eq_nil_iff]
      intro b hb
      simpa using hlt b hb
    · congr 1
      rw [Bool.eq_iff_iff]
      simp only [List.any_eq_true, Bool.and_eq_true, List.contains_eq_mem, List.mem_range, decide_eq_true_eq]
      exact ⟨fun ⟨b, k1, _, k2⟩ => ⟨b, k1, k2⟩, fun ⟨b, k1, k2⟩ => ⟨b, k1, hlt b k1, k2⟩⟩
  · rw [h4]
    constructor
    · rintro (h | ⟨b, _, k⟩)
      · exact .inl h
      · exact .inr ⟨b, k⟩
    · rintro (h | ⟨b, k⟩)
      · exact .inl h
      · exact .inr ⟨b, List.mem_range.2 (hlt b k.1), k⟩

/-- A round of a node with no attempts left does nothing. -/
theorem round_idle (W : World) (a : Nat) (s : Net) (hp : (s.phase a).pending = []) (hi : ∀ x y, s.inb x y = false) :
    run W s (round W a) = s := by
  have h : ∀ ks : List Nat, run W s (ks.flatMap (trio a)) = s := by
    intro ks
    induction ks with
    | nil => rfl
    | cons b ks ih =>
      have h1 : step W s (.reach a b) = s := by simp only [step, hp]; rw [if_neg (fun h => by cases h.1)]
      have h2 : step W s (.timeout a b) = s := by simp only [step, hp]; rw [if_neg (fun h => by cases h.1)]
      have h3 : step W s (.accept b a) = s := by simp only [step, hi]; rw [if_neg (by simp)]
      have hr : run W s ((b :: ks).flatMap (trio a)) = run W (run W s (trio a b)) (ks.flatMap (trio a)) := by
        simp only [run, List.flatMap_cons, List.foldl_append]
      rw [hr]
      have : run W s (trio a b) = s := by simp only [run, trio, List.foldl_cons, List.foldl_nil, h1, h2, h3]
      rw [this, ih]
  exact h _

/-- Whether `j`, started after `i`, ends up connected with it. -/
def Linked (W : World) (i j : Nat) : Prop := W.pref j i = true ∨ ∀ k, j < k → k < W.n → W.pref j k = false

/-- The network after the nodes below `j` have started. -/
structure Seq (W : World) (j : Nat) (s : Net) : Prop where
  inb : ∀ x y, s.inb x y = false
  old : ∀ c, c < j → s.phase c = .ready ∨ s.phase c = .stopped []
  new : ∀ c, j ≤ c → s.phase c = .off
  conn : ∀ x y, s.conn x y = true ↔ (x < y ∧ y < j ∧ Linked W x y) ∨ (y < x ∧ x < j ∧ Linked W y x)

theorem seq_dark (W : World) : Seq W 0 dark :=
  ⟨fun _ _ => rfl, fun _ h => absurd h (Nat.not_lt_zero _), fun _ _ => rfl, fun x y => by simp [dark]⟩

theorem targets_nodup (W : World) (s : Net) (a : Nat) (P : Nat → Bool) : (targets W s a P).Nodup :=
  List.nodup_range.filter _

theorem seq_boot (W : World) (j : Nat) (s : Net) (hj : j < W.n) (H : Seq W j s) : Seq W (j + 1) (run W s (boot W j)) := by
  -- listening
  have hoff : s.phase j = .off := H.new j (Nat.le_refl _)
  have hcj : ∀ b, s.conn j b = false := fun b => by
    cases e : s.conn j b with
    | false => rfl
    | true => rcases (H.conn j b).1 e with h | h <;> omega
  have hl : ∀ c, (s.phase c).listens = true ↔ c < j := fun c => by
    by_cases h : c < j
    · rcases H.old c h with e | e <;> simp [e, h, Phase.listens]
    · simp [H.new c (Nat.le_of_not_lt h), h, Phase.listens]
  have e1 : step W s (.start j) = setPhase s j .up := by simp only [step]; rw [if_pos ⟨hj, hoff⟩]
  let p1 := targets W s j (W.pref j)
  have e2 : step W (step W s (.start j)) (.begin j) = setPhase (setPhase s j .up) j (.first p1 false) := by
    rw [e1]; simp only [step, setPhase_phase, if_true]; rfl
  generalize hs1 : setPhase (setPhase s j .up) j (.first p1 false) = s1 at e2
  have s1j : s1.phase j = .first p1 false := by rw [← hs1]; simp
  have s1c : ∀ c, c ≠ j → s1.phase c = s.phase c := fun c hc => by rw [← hs1]; simp [hc]
  have s1n : s1.conn = s.conn := by rw [← hs1]; rfl
  have s1i : ∀ x y, s1.inb x y = false := by rw [← hs1]; exact H.inb
  have hm1 : ∀ b, b ∈ p1 ↔ b < W.n ∧ b ≠ j ∧ W.pref j b = true := fun b => by
    rw [mem_targets]; simp [hcj b]
  obtain ⟨r1, r2, r3, r4⟩ := round_all W kind_first j s1 p1 false s1j (targets_nodup _ _ _ _)
    (fun h => ((hm1 j).1 h).2.1 rfl) (fun b hb => ((hm1 b).1 hb).1) s1i
  generalize hs2 : run W s1 (round W j) = s2 at r1 r2 r3 r4
  have hboot : run W s (boot W j) = run W (run W (step W (step W s2 (.fin j)) (.again j)) (round W j)) [.fin j] := by
    simp only [boot, run, List.foldl_append, List.foldl_cons, List.foldl_nil, e2]
    simp only [run] at hs2
    rw [hs2]
  have hl1 : ∀ b, b ≠ j → (s1.phase b).listens = (s.phase b).listens := fun b hb => by rw [s1c b hb]
  have hc2 : ∀ x y, s2.conn x y = true ↔ s.conn x y = true ∨ (x = j ∧ y < j ∧ W.pref j y = true) ∨ (y = j ∧ x < j ∧ W.pref j x = true) := by
    intro x y
    rw [r4, s1n]
    constructor
    · rintro (h | ⟨b, h1, h2, h3⟩)
      · exact .inl h
      · have hb := (hm1 b).1 h1
        rw [hl1 b hb.2.1, hl] at h2
        rcases h3 with ⟨rfl, rfl⟩ | ⟨rfl, rfl⟩
        · exact .inr (.inl ⟨rfl, h2, hb.2.2⟩)
        · exact .inr (.inr ⟨rfl, h2, hb.2.2⟩)
    · rintro (h | ⟨rfl, h2, h3⟩ | ⟨rfl, h2, h3⟩)
      · exact .inl h
      · exact .inr ⟨y, (hm1 y).2 ⟨by omega, by omega, h3⟩, by rw [hl1 y (by omega), hl]; exact h2, .inl ⟨rfl, rfl⟩⟩
      · exact .inr ⟨x, (hm1 x).2 ⟨by omega, by omega, h3⟩, by rw [hl1 x (by omega), hl]; exact h2, .inr ⟨rfl, rfl⟩⟩
  have hF : (p1.any fun b => !(s1.phase b).listens) = true ↔ ¬ ∀ k, j < k → k < W.n → W.pref j k = false := by
    simp only [List.any_eq_true, Bool.not_eq_true']
    constructor
    · rintro ⟨b, h1, h2⟩ h
      have hb := (hm1 b).1 h1
      rw [hl1 b hb.2.1] at h2
      have : ¬ b < j := fun hlt => by rw [(hl b).2 hlt] at h2; cases h2
      rw [h b (by omega) hb.1] at hb
      exact absurd hb.2.2 (by simp)
    · intro h
      apply Classical.byContradiction
      intro hn
      apply h
      intro k h1 h2
      cases e : W.pref j k with
      | false => rfl
      | true =>
        refine absurd ⟨k, (hm1 k).2 ⟨h2, by omega, e⟩, ?_⟩ hn
        rw [hl1 k (by omega)]
        cases e2 : (s.phase k).listens with
        | false => rfl
        | true => have := (hl k).1 e2; omega
  simp only [Bool.false_or] at r1
  rw [hboot]
  cases hFc : (p1.any fun b => !(s1.phase b).listens) with
  | true =>
    rw [hFc] at r1
    have hbad := hF.1 hFc
    have e3 : step W s2 (.fin j) = setPhase s2 j (.stopped []) := by simp only [step, r1]; rfl
    have e4 : step W (setPhase s2 j (.stopped [])) (.again j) = setPhase s2 j (.stopped []) := by
      simp only [step, setPhase_phase, if_true]; rfl
    rw [e3, e4, round_idle W j (setPhase s2 j (.stopped [])) (by simp [Phase.pending]) r3]
    have e5 : run W (setPhase s2 j (.stopped [])) [.fin j] = setPhase s2 j (.stopped []) := by
      simp only [run, List.foldl_cons, List.foldl_nil, step, setPhase_phase, if_true]
    rw [e5]
    refine ⟨r3, fun c hc => ?_, fun c hc => ?_, fun x y => ?_⟩
    · by_cases h : c = j
      · simp [h]
      · simp only [setPhase_phase, if_neg h]
        rw [r2 c h, s1c c h]; exact H.old c (by omega)
    · have h : c ≠ j := by omega
      simp only [setPhase_phase, if_neg h]
      rw [r2 c h, s1c c h]; exact H.new c (by omega)
    · rw [setPhase_conn, hc2, H.conn]
      constructor
      · rintro ((⟨h1, h2, h3⟩ | ⟨h1, h2, h3⟩) | ⟨rfl, h2, h3⟩ | ⟨rfl, h2, h3⟩)
        · exact .inl ⟨h1, by omega, h3⟩
        · exact .inr ⟨h1, by omega, h3⟩
        · exact .inr ⟨h2, by omega, .inl h3⟩
        · exact .inl ⟨h2, by omega, .inl h3⟩
      · rintro (⟨h1, h2, h3⟩ | ⟨h1, h2, h3⟩)
        · by_cases e : y = j
          · subst e; exact .inr (.inr ⟨rfl, h1, h3.resolve_right hbad⟩)
          · exact .inl (.inl ⟨h1, by omega, h3⟩)
        · by_cases e : x = j
          · subst e; exact .inr (.inl ⟨rfl, h1, h3.resolve_right hbad⟩)
          · exact .inl (.inr ⟨h1, by omega, h3⟩)
  | false =>
    rw [hFc] at r1
    have hgood : ∀ k, j < k → k < W.n → W.pref j k = false := by
      apply Classical.byContradiction
      intro h; rw [hF.2 h] at hFc; cases hFc
    have e3 : step W s2 (.fin j) = setPhase s2 j .pause := by simp only [step, r1]; rfl
    let p2 := targets W (setPhase s2 j .pause) j fun _ => true
    have e4 : step W (setPhase s2 j .pause) (.again j) = setPhase (setPhase s2 j .pause) j (.second p2 false) := by
      simp only [step, setPhase_phase, if_true]; rfl
    rw [e3, e4]
    generalize hs3 : setPhase (setPhase s2 j .pause) j (.second p2 false) = s3
    have s3j : s3.phase j = .second p2 false := by rw [← hs3]; simp
    have s3c : ∀ c, c ≠ j → s3.phase c = s.phase c := fun c hc => by
      rw [← hs3]; simp only [setPhase_phase, if_neg hc]; rw [r2 c hc, s1c c hc]
    have s3n : s3.conn = s2.conn := by rw [← hs3]; rfl
    have s3i : ∀ x y, s3.inb x y = false := by rw [← hs3]; exact r3
    have hm2 : ∀ b, b ∈ p2 ↔ b < W.n ∧ b ≠ j ∧ s2.conn j b = false := fun b => by
      rw [mem_targets]; simp
    obtain ⟨q1, q2, q3, q4⟩ := round_all W kind_second j s3 p2 false s3j (targets_nodup _ _ _ _)
      (fun h => ((hm2 j).1 h).2.1 rfl) (fun b hb => ((hm2 b).1 hb).1) s3i
    generalize run W s3 (round W j) = s4 at q1 q2 q3 q4
    have q4' : ∀ x y, s4.conn x y = true ↔ (x < y ∧ y < j + 1 ∧ Linked W x y) ∨ (y < x ∧ x < j + 1 ∧ Linked W y x) := by
      intro x y
      rw [q4, s3n]
      constructor
      · rintro (h | ⟨b, h1, h2, h3⟩)
        · rw [hc2, H.conn] at h
          rcases h with (⟨h1, h2, h3⟩ | ⟨h1, h2, h3⟩) | ⟨rfl, h2, h3⟩ | ⟨rfl, h2, h3⟩
          · exact .inl ⟨h1, by omega, h3⟩
          · exact .inr ⟨h1, by omega, h3⟩
          · exact .inr ⟨h2, by omega, .inl h3⟩
          · exact .inl ⟨h2, by omega, .inl h3⟩
        · have hb := (hm2 b).1 h1
          rw [s3c b hb.2.1, hl] at h2
          rcases h3 with ⟨rfl, rfl⟩ | ⟨rfl, rfl⟩
          · exact .inr ⟨h2, by omega, .inr hgood⟩
          · exact .inl ⟨h2, by omega, .inr hgood⟩
      · rintro (⟨h1, h2, h3⟩ | ⟨h1, h2, h3⟩)
        · by_cases e : y = j
          · subst e
            cases hc : s2.conn x y with
            | true => exact .inl rfl
            | false =>
              cases hc' : s2.conn y x with
              | true =>
                have := (hc2 y x).1 hc'
                rw [hcj] at this
                rw [(hc2 x y).2 (.inr (.inr ⟨rfl, h1, by rcases this with h | ⟨_, _, h⟩ | ⟨h, _⟩; · cases h
                                                         · exact h
                                                         · omega⟩))] at hc
                cases hc
              | false =>
                exact .inr ⟨x, (hm2 x).2 ⟨by omega, by omega, hc'⟩, by rw [s3c x (by omega), hl]; exact h1, .inr ⟨rfl, rfl⟩⟩
          · exact .inl ((hc2 x y).2 (.inl ((H.conn x y).2 (.inl ⟨h1, by omega, h3⟩))))
        · by_cases e : x = j
          · subst e
            cases hc : s2.conn x y with
            | true => exact .inl rfl
            | false =>
              exact .inr ⟨y, (hm2 y).2 ⟨by omega, by omega, hc⟩, by rw [s3c y (by omega), hl]; exact h1, .inl ⟨rfl, rfl⟩⟩
          · exact .inl ((hc2 x y).2 (.inl ((H.conn x y).2 (.inr ⟨h1, by omega, h3⟩))))
    simp only [Bool.false_or] at q1
    have e5 : ∃ x : Phase, (x = .ready ∨ x = .stopped []) ∧ run W s4 [.fin j] = setPhase s4 j x := by
      simp only [run, List.foldl_cons, List.foldl_nil, step, q1]
      cases p2.any fun b => !(s3.phase b).listens with
      | true => exact ⟨_, .inr rfl, rfl⟩
      | false => exact ⟨_, .inl rfl, rfl⟩
    obtain ⟨x, hx, e5⟩ := e5
    rw [e5]
    refine ⟨q3, fun c hc => ?_, fun c hc => ?_, q4'⟩
    · by_cases h : c = j
      · simpa [h] using hx
      · simp only [setPhase_phase, if_neg h]
        rw [q2 c h, s3c c h]; exact H.old c (by omega)
    · have h : c ≠ j := by omega
      simp only [setPhase_phase, if_neg h]
      rw [q2 c h, s3c c h]; exact H.new c (by omega)

theorem seq_all (W : World) : ∀ j, j ≤ W.n → Seq W j (run W dark ((List.range j).flatMap (boot W)))
  | 0, _ => seq_dark W
  | j + 1, h => by
    have := seq_boot W j _ (by omega) (seq_all W j (by omega))
    rw [List.range_succ, List.flatMap_append]
    simp only [run, List.foldl_append, List.flatMap_cons, List.flatMap_nil, List.append_nil] at this ⊢
    exact this

end Fastroll.Dial
