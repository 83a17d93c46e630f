import Verif.Merkle.Props
/-! # The super-peak of a mountain range commits to the whole log -/
namespace Fastroll.Merkle

/-- The octets of an ASCII text. -/
def ascii (s : String) : Bytes := s.toList.map fun c => UInt8.ofNat c.toNat

/-- `M_R` of the Gray Paper on the peaks that are present: nothing gives the zero hash, one peak
is itself, and each further peak is hashed behind the text `peak` and the super-peak of those
before it. -/
inductive PaperPeak (k : Bytes → Bytes) : List Bytes → Bytes → Prop
  | none : PaperPeak k [] (List.replicate 32 0)
  | one (p : Bytes) : PaperPeak k [p] p
  | more (ps : List Bytes) (q r : Bytes) : ps ≠ [] → PaperPeak k ps r →
      PaperPeak k (ps ++ [q]) (k (ascii "peak" ++ r ++ q))

/-- The strings hashed by one append: going up through the filled slots. -/
def appendInputs (h : Bytes → Bytes) : List (Option Bytes) → Bytes → List Bytes
  | some old :: ps, root => (old ++ root) :: appendInputs h ps (h (old ++ root))
  | _, _ => []

/-- The strings hashed while a log is built from nothing. -/
def logInputs (h : Bytes → Bytes) : List (Option Bytes) → List Bytes → List Bytes
  | _, [] => []
  | ps, x :: xs => appendInputs h ps x ++ logInputs h (mmrAppend h ps x) xs

/-- The strings hashed by a super-peak, after the first peak. -/
def peakInputs (k : Bytes → Bytes) : Bytes → List Bytes → List Bytes
  | _, [] => []
  | a, p :: ps => (peakPrefix ++ a ++ p) :: peakInputs k (k (peakPrefix ++ a ++ p)) ps

/-- The strings hashed by the super-peak of a range. -/
def rangeInputs (k : Bytes → Bytes) (peaks : List (Option Bytes)) : List Bytes :=
  match peaks.filterMap id with
  | [] => []
  | p :: ps => peakInputs k p ps

/-- Two different strings with the same hash, one from each list. -/
def Collide (h : Bytes → Bytes) (xs ys : List Bytes) : Prop :=
  ∃ x ∈ xs, ∃ y ∈ ys, x ≠ y ∧ h x = h y

theorem Collide.mono {h : Bytes → Bytes} {xs ys xs' ys' : List Bytes} (hc : Collide h xs ys)
    (hx : ∀ x ∈ xs, x ∈ xs') (hy : ∀ y ∈ ys, y ∈ ys') : Collide h xs' ys' := by
  obtain ⟨x, h1, y, h2, h3⟩ := hc
  exact ⟨x, hx x h1, y, hy y h2, h3⟩

theorem foldl_binds (k : Bytes → Bytes) (hk : ∀ x, (k x).length = 32) (ps qs : List Bytes)
    (a b : Bytes) (hl : ps.length = qs.length) (ha : a.length = b.length)
    (hp : ∀ p ∈ ps, p.length = 32) (hq : ∀ p ∈ qs, p.length = 32)
    (he : ps.foldl (fun acc peak => k (peakPrefix ++ acc ++ peak)) a =
      qs.foldl (fun acc peak => k (peakPrefix ++ acc ++ peak)) b) :
    (a = b ∧ ps = qs) ∨ Collide k (peakInputs k a ps) (peakInputs k b qs) := by
  induction ps generalizing qs a b with
  | nil =>
    cases qs with
    | nil => exact .inl ⟨he, rfl⟩
    | cons q qs => simp at hl
  | cons p ps ih =>
    cases qs with
    | nil => simp at hl
    | cons q qs =>
      rcases ih qs _ _ (by simpa using hl) (by rw [hk, hk]) (fun x hx => hp x (by simp [hx]))
        (fun x hx => hq x (by simp [hx])) he with ⟨h1, h2⟩ | hc
      · by_cases hx : peakPrefix ++ a ++ p = peakPrefix ++ b ++ q
        · have h3 := List.append_inj hx (by simp [ha])
          have h4 := List.append_inj h3.1 rfl
          exact .inl ⟨h4.2, by rw [h3.2, h2]⟩
        · exact .inr ⟨_, List.mem_cons_self, _, List.mem_cons_self, hx, h1⟩
      · exact .inr (hc.mono (fun x hx => List.mem_cons_of_mem _ hx)
          fun x hx => List.mem_cons_of_mem _ hx)

theorem shape_eq (ps qs : List (Option Bytes)) (hs : ps.map Option.isSome = qs.map Option.isSome)
    (he : ps.filterMap id = qs.filterMap id) : ps = qs := by
  induction ps generalizing qs with
  | nil => cases qs with
    | nil => rfl
    | cons q qs => simp at hs
  | cons p ps ih =>
    cases qs with
    | nil => simp at hs
    | cons q qs =>
      simp only [List.map_cons, List.cons.injEq] at hs
      cases p with
      | none =>
        cases q with
        | none => rw [ih qs hs.2 (by simpa using he)]
        | some y => simp at hs
      | some x =>
        cases q with
        | none => simp at hs
        | some y =>
          simp at he
          rw [he.1, ih qs hs.2 he.2]

theorem append_shape (h h' : Bytes → Bytes) (ps qs : List (Option Bytes)) (a b : Bytes)
    (hs : ps.map Option.isSome = qs.map Option.isSome) :
    (mmrAppend h ps a).map Option.isSome = (mmrAppend h' qs b).map Option.isSome := by
  induction ps generalizing qs a b with
  | nil => cases qs with
    | nil => rfl
    | cons q qs => simp at hs
  | cons p ps ih =>
    cases qs with
    | nil => simp at hs
    | cons q qs =>
      simp only [List.map_cons, List.cons.injEq] at hs
      cases p <;> cases q <;> simp at hs <;> simp [mmrAppend, hs]
      simpa using ih qs _ _ (by simpa using hs)

theorem append_len (h : Bytes → Bytes) (hh : ∀ x, (h x).length = 32) (ps : List (Option Bytes))
    (a : Bytes) (ha : a.length = 32) (hp : ∀ p, some p ∈ ps → p.length = 32) :
    ∀ p, some p ∈ mmrAppend h ps a → p.length = 32 := by
  induction ps generalizing a with
  | nil => intro p hx; simp [mmrAppend] at hx; rw [hx, ha]
  | cons q ps ih =>
    cases q with
    | none =>
      intro p hx
      simp only [mmrAppend, List.mem_cons, Option.some.injEq] at hx
      rcases hx with rfl | hx
      · exact ha
      · exact hp p (by simp [hx])
    | some y =>
      intro p hx
      simp only [mmrAppend, List.mem_cons, reduceCtorEq, false_or] at hx
      exact ih _ (hh _) (fun p hp' => hp p (by simp [hp'])) p hx

theorem append_binds (h : Bytes → Bytes) (hh : ∀ x, (h x).length = 32)
    (ps qs : List (Option Bytes)) (a b : Bytes) (hs : ps.map Option.isSome = qs.map Option.isSome)
    (hp : ∀ p, some p ∈ ps → p.length = 32) (hq : ∀ p, some p ∈ qs → p.length = 32)
    (he : mmrAppend h ps a = mmrAppend h qs b) :
    (ps = qs ∧ a = b) ∨ Collide h (appendInputs h ps a) (appendInputs h qs b) := by
  induction ps generalizing qs a b with
  | nil => cases qs with
    | nil => simp [mmrAppend] at he; exact .inl ⟨rfl, he⟩
    | cons q qs => simp at hs
  | cons p ps ih =>
    cases qs with
    | nil => simp at hs
    | cons q qs =>
      simp only [List.map_cons, List.cons.injEq] at hs
      cases p with
      | none =>
        cases q with
        | none => simp [mmrAppend] at he; exact .inl ⟨by rw [he.2], he.1⟩
        | some y => simp at hs
      | some x =>
        cases q with
        | none => simp at hs
        | some y =>
          simp only [mmrAppend, List.cons.injEq, true_and] at he
          rcases ih qs _ _ hs.2 (fun p hp' => hp p (by simp [hp']))
            (fun p hp' => hq p (by simp [hp'])) he with ⟨h1, h2⟩ | hc
          · by_cases hx : x ++ a = y ++ b
            · have h3 := List.append_inj hx (by rw [hp x (by simp), hq y (by simp)])
              exact .inl ⟨by rw [h3.1, h1], h3.2⟩
            · exact .inr ⟨_, List.mem_cons_self, _, List.mem_cons_self, hx, h2⟩
          · exact .inr (hc.mono (fun x hx => List.mem_cons_of_mem _ hx)
              fun x hx => List.mem_cons_of_mem _ hx)

theorem log_binds (h : Bytes → Bytes) (hh : ∀ x, (h x).length = 32) (xs ys : List Bytes)
    (ps qs : List (Option Bytes)) (hl : xs.length = ys.length)
    (hs : ps.map Option.isSome = qs.map Option.isSome)
    (hx : ∀ x ∈ xs, x.length = 32) (hy : ∀ y ∈ ys, y.length = 32)
    (hp : ∀ p, some p ∈ ps → p.length = 32) (hq : ∀ p, some p ∈ qs → p.length = 32)
    (he : xs.foldl (mmrAppend h) ps = ys.foldl (mmrAppend h) qs) :
    (ps = qs ∧ xs = ys) ∨ Collide h (logInputs h ps xs) (logInputs h qs ys) := by
  induction xs generalizing ys ps qs with
  | nil => cases ys with
    | nil => exact .inl ⟨he, rfl⟩
    | cons y ys => simp at hl
  | cons x xs ih =>
    cases ys with
    | nil => simp at hl
    | cons y ys =>
      have ha := hx x (by simp)
      have hb := hy y (by simp)
      rcases ih ys _ _ (by simpa using hl) (append_shape h h ps qs x y hs)
        (fun z hz => hx z (by simp [hz])) (fun z hz => hy z (by simp [hz]))
        (append_len h hh ps x ha hp) (append_len h hh qs y hb hq) he with ⟨h1, h2⟩ | hc
      · rcases append_binds h hh ps qs x y hs hp hq h1 with ⟨h3, h4⟩ | hc
        · exact .inl ⟨h3, by rw [h4, h2]⟩
        · exact .inr (hc.mono (fun x hx => List.mem_append_left _ hx)
            fun x hx => List.mem_append_left _ hx)
      · exact .inr (hc.mono (fun x hx => List.mem_append_right _ hx)
          fun x hx => List.mem_append_right _ hx)

theorem log_shape (h : Bytes → Bytes) (hh : ∀ x, (h x).length = 32) (xs ys : List Bytes)
    (ps qs : List (Option Bytes)) (hl : xs.length = ys.length)
    (hs : ps.map Option.isSome = qs.map Option.isSome) (hx : ∀ x ∈ xs, x.length = 32)
    (hp : ∀ p, some p ∈ ps → p.length = 32) :
    (xs.foldl (mmrAppend h) ps).map Option.isSome = (ys.foldl (mmrAppend h) qs).map Option.isSome ∧
    ∀ p, some p ∈ xs.foldl (mmrAppend h) ps → p.length = 32 := by
  induction xs generalizing ys ps qs with
  | nil => cases ys with
    | nil => exact ⟨hs, hp⟩
    | cons y ys => simp at hl
  | cons x xs ih =>
    cases ys with
    | nil => simp at hl
    | cons y ys =>
      exact ih ys _ _ (by simpa using hl) (append_shape h h ps qs x y hs)
        (fun z hz => hx z (by simp [hz])) (append_len h hh ps x (hx x (by simp)) hp)

/-- **C07.** The super-peak is the Gray Paper's. -/
theorem C07_super_peak (k : Bytes → Bytes) (peaks : List (Option Bytes)) (s : Bytes) :
    PaperPeak k (peaks.filterMap id) s ↔ s = superPeak k peaks := by
  have hpre : ascii "peak" = peakPrefix := by decide
  unfold superPeak
  generalize peaks.filterMap id = l
  constructor
  · intro h
    induction h with
    | none => rfl
    | one p => rfl
    | more ps q r hne _ ih =>
      cases ps with
      | nil => exact absurd rfl hne
      | cons p ps =>
        simp only [List.cons_append, List.foldl_append, List.foldl_cons, List.foldl_nil] at ih ⊢
        rw [hpre, ih]
  · rintro rfl
    cases l with
    | nil => exact .none
    | cons p ps =>
      have key : ∀ (n : Nat) (ps : List Bytes), ps.length = n → PaperPeak k (p :: ps)
          (ps.foldl (fun acc peak => k (peakPrefix ++ acc ++ peak)) p) := by
        intro n
        induction n with
        | zero =>
          intro ps hn
          rw [List.length_eq_zero_iff.mp hn]
          exact .one p
        | succ n ih =>
          intro ps hn
          have hne : ps ≠ [] := by rintro rfl; simp at hn
          rw [← List.dropLast_concat_getLast hne, List.foldl_append]
          have := PaperPeak.more (k := k) (p :: ps.dropLast) (ps.getLast hne) _ (by simp)
            (ih ps.dropLast (by simp [hn]))
          rw [hpre] at this
          exact this
      exact key _ ps rfl

example : superPeak toyHash (mmrOf toyHash [[1], [2], [3]]) =
    toyHash (peakPrefix ++ [3] ++ toyHash ([1] ++ [2])) := by rfl

/-- **C07.** The super-peak commits to the whole log: two logs of the same length whose
super-peaks agree are the same log, or two different strings with the same hash are found among
those hashed while building them. -/
theorem C07_binds (h k : Bytes → Bytes) (hh : ∀ x, (h x).length = 32) (hk : ∀ x, (k x).length = 32)
    (xs ys : List Bytes) (hl : xs.length = ys.length)
    (hx : ∀ x ∈ xs, x.length = 32) (hy : ∀ y ∈ ys, y.length = 32)
    (he : superPeak k (mmrOf h xs) = superPeak k (mmrOf h ys)) :
    xs = ys ∨ Collide h (logInputs h [] xs) (logInputs h [] ys) ∨
      Collide k (rangeInputs k (mmrOf h xs)) (rangeInputs k (mmrOf h ys)) := by
  obtain ⟨hs, hp⟩ := log_shape h hh xs ys [] [] hl rfl hx (by simp)
  obtain ⟨_, hq⟩ := log_shape h hh ys xs [] [] hl.symm rfl hy (by simp)
  have hlen : ((mmrOf h xs).filterMap id).length = ((mmrOf h ys).filterMap id).length := by
    have key : ∀ ps qs : List (Option Bytes), ps.map Option.isSome = qs.map Option.isSome →
        (ps.filterMap id).length = (qs.filterMap id).length := by
      intro ps
      induction ps with
      | nil => intro qs h; cases qs with
        | nil => rfl
        | cons q qs => simp at h
      | cons p ps ih =>
        intro qs h
        cases qs with
        | nil => simp at h
        | cons q qs =>
          simp only [List.map_cons, List.cons.injEq] at h
          have := ih qs h.2
          cases p <;> cases q <;> simp at h <;> simp [this]
    exact key _ _ hs
  have hp' : ∀ p ∈ (mmrOf h xs).filterMap id, p.length = 32 := by
    intro p hm
    obtain ⟨o, ho, (rfl : o = some p)⟩ := List.mem_filterMap.mp hm
    exact hp p ho
  have hq' : ∀ p ∈ (mmrOf h ys).filterMap id, p.length = 32 := by
    intro p hm
    obtain ⟨o, ho, (rfl : o = some p)⟩ := List.mem_filterMap.mp hm
    exact hq p ho
  have hmm : (mmrOf h xs).filterMap id = (mmrOf h ys).filterMap id ∨
      Collide k (rangeInputs k (mmrOf h xs)) (rangeInputs k (mmrOf h ys)) := by
    unfold superPeak at he
    unfold rangeInputs
    generalize (mmrOf h xs).filterMap id = ps at *
    generalize (mmrOf h ys).filterMap id = qs at *
    cases ps with
    | nil =>
      cases qs with
      | nil => exact .inl rfl
      | cons q qs => simp at hlen
    | cons p ps =>
      cases qs with
      | nil => simp at hlen
      | cons q qs =>
        rcases foldl_binds k hk ps qs p q (by simpa using hlen)
          (by rw [hp' p (by simp), hq' q (by simp)]) (fun x hx => hp' x (by simp [hx]))
          (fun x hx => hq' x (by simp [hx])) he with ⟨h1, h2⟩ | hc
        · exact .inl (by rw [h1, h2])
        · exact .inr hc
  rcases hmm with hmm | hc
  · rcases log_binds h hh xs ys [] [] hl rfl hx hy (by simp) (by simp) (shape_eq _ _ hs hmm)
      with ⟨_, h2⟩ | hc
    · exact .inl h2
    · exact .inr (.inl hc)
  · exact .inr (.inr hc)

/-- A hash of 32 octets that tells a log of zeros from one of ones. -/
example : superPeak (fun x => (x ++ List.replicate 32 0).take 32)
      (mmrOf (fun x => (x ++ List.replicate 32 0).take 32) [List.replicate 32 0]) ≠
    superPeak (fun x => (x ++ List.replicate 32 0).take 32)
      (mmrOf (fun x => (x ++ List.replicate 32 0).take 32) [List.replicate 32 1]) := by decide

/-! ## Trees -/

/-- `N` of the Gray Paper: nothing gives the zero hash, one item is itself, and more are split in
the middle, the first half being at most one longer. -/
inductive PaperNode (h : Bytes → Bytes) : List Bytes → Bytes → Prop
  | none : PaperNode h [] (List.replicate 32 0)
  | one (x : Bytes) : PaperNode h [x] x
  | more (l r : List Bytes) (a b : Bytes) : r ≠ [] →
      (l.length = r.length ∨ l.length = r.length + 1) → PaperNode h l a → PaperNode h r b →
      PaperNode h (l ++ r) (h (ascii "node" ++ a ++ b))

/-- `C` of the Gray Paper: the hashed leaves, filled up with zero hashes to the next power of
two. -/
def PaperLeaves (h : Bytes → Bytes) (data leaves : List Bytes) : Prop :=
  ∃ n, leaves.length = 2 ^ n ∧ data.length ≤ 2 ^ n ∧ (∀ m, data.length ≤ 2 ^ m → n ≤ m) ∧
    ∀ i, i < 2 ^ n → leaves[i]? =
      some (match data[i]? with
        | some v => h (ascii "leaf" ++ v)
        | none => List.replicate 32 0)

theorem node_split (h : Bytes → Bytes) (l r : List Bytes) (hr : r ≠ [])
    (hl : l.length = r.length ∨ l.length = r.length + 1) :
    node h (l ++ r) = h (nodePrefix ++ node h l ++ node h r) := by
  have hr' : 0 < r.length := List.length_pos_iff.mpr hr
  conv => lhs; unfold node
  rw [dif_neg (by rw [List.length_append]; omega), dif_neg (by rw [List.length_append]; omega)]
  have hm : mid (l ++ r).length = l.length := by simp [mid]; omega
  simp only [hm, List.take_left', List.drop_left']

/-- **C06.** The node function is the Gray Paper's. -/
theorem C06_node_paper (h : Bytes → Bytes) (data : List Bytes) (s : Bytes) :
    PaperNode h data s ↔ s = node h data := by
  have hpre : ascii "node" = nodePrefix := by decide
  constructor
  · intro hp
    induction hp with
    | none => unfold node; simp [zeroHash]
    | one x => unfold node; simp
    | more l r a b hr hl _ _ ia ib => rw [node_split h l r hr hl, hpre, ia, ib]
  · rintro rfl
    have key : ∀ (n : Nat) (data : List Bytes), data.length = n → PaperNode h data (node h data) := by
      intro n
      induction n using Nat.strongRecOn with
      | ind n ih =>
        intro data hn
        match data, hn with
        | [], _ => unfold node; exact .none
        | [x], _ => unfold node; exact .one x
        | x :: y :: t, hn =>
          have hsplit := List.take_append_drop (((x :: y :: t).length + 1) / 2) (x :: y :: t)
          have h1 : (List.take (((x :: y :: t).length + 1) / 2) (x :: y :: t)).length =
              ((x :: y :: t).length + 1) / 2 := by simp; omega
          have h2 : (List.drop (((x :: y :: t).length + 1) / 2) (x :: y :: t)).length =
              (x :: y :: t).length - ((x :: y :: t).length + 1) / 2 := by simp
          generalize List.take (((x :: y :: t).length + 1) / 2) (x :: y :: t) = l at *
          generalize List.drop (((x :: y :: t).length + 1) / 2) (x :: y :: t) = r at *
          have h3 : (x :: y :: t).length = t.length + 2 := rfl
          rw [← hsplit]
          have hr : r ≠ [] := by rintro rfl; simp at h2; omega
          have hlr : l.length = r.length ∨ l.length = r.length + 1 := by omega
          rw [node_split h l r hr hlr, ← hpre]
          exact .more l r _ _ hr hlr (ih l.length (by omega) l rfl) (ih r.length (by omega) r rfl)
    exact key _ data rfl

example : PaperNode toyHash [[1], [2], [3]] (toyHash (ascii "node" ++
    toyHash (ascii "node" ++ [1] ++ [2]) ++ [3])) :=
  .more [[1], [2]] [[3]] _ _ (by simp) (.inr rfl)
    (.more [[1]] [[2]] _ _ (by simp) (.inl rfl) (.one _) (.one _)) (.one _)

/-- **C06.** The roots of both kinds of tree are the Gray Paper's: a well-balanced tree hashes a
single item and is the node function otherwise; a constant-depth tree is the node function of the
leaves hashed and filled up to a power of two. -/
theorem C06_roots_paper (h : Bytes → Bytes) (data : List Bytes) :
    ((∃ x, data = [x] ∧ balancedRoot h data = h x) ∨
      (data.length ≠ 1 ∧ PaperNode h data (balancedRoot h data))) ∧
    ∃ leaves, PaperLeaves h data leaves ∧ PaperNode h leaves (constantRoot h data) := by
  have hpre : ascii "leaf" = leafPrefix := by decide
  constructor
  · match data with
    | [] => exact .inr ⟨by simp, .none⟩
    | [x] => exact .inl ⟨x, rfl, rfl⟩
    | x :: y :: t => exact .inr ⟨by simp, (C06_node_paper h _ _).mpr rfl⟩
  · cases data with
    | nil =>
      refine ⟨[zeroHash], ⟨0, rfl, by simp, fun m _ => Nat.zero_le m, ?_⟩, .one _⟩
      intro i hi
      have : i = 0 := by simpa using hi
      subst this
      rfl
    | cons x t =>
      refine ⟨preprocess h (x :: t), ?_, (C06_node_paper h _ _).mpr rfl⟩
      have hle := le_nextPow2 (x :: t).length
      have hpow := nextPow2_pow (x :: t).length
      have hmin : ∀ m, (x :: t).length ≤ 2 ^ m → (nextPow2 (x :: t).length).log2 ≤ m := by
        intro m hm
        unfold nextPow2
        split
        · simp [show Nat.log2 1 = 0 by decide]
        · next h1 =>
          rw [Nat.log2_two_pow]
          have : ((x :: t).length - 1).log2 < m := (Nat.log2_lt (by omega)).mpr (by omega)
          omega
      refine ⟨(nextPow2 (x :: t).length).log2, ?_, by rw [← hpow]; exact hle, hmin, ?_⟩
      · rw [← hpow]
        simp [preprocess]
        simp at hle
        omega
      · intro i hi
        rw [← hpow] at hi
        simp only [preprocess]
        by_cases hlt : i < (x :: t).length
        · rw [List.getElem?_append_left (by simpa using hlt), List.getElem?_map,
            List.getElem?_eq_getElem hlt, hpre]
          rfl
        · rw [List.getElem?_append_right (by simpa using hlt),
            List.getElem?_eq_none (l := x :: t) (by omega),
            List.getElem?_replicate, List.length_map, if_pos (by omega)]
          rfl

end Fastroll.Merkle
