import Verif.Trie.MapLemmas
namespace Fastroll.Trie

/-! ### Where the nodes of a trie are, given the set of keys -/

/-- There are two keys below a path: a branch. -/
def Br (K : Path → Prop) (p : Path) : Prop := ∃ a b, a ≠ b ∧ K a ∧ K b ∧ p <+: a ∧ p <+: b

/-- The leaf of a key is at a path: it is the only key below the path, and the parent is a branch. -/
def Lf (K : Path → Prop) (p k : Path) : Prop :=
  K k ∧ p <+: k ∧ (∀ k', K k' → p <+: k' → k' = k) ∧ (p = [] ∨ Br K p.dropLast)

theorem br_prefix {K : Path → Prop} {p q : Path} (h : Br K q) (hp : p <+: q) : Br K p := by
  obtain ⟨a, b, h1, h2, h3, h4, h5⟩ := h
  exact ⟨a, b, h1, h2, h3, hp.trans h4, hp.trans h5⟩

theorem lf_not_br {K : Path → Prop} {p k : Path} (h : Lf K p k) : ¬ Br K p := by
  rintro ⟨a, b, h1, h2, h3, h4, h5⟩
  exact h1 ((h.2.2.1 a h2 h4).trans (h.2.2.1 b h3 h5).symm)

theorem lf_key {K : Path → Prop} {p k k' : Path} (h : Lf K p k) (h' : Lf K p k') : k = k' :=
  (h'.2.2.1 k h.1 h.2.1)

/-- Two prefixes of one list are comparable. -/
theorem prefix_or {p q k : Path} (h1 : p <+: k) (h2 : q <+: k) : p <+: q ∨ q <+: p := by
  rcases Nat.le_total p.length q.length with h | h
  · exact Or.inl (List.prefix_of_prefix_length_le h1 h2 h)
  · exact Or.inr (List.prefix_of_prefix_length_le h2 h1 h)

/-- A proper prefix is a prefix of the parent. -/
theorem prefix_dropLast {p q : Path} (h : p <+: q) (hne : p ≠ q) : p <+: q.dropLast := by
  have hl : p.length < q.length := by
    rcases Nat.lt_or_ge p.length q.length with h1 | h1
    · exact h1
    · exact absurd (h.eq_of_length (Nat.le_antisymm h.length_le h1)) hne
  refine List.prefix_of_prefix_length_le h (List.dropLast_prefix q) ?_
  rw [List.length_dropLast]; omega

theorem dropLast_append_one (p : Path) (b : Bool) : (p ++ [b]).dropLast = p := List.dropLast_concat

theorem prefix_append_one (p : Path) (b : Bool) : p <+: p ++ [b] := List.prefix_append p [b]

/-- A key below a path that is longer than the path is below one of its two children. -/
theorem child_of {p k : Path} (h : p <+: k) (hlen : p.length < k.length) : ∃ b, p ++ [b] <+: k := by
  obtain ⟨r, rfl⟩ := h
  cases r with
  | nil => rw [List.append_nil] at hlen; omega
  | cons b r => exact ⟨b, ⟨r, by rw [List.append_assoc]; rfl⟩⟩

theorem child_unique {p k : Path} {a b : Bool} (h1 : p ++ [a] <+: k) (h2 : p ++ [b] <+: k) : a = b := by
  have := List.prefix_of_prefix_length_le h1 h2 (by rw [List.length_append, List.length_append]; exact Nat.le_refl _)
  have := this.eq_of_length (by rw [List.length_append, List.length_append]; rfl)
  have := List.append_cancel_left this
  injection this

theorem lf_unique {K : Path → Prop} {p q k : Path} (h : Lf K p k) (h' : Lf K q k) : p = q := by
  have aux : ∀ {p q : Path}, Lf K p k → Lf K q k → p <+: q → p = q := by
    intro p q h h' hpq
    by_cases hne : p = q
    · exact hne
    · exfalso
      have h1 := prefix_dropLast hpq hne
      rcases h'.2.2.2 with h2 | h2
      · subst h2; exact hne (List.prefix_nil.1 hpq)
      · exact lf_not_br h (br_prefix h2 h1)
  rcases prefix_or h.2.1 h'.2.1 with h1 | h1
  · exact aux h h' h1
  · exact (aux h' h h1).symm

/-- A set of keys of one length. -/
def Flat (K : Path → Prop) : Prop := ∀ k, K k → k.length = keyBits

theorem key_eq {K : Path → Prop} (hf : Flat K) {a b : Path} (ha : K a) (hb : K b) (h : a <+: b) : a = b :=
  h.eq_of_length ((hf a ha).trans (hf b hb).symm)

theorem br_length {K : Path → Prop} (hf : Flat K) {p : Path} (h : Br K p) : p.length < keyBits := by
  obtain ⟨a, b, h1, h2, h3, h4, h5⟩ := h
  have h6 := h4.length_le
  rw [hf a h2] at h6
  rcases Nat.lt_or_ge p.length keyBits with h7 | h7
  · exact h7
  · exfalso
    have e1 := h4.eq_of_length (by rw [hf a h2]; omega)
    have e2 := h5.eq_of_length (by rw [hf b h3]; omega)
    exact h1 (e1.symm.trans e2)

/-- Below a branch, or at the root, a path with a key below it holds a node. -/
theorem node_exists {K : Path → Prop} {p k : Path} (hp : p = [] ∨ Br K p.dropLast) (hk : K k) (hpk : p <+: k) :
    Br K p ∨ Lf K p k := by
  by_cases h : Br K p
  · exact Or.inl h
  · refine Or.inr ⟨hk, hpk, fun k' hk' hp' => ?_, hp⟩
    by_cases he : k' = k
    · exact he
    · exact absurd ⟨k', k, he, hk', hk, hp', hpk⟩ h

/-- Every key has a leaf. -/
theorem lf_exists {K : Path → Prop} (hf : Flat K) {k : Path} (hk : K k) : ∃ p, Lf K p k := by
  have aux : ∀ n, n ≤ keyBits → (n = 0 ∨ Br K (k.take (n - 1)) ∨ ∃ p, Lf K p k) := by
    intro n
    induction n with
    | zero => intro _; exact Or.inl rfl
    | succ n ih =>
      intro hn
      have hcase : (k.take n = [] ∨ Br K (k.take n).dropLast) ∨ ∃ p, Lf K p k := by
        rcases ih (by omega) with h | h | h
        · subst h; exact Or.inl (Or.inl rfl)
        · rcases Nat.eq_zero_or_pos n with h0 | h0
          · subst h0; exact Or.inl (Or.inl rfl)
          · refine Or.inl (Or.inr ?_)
            have : (k.take n).dropLast = k.take (n - 1) := by
              rw [List.dropLast_eq_take, List.take_take, List.length_take, hf k hk]
              congr 1
              omega
            rw [this]; exact h
        · exact Or.inr h
      rcases hcase with h | h
      · rcases node_exists h hk (List.take_prefix n k) with h1 | h1
        · exact Or.inr (Or.inl (by simpa using h1))
        · exact Or.inr (Or.inr ⟨_, h1⟩)
      · exact Or.inr (Or.inr h)
  rcases aux keyBits (Nat.le_refl _) with h | h | h
  · exact absurd h (by decide)
  · by_cases hb : Br K k
    · exact absurd (br_length hf hb) (by rw [hf k hk]; omega)
    · refine ⟨k, hk, List.prefix_refl k, fun k' hk' hp => (key_eq hf hk hk' hp).symm, Or.inr ?_⟩
      rw [List.dropLast_eq_take, hf k hk]; exact h
  · exact h

/-- The sibling of a leaf holds a node. -/
theorem sibling_exists {K : Path → Prop} (hf : Flat K) {p k : Path} {b : Bool} (h : Lf K (p ++ [b]) k) :
    ∃ k', K k' ∧ p ++ [!b] <+: k' := by
  have hbr : Br K p := by
    rcases h.2.2.2 with h1 | h1
    · exact absurd h1 (by simp)
    · rwa [dropLast_append_one] at h1
  have hl := br_length hf hbr
  obtain ⟨x, y, h1, h2, h3, h4, h5⟩ := hbr
  obtain ⟨z, hz, hzk, hzp⟩ : ∃ z, K z ∧ z ≠ k ∧ p <+: z := by
    by_cases hx : x = k
    · exact ⟨y, h3, fun hy => h1 (hx.trans hy.symm), h5⟩
    · exact ⟨x, h2, hx, h4⟩
  obtain ⟨c, hc⟩ := child_of hzp (by rw [hf z hz]; exact hl)
  have hcb : c ≠ b := fun hcb => hzk (h.2.2.1 z hz (hcb ▸ hc))
  exact ⟨z, hz, by cases b <;> cases c <;> simp_all⟩

/-! ### Adding a key -/

/-- The set with one more key. -/
def insK (K : Path → Prop) (k : Path) : Path → Prop := fun x => x = k ∨ K x

theorem br_ins_mono {K : Path → Prop} {p k : Path} (h : Br K p) : Br (insK K k) p := by
  obtain ⟨a, b, h1, h2, h3, h4, h5⟩ := h
  exact ⟨a, b, h1, Or.inr h2, Or.inr h3, h4, h5⟩

theorem br_ins {K : Path → Prop} {p k : Path} (h : Br (insK K k) p) :
    Br K p ∨ (p <+: k ∧ ∃ a, K a ∧ p <+: a) := by
  obtain ⟨a, b, h1, h2, h3, h4, h5⟩ := h
  rcases h2 with h2 | h2
  · rcases h3 with h3 | h3
    · exact absurd (h2.trans h3.symm) h1
    · exact Or.inr ⟨h2 ▸ h4, b, h3, h5⟩
  · rcases h3 with h3 | h3
    · exact Or.inr ⟨h3 ▸ h5, a, h2, h4⟩
    · exact Or.inl ⟨a, b, h1, h2, h3, h4, h5⟩

/-- What is known about the longest node on the way to a new key. -/
structure Longest (K : Path → Prop) (k q : Path) : Prop where
  pre : q <+: k
  max : ∀ p, p <+: k → (Br K p ∨ ∃ k', Lf K p k') → p.length ≤ q.length

/-- A new key below a branch. -/
theorem add_branch {K : Path → Prop} (hf : Flat K) {k q : Path} (hk : ¬ K k) (hkl : k.length = keyBits)
    (hq : Longest K k q) (hb : Br K q) :
    ∃ b, k.take (q.length + 1) = q ++ [b] ∧ q.length + 1 ≤ k.length ∧ (∀ a, K a → ¬ q ++ [b] <+: a) ∧
      (∀ p, Br (insK K k) p ↔ Br K p) ∧
      (∀ p, Lf (insK K k) p k ↔ p = q ++ [b]) ∧
      (∀ p a, a ≠ k → (Lf (insK K k) p a ↔ Lf K p a)) := by
  have hl := br_length hf hb
  obtain ⟨b, hbk⟩ := child_of hq.pre (by omega : q.length < k.length)
  have htake : k.take (q.length + 1) = q ++ [b] := by
    have := List.prefix_iff_eq_take.1 hbk
    rw [List.length_append] at this
    exact this.symm
  have hno : ∀ a, K a → ¬ q ++ [b] <+: a := by
    intro a ha hp
    have := node_exists (p := q ++ [b]) (Or.inr (by rw [dropLast_append_one]; exact hb)) ha hp
    have := hq.max (q ++ [b]) hbk (this.imp id fun h => ⟨a, h⟩)
    rw [List.length_append, List.length_singleton] at this
    omega
  have hbr : ∀ p, Br (insK K k) p ↔ Br K p := by
    intro p
    refine ⟨fun h => ?_, br_ins_mono⟩
    rcases br_ins h with h | ⟨h1, a, h2, h3⟩
    · exact h
    · rcases prefix_or h1 hbk with h4 | h4
      · by_cases h5 : p = q ++ [b]
        · exact absurd (h5 ▸ h3) (hno a h2)
        · have := prefix_dropLast h4 h5
          rw [dropLast_append_one] at this
          exact br_prefix hb this
      · exact absurd (h4.trans h3) (hno a h2)
  have hlk : Lf (insK K k) (q ++ [b]) k := by
    refine ⟨Or.inl rfl, hbk, ?_, Or.inr ?_⟩
    · intro k' hk' hp
      rcases hk' with hk' | hk'
      · exact hk'
      · exact absurd hp (hno k' hk')
    · rw [dropLast_append_one]; exact br_ins_mono hb
  refine ⟨b, htake, by omega, hno, hbr, fun p => ⟨fun h => lf_unique h hlk, fun h => h ▸ hlk⟩, ?_⟩
  intro p a ha
  constructor
  · rintro ⟨h1, h2, h3, h4⟩
    refine ⟨h1.resolve_left ha, h2, fun k' hk' hp => h3 k' (Or.inr hk') hp, h4.imp id fun h => (hbr _).1 h⟩
  · intro h
    refine ⟨Or.inr h.1, h.2.1, ?_, h.2.2.2.imp id br_ins_mono⟩
    intro k' hk' hp
    rcases hk' with hk' | hk'
    · exfalso
      subst hk'
      have h1 := hq.max p hp (Or.inr ⟨a, h⟩)
      exact lf_not_br h (br_prefix hb (List.prefix_of_prefix_length_le hp hq.pre h1))
    · exact h.2.2.1 k' hk' hp

/-- A new key that splits a leaf. -/
theorem add_leaf {K : Path → Prop} {k q k' m : Path} {b : Bool} (hk : ¬ K k)
    (hq : Longest K k q) (hl : Lf K q k') (h1 : m ++ [b] <+: k) (h2 : m ++ [!b] <+: k') :
    q <+: m ∧ (∀ p, Br (insK K k) p ↔ Br K p ∨ (q <+: p ∧ p <+: m)) ∧
    (∀ p, Lf (insK K k) p k ↔ p = m ++ [b]) ∧
    (∀ p, Lf (insK K k) p k' ↔ p = m ++ [!b]) ∧
    (∀ p a, a ≠ k → a ≠ k' → (Lf (insK K k) p a ↔ Lf K p a)) := by
  have hm1 : m <+: k := (prefix_append_one m b).trans h1
  have hm2 : m <+: k' := (prefix_append_one m _).trans h2
  have hkk : k' ≠ k := fun h => hk (h ▸ hl.1)
  have common : ∀ p, p <+: k → p <+: k' → p <+: m := by
    intro p hp1 hp2
    rcases prefix_or hp1 h1 with h | h
    · by_cases he : p = m ++ [b]
      · exfalso
        subst he
        have := child_unique hp2 h2
        cases b <;> cases this
      · have := prefix_dropLast h he
        rwa [dropLast_append_one] at this
    · exfalso
      have := child_unique (h.trans hp2) h2
      cases b <;> cases this
  have hqm : q <+: m := common q hq.pre hl.2.1
  have hbrm : Br (insK K k) m := ⟨k, k', Ne.symm hkk, Or.inl rfl, Or.inr hl.1, hm1, hm2⟩
  have hbr : ∀ p, Br (insK K k) p ↔ Br K p ∨ (q <+: p ∧ p <+: m) := by
    intro p
    constructor
    · intro h
      rcases br_ins h with h | ⟨hp, a, ha, hpa⟩
      · exact Or.inl h
      · rcases prefix_or hp hq.pre with h3 | h3
        · by_cases h4 : p = q
          · exact Or.inr ⟨h4 ▸ List.prefix_refl _, h4 ▸ hqm⟩
          · rcases hl.2.2.2 with h5 | h5
            · subst h5; exact absurd (List.prefix_nil.1 h3) h4
            · exact Or.inl (br_prefix h5 (prefix_dropLast h3 h4))
        · have := hl.2.2.1 a ha (h3.trans hpa)
          exact Or.inr ⟨h3, common p hp (this ▸ hpa)⟩
    · rintro (h | ⟨_, h⟩)
      · exact br_ins_mono h
      · exact br_prefix hbrm h
  have hlk : Lf (insK K k) (m ++ [b]) k := by
    refine ⟨Or.inl rfl, h1, ?_, Or.inr (by rw [dropLast_append_one]; exact hbrm)⟩
    intro a ha hp
    rcases ha with ha | ha
    · exact ha
    · exfalso
      have := hl.2.2.1 a ha ((hqm.trans (prefix_append_one m b)).trans hp)
      have := child_unique (this ▸ hp) h2
      cases b <;> cases this
  have hlk' : Lf (insK K k) (m ++ [!b]) k' := by
    refine ⟨Or.inr hl.1, h2, ?_, Or.inr (by rw [dropLast_append_one]; exact hbrm)⟩
    intro a ha hp
    rcases ha with ha | ha
    · exfalso
      have := child_unique (ha ▸ hp) h1
      cases b <;> cases this
    · exact hl.2.2.1 a ha ((hqm.trans (prefix_append_one m _)).trans hp)
  refine ⟨hqm, hbr, fun p => ⟨fun h => lf_unique h hlk, fun h => h ▸ hlk⟩,
    fun p => ⟨fun h => lf_unique h hlk', fun h => h ▸ hlk'⟩, ?_⟩
  intro p a ha1 ha2
  constructor
  · rintro ⟨g1, g2, g3, g4⟩
    have ga := g1.resolve_left ha1
    refine ⟨ga, g2, fun x hx hp => g3 x (Or.inr hx) hp, ?_⟩
    rcases g4 with g4 | g4
    · exact Or.inl g4
    · rcases (hbr _).1 g4 with g5 | ⟨g5, _⟩
      · exact Or.inr g5
      · exfalso
        exact ha2 (hl.2.2.1 a ga (g5.trans ((List.dropLast_prefix p).trans g2)))
  · intro h
    refine ⟨Or.inr h.1, h.2.1, ?_, h.2.2.2.imp id br_ins_mono⟩
    intro x hx hp
    rcases hx with hx | hx
    · exfalso
      subst hx
      have g1 := hq.max p hp (Or.inr ⟨a, h⟩)
      have g2 := List.prefix_of_prefix_length_le hp hq.pre g1
      exact ha2 (h.2.2.1 k' hl.1 (g2.trans hl.2.1)).symm
    · exact h.2.2.1 x hx hp

/-- The first key. -/
theorem add_first {K : Path → Prop} {k : Path} (hno : ∀ a, ¬ K a) :
    (∀ p, ¬ Br (insK K k) p) ∧ (∀ p a, Lf (insK K k) p a ↔ p = [] ∧ a = k) := by
  have hbr : ∀ p, ¬ Br (insK K k) p := by
    intro p h
    rcases br_ins h with ⟨a, _, _, h2, _⟩ | ⟨_, a, h2, _⟩
    · exact hno a h2
    · exact hno a h2
  refine ⟨hbr, fun p a => ⟨fun h => ⟨?_, ?_⟩, ?_⟩⟩
  · rcases h.2.2.2 with h1 | h1
    · exact h1
    · exact absurd h1 (hbr _)
  · exact h.1.resolve_right (hno a)
  · rintro ⟨rfl, rfl⟩
    exact ⟨Or.inl rfl, List.nil_prefix, fun x hx _ => hx.resolve_right (hno x), Or.inl rfl⟩

/-! ### Removing a key -/

/-- The set without a key. -/
def remK (K : Path → Prop) (k : Path) : Path → Prop := fun x => K x ∧ x ≠ k

theorem br_rem_mono {K : Path → Prop} {p k : Path} (h : Br (remK K k) p) : Br K p := by
  obtain ⟨a, b, h1, h2, h3, h4, h5⟩ := h
  exact ⟨a, b, h1, h2.1, h3.1, h4, h5⟩

theorem br_rem_of {K : Path → Prop} {p k : Path} (h : Br K p) (hp : ¬ p <+: k) : Br (remK K k) p := by
  obtain ⟨a, b, h1, h2, h3, h4, h5⟩ := h
  exact ⟨a, b, h1, ⟨h2, fun e => hp (e ▸ h4)⟩, ⟨h3, fun e => hp (e ▸ h5)⟩, h4, h5⟩

/-- Two different children of a path are not below each other. -/
theorem sib_not {P k : Path} {b : Bool} (h : P ++ [b] <+: k) : ¬ P ++ [!b] <+: k := by
  intro h1
  have := child_unique h h1
  cases b <;> cases this

/-- Prefixes of a key above its leaf. -/
theorem above_leaf {K : Path → Prop} {P k p : Path} {b : Bool} (hl : Lf K (P ++ [b]) k) (hp : p <+: k) :
    p <+: P ∨ P ++ [b] <+: p := by
  rcases prefix_or hp hl.2.1 with h | h
  · by_cases he : p = P ++ [b]
    · exact Or.inr (he ▸ List.prefix_refl _)
    · have := prefix_dropLast h he
      rw [dropLast_append_one] at this
      exact Or.inl this
  · exact Or.inr h

/-- Removal beside a branch. -/
theorem rem_branch {K : Path → Prop} {P k : Path} {b : Bool} (hl : Lf K (P ++ [b]) k) (hs : Br K (P ++ [!b])) :
    (∀ p, Br (remK K k) p ↔ Br K p) ∧ (∀ p a, Lf (remK K k) p a ↔ Lf K p a ∧ a ≠ k) := by
  have hs' : Br (remK K k) (P ++ [!b]) := br_rem_of hs (sib_not hl.2.1)
  have hbr : ∀ p, Br (remK K k) p ↔ Br K p := by
    intro p
    refine ⟨br_rem_mono, fun h => ?_⟩
    by_cases hp : p <+: k
    · rcases above_leaf hl hp with h1 | h1
      · exact br_prefix hs' (h1.trans (prefix_append_one P _))
      · exact absurd (br_prefix h h1) (lf_not_br hl)
    · exact br_rem_of h hp
  refine ⟨hbr, fun p a => ?_⟩
  constructor
  · rintro ⟨h1, h2, h3, h4⟩
    refine ⟨⟨h1.1, h2, ?_, h4.imp id (hbr _).1⟩, h1.2⟩
    intro x hx hp
    by_cases hxk : x = k
    · exfalso
      subst hxk
      rcases above_leaf hl hp with h5 | h5
      · exact lf_not_br ⟨h1, h2, h3, h4⟩ ((hbr p).2 (br_prefix hs (h5.trans (prefix_append_one P _))))
      · exact h1.2 (hl.2.2.1 a h1.1 (h5.trans h2))
    · exact h3 x ⟨hx, hxk⟩ hp
  · rintro ⟨h, ha⟩
    exact ⟨⟨h.1, ha⟩, h.2.1, fun x hx hp => h.2.2.1 x hx.1 hp, h.2.2.2.imp id (hbr _).2⟩

/-- Removal beside a leaf, whose key moves up to `r`. -/
theorem rem_leaf {K : Path → Prop} {P k k2 r : Path} {b : Bool} (hl : Lf K (P ++ [b]) k)
    (hs : Lf K (P ++ [!b]) k2) (hr : r <+: P) (honly : ∀ a, K a → r <+: a → a = k ∨ a = k2)
    (htop : r = [] ∨ Br (remK K k) r.dropLast) :
    (∀ p, Br (remK K k) p ↔ Br K p ∧ ¬ (r <+: p ∧ p <+: P)) ∧
    (∀ p, Lf (remK K k) p k2 ↔ p = r) ∧
    (∀ p a, a ≠ k2 → (Lf (remK K k) p a ↔ Lf K p a ∧ a ≠ k)) := by
  have hk2 : k2 ≠ k := by
    intro h
    exact sib_not hl.2.1 (h ▸ hs.2.1)
  have hr2 : r <+: k2 := hr.trans ((prefix_append_one P _).trans hs.2.1)
  have hbr : ∀ p, Br (remK K k) p ↔ Br K p ∧ ¬ (r <+: p ∧ p <+: P) := by
    intro p
    constructor
    · intro h
      refine ⟨br_rem_mono h, ?_⟩
      rintro ⟨h1, _⟩
      obtain ⟨x, y, g1, g2, g3, g4, g5⟩ := h
      have ex := (honly x g2.1 (h1.trans g4)).resolve_left g2.2
      have ey := (honly y g3.1 (h1.trans g5)).resolve_left g3.2
      exact g1 (ex.trans ey.symm)
    · rintro ⟨h, hn⟩
      by_cases hp : p <+: k
      · rcases above_leaf hl hp with h1 | h1
        · have hrp : ¬ r <+: p := fun h2 => hn ⟨h2, h1⟩
          have hpr : p <+: r := by
            rcases prefix_or h1 hr with h2 | h2
            · exact h2
            · exact absurd h2 hrp
          have hne : p ≠ r := fun e => hrp (e ▸ List.prefix_refl _)
          rcases htop with h2 | h2
          · subst h2; exact absurd (List.prefix_nil.1 hpr) hne
          · exact br_prefix h2 (prefix_dropLast hpr hne)
        · exact absurd (br_prefix h h1) (lf_not_br hl)
      · exact br_rem_of h hp
  have hlr : Lf (remK K k) r k2 := by
    refine ⟨⟨hs.1, hk2⟩, hr2, fun x hx hp => (honly x hx.1 hp).resolve_left hx.2, htop⟩
  refine ⟨hbr, fun p => ⟨fun h => lf_unique h hlr, fun h => h ▸ hlr⟩, ?_⟩
  intro p a ha
  constructor
  · rintro ⟨h1, h2, h3, h4⟩
    refine ⟨⟨h1.1, h2, ?_, h4.imp id br_rem_mono⟩, h1.2⟩
    intro x hx hp
    by_cases hxk : x = k
    · exfalso
      subst hxk
      rcases above_leaf hl hp with h5 | h5
      · have h6 : p <+: k2 := h5.trans ((prefix_append_one P _).trans hs.2.1)
        exact ha (h3 k2 ⟨hs.1, hk2⟩ h6).symm
      · exact h1.2 (hl.2.2.1 a h1.1 (h5.trans h2))
    · exact h3 x ⟨hx, hxk⟩ hp
  · rintro ⟨h, hak⟩
    refine ⟨⟨h.1, hak⟩, h.2.1, fun x hx hp => h.2.2.1 x hx.1 hp, ?_⟩
    rcases h.2.2.2 with h1 | h1
    · exact Or.inl h1
    · refine Or.inr ((hbr _).2 ⟨h1, ?_⟩)
      rintro ⟨h2, _⟩
      rcases honly a h.1 (h2.trans ((List.dropLast_prefix p).trans h.2.1)) with h3 | h3
      · exact hak h3
      · exact ha h3

end Fastroll.Trie
