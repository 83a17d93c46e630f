import Verif.Pvm.MemSpec
/-! Helper lemmas for the PVM's memory. -/
namespace Fastroll.Pvm

theorem firstBad_none (m : Mem) (test : Nat → Bool) (p n : Nat) :
    m.firstBad test p n = none ↔ ∀ q, p ≤ q → q < p + n → test q = true := by
  induction n generalizing p with
  | zero => simp [Mem.firstBad]; omega
  | succ n ih =>
    unfold Mem.firstBad
    by_cases h : test p = true
    · simp only [h, Bool.not_true, Bool.false_eq_true, if_false, ih]
      constructor
      · intro H q h1 h2
        rcases Nat.eq_or_lt_of_le h1 with e | e
        · rw [← e]; exact h
        · exact H q e (by omega)
      · intro H q h1 h2
        exact H q (by omega) (by omega)
    · simp only [h]
      simp only [Bool.not_false, if_true, reduceCtorEq, false_iff]
      intro H
      exact h (H p (Nat.le_refl _) (by omega))

theorem firstBad_some (m : Mem) (test : Nat → Bool) (p n x : Nat) (h : m.firstBad test p n = some x) :
    ∃ q, p ≤ q ∧ q < p + n ∧ test q = false ∧ x = q * m.pageSize ∧ ∀ r, p ≤ r → r < q → test r = true := by
  induction n generalizing p with
  | zero => simp [Mem.firstBad] at h
  | succ n ih =>
    unfold Mem.firstBad at h
    by_cases ht : test p = true
    · simp only [ht, Bool.not_true, Bool.false_eq_true, if_false] at h
      obtain ⟨q, h1, h2, h3, h4, h5⟩ := ih (p + 1) h
      refine ⟨q, by omega, by omega, h3, h4, ?_⟩
      intro r hr1 hr2
      rcases Nat.eq_or_lt_of_le hr1 with e | e
      · rw [← e]; exact ht
      · exact h5 r e hr2
    · have ht' : test p = false := by simpa using ht
      simp only [ht', Bool.not_false, if_true, Option.some.injEq] at h
      exact ⟨p, Nat.le_refl _, by omega, ht', h.symm, fun r h1 h2 => by omega⟩

theorem allPages_iff (test : Nat → Bool) (p n : Nat) :
    allPages test p n = true ↔ ∀ q, p ≤ q → q < p + n → test q = true := by
  induction n generalizing p with
  | zero => simp [allPages]; omega
  | succ n ih =>
    simp only [allPages, Bool.and_eq_true, ih]
    constructor
    · rintro ⟨h, H⟩ q h1 h2
      rcases Nat.eq_or_lt_of_le h1 with e | e
      · rw [← e]; exact h
      · exact H q e (by omega)
    · intro H
      exact ⟨H p (Nat.le_refl _) (by omega), fun q h1 h2 => H q (by omega) (by omega)⟩

/-- Testing the pages that a range touches is testing the page of each of its addresses. -/
theorem pages_iff (m : Mem) (hps : 0 < m.pageSize) (test : Nat → Bool) (a n : Nat) (hn : 0 < n) :
    (∀ q, m.page a ≤ q → q < m.page a + (m.page (a + n - 1) + 1 - m.page a) → test q = true) ↔
      ∀ x, a ≤ x → x < a + n → test (x / m.pageSize) = true := by
  unfold Mem.page
  constructor
  · intro H x h1 h2
    have e1 := Nat.div_le_div_right (c := m.pageSize) h1
    have e2 := Nat.div_le_div_right (c := m.pageSize) (show x ≤ a + n - 1 by omega)
    exact H _ e1 (by omega)
  · intro H q h1 h2
    have e2 := Nat.div_le_div_right (c := m.pageSize) (show a ≤ a + n - 1 by omega)
    have h3 : q ≤ (a + n - 1) / m.pageSize := by omega
    have h4 := (Nat.le_div_iff_mul_le hps).mp h3
    rcases Nat.lt_or_ge (a / m.pageSize) q with h | h
    · have h5 := (Nat.div_lt_iff_lt_mul hps).mp h
      have := H (q * m.pageSize) (by omega) (by omega)
      rwa [Nat.mul_div_cancel _ hps] at this
    · have : q = a / m.pageSize := by omega
      rw [this]
      exact H a (Nat.le_refl _) (by omega)

theorem WF.lt_iff {m : Mem} (h : m.WF) (x : Nat) : x < m.data.length ↔ x / m.pageSize < m.acc.length := by
  rw [h.len, Nat.div_lt_iff_lt_mul h.ps]

theorem perm_readable {m : Mem} (x : Nat) (hx : x < m.data.length) :
    m.abs.perm x ≠ .inaccessible ↔ m.pageReadable (x / m.pageSize) = true := by
  unfold Mem.abs Mem.pageReadable
  simp only [hx, if_true, List.getD_eq_getElem?_getD]
  cases h : m.acc[x / m.pageSize]? with
  | none => simp
  | some a => cases a <;> simp

theorem perm_writable {m : Mem} (x : Nat) (hx : x < m.data.length) :
    m.abs.perm x = .readWrite ↔ m.pageWritable (x / m.pageSize) = true := by
  unfold Mem.abs Mem.pageWritable
  simp only [hx, if_true, List.getD_eq_getElem?_getD]
  cases h : m.acc[x / m.pageSize]? with
  | none => simp
  | some a => cases a <;> simp

theorem perm_out {m : Mem} (x : Nat) (hx : ¬ x < m.data.length) : m.abs.perm x = .inaccessible := by
  unfold Mem.abs; simp [hx]

/-- The shared check, for a permission `P` on addresses that the page test decides. -/
theorem validate_ok {m : Mem} (h : m.WF) (test : Nat → Bool) (P : Nat → Prop)
    (hP : ∀ x, x < m.data.length → (P x ↔ test (x / m.pageSize) = true)) (hout : ∀ x, ¬ x < m.data.length → ¬ P x)
    (a n : Nat) (hn : 0 < n) :
    m.validate test a n = .ok () ↔ (m.zone ≤ a ∧ ∀ x, a ≤ x → x < a + n → P x) := by
  unfold Mem.validate
  split
  · simp; omega
  · rename_i hz
    dsimp only
    split
    · rename_i hl
      simp only [reduceCtorEq, false_iff, not_and]
      intro _ H
      exact hout (a + n - 1) (by omega) (H _ (by omega) (by omega))
    · rename_i hl
      have key := pages_iff m h.ps test a n hn
      split
      · rename_i bad hb
        simp only [reduceCtorEq, false_iff, not_and]
        intro _ H
        have : m.firstBad test (m.page a) (m.page (a + n - 1) + 1 - m.page a) = none := by
          rw [firstBad_none, key]
          intro x h1 h2
          exact (hP x (by omega)).mp (H x h1 h2)
        rw [this] at hb; cases hb
      · rename_i hb
        simp only [true_iff]
        refine ⟨by omega, ?_⟩
        intro x h1 h2
        rw [firstBad_none, key] at hb
        exact (hP x (by omega)).mpr (hb x h1 h2)

theorem validate_read {m : Mem} (h : m.WF) (a n : Nat) (hn : 0 < n) :
    m.validate m.pageReadable a n = .ok () ↔ m.abs.Loadable m.zone a n := by
  rw [validate_ok h m.pageReadable (fun x => m.abs.perm x ≠ .inaccessible) (fun x hx => perm_readable x hx)
    (fun x hx hn => hn (perm_out x hx)) a n hn]
  unfold PMem.Loadable
  constructor
  · exact Or.inr
  · rintro (h | h)
    · omega
    · exact h

theorem validate_write {m : Mem} (h : m.WF) (a n : Nat) (hn : 0 < n) :
    m.validate m.pageWritable a n = .ok () ↔ m.abs.Storable m.zone a n := by
  rw [validate_ok h m.pageWritable (fun x => m.abs.perm x = .readWrite) (fun x hx => perm_writable x hx)
    (fun x hx hn => by rw [perm_out x hx] at hn; cases hn) a n hn]
  unfold PMem.Storable
  constructor
  · exact Or.inr
  · rintro (h | h)
    · omega
    · exact h

theorem loadable_len {m : Mem} {zone a n : Nat} (hn : 0 < n) (h : m.abs.Loadable zone a n) : a + n ≤ m.data.length := by
  rcases h with h | ⟨_, h⟩
  · omega
  · have := h (a + n - 1) (by omega) (by omega)
    apply Decidable.byContradiction
    intro hc
    exact this (perm_out _ (by omega))

theorem storable_loadable {s : PMem} {zone a n : Nat} (h : s.Storable zone a n) : s.Loadable zone a n := by
  rcases h with h | ⟨h1, h2⟩
  · exact Or.inl h
  · exact Or.inr ⟨h1, fun x a b => by rw [h2 x a b]; simp⟩

theorem drop_take_map (l : List UInt8) (a n : Nat) (h : a + n ≤ l.length) :
    (l.drop a).take n = (List.range n).map fun i => l.getD (a + i) 0 := by
  apply List.ext_getElem?
  intro i
  by_cases hi : i < n
  · rw [List.getElem?_take_of_lt hi, List.getElem?_drop, List.getElem?_map, List.getElem?_range hi]
    simp only [Option.map_some, List.getD_eq_getElem?_getD]
    rw [List.getElem?_eq_getElem (by omega)]
    rfl
  · rw [List.getElem?_eq_none (by simp; omega), List.getElem?_eq_none (by simp; omega)]

theorem readBytes_spec {m : Mem} (h : m.WF) (a n : Nat) :
    (m.abs.Loadable m.zone a n ∧ m.readBytes a n = .ok ((List.range n).map fun i => m.abs.byte (a + i))) ∨
    (¬ m.abs.Loadable m.zone a n ∧ ∃ e, m.readBytes a n = .error e) := by
  unfold Mem.readBytes
  by_cases hn : n = 0
  · subst hn; left; exact ⟨Or.inl rfl, by simp⟩
  · simp only [hn, if_false]
    have key := validate_read h a n (by omega)
    cases hv : m.validate m.pageReadable a n with
    | error e =>
      right
      refine ⟨fun hl => ?_, e, rfl⟩
      rw [key.mpr hl] at hv; cases hv
    | ok u =>
      left
      have hl := key.mp hv
      refine ⟨hl, ?_⟩
      simp only [Except.ok.injEq]
      exact drop_take_map _ _ _ (loadable_len (by omega) hl)

theorem splice_getD (l bytes : List UInt8) (a x : Nat) (h : a + bytes.length ≤ l.length) :
    (l.take a ++ bytes ++ l.drop (a + bytes.length)).getD x 0 =
      if a ≤ x ∧ x < a + bytes.length then bytes.getD (x - a) 0 else l.getD x 0 := by
  simp only [List.getD_eq_getElem?_getD]
  have hta : (l.take a).length = a := by simp; omega
  by_cases h1 : x < a
  · rw [if_neg (by omega), List.append_assoc, List.getElem?_append_left (by omega), List.getElem?_take_of_lt h1]
  · by_cases h2 : x < a + bytes.length
    · rw [if_pos (by omega), List.getElem?_append_left (by simp; omega), List.getElem?_append_right (by omega), hta]
    · rw [if_neg (by omega), List.getElem?_append_right (by simp; omega), List.getElem?_drop]
      congr 2
      simp; omega

theorem writeBytes_spec {m : Mem} (h : m.WF) (a : Nat) (bs : List UInt8) :
    (m.abs.Storable m.zone a bs.length ∧ ∃ d, m.writeBytes a bs = (.ok (), { m with data := d }) ∧
      d.length = m.data.length ∧
      ∀ x, d.getD x 0 = if a ≤ x ∧ x < a + bs.length then bs.getD (x - a) 0 else m.data.getD x 0) ∨
    (¬ m.abs.Storable m.zone a bs.length ∧ ∃ e, m.writeBytes a bs = (.error e, m)) := by
  unfold Mem.writeBytes
  by_cases hn : bs.length = 0
  · left
    refine ⟨Or.inl hn, m.data, by simp [hn], rfl, ?_⟩
    intro x; rw [if_neg (by omega)]
  · simp only [hn, if_false]
    have key := validate_write h a bs.length (by omega)
    cases hv : m.validate m.pageWritable a bs.length with
    | error e =>
      right
      refine ⟨fun hl => ?_, e, rfl⟩
      rw [key.mpr hl] at hv; cases hv
    | ok u =>
      left
      have hl := key.mp hv
      have hlen := loadable_len (by omega) (storable_loadable hl)
      refine ⟨hl, _, rfl, ?_, fun x => splice_getD _ _ _ _ hlen⟩
      simp; omega

theorem readByte_spec {m : Mem} (h : m.WF) (a : Nat) :
    (m.abs.Loadable m.zone a 1 ∧ m.readByte a = .ok (m.abs.byte a)) ∨
    (¬ m.abs.Loadable m.zone a 1 ∧ ∃ e, m.readByte a = .error e) := by
  unfold Mem.readByte
  have hone : m.abs.Loadable m.zone a 1 ↔ m.zone ≤ a ∧ m.abs.perm a ≠ .inaccessible := by
    unfold PMem.Loadable
    constructor
    · rintro (h | ⟨h1, h2⟩)
      · cases h
      · exact ⟨h1, h2 a (Nat.le_refl _) (by omega)⟩
    · rintro ⟨h1, h2⟩
      refine Or.inr ⟨h1, fun x h3 h4 => ?_⟩
      have hx : x = a := by omega
      rw [hx]; exact h2
  rw [hone]
  split
  · right; exact ⟨by omega, _, rfl⟩
  · split
    · rename_i hl
      right
      exact ⟨fun hc => hc.2 (perm_out _ (by omega)), _, rfl⟩
    · rename_i hz hl
      have hp := perm_readable (m := m) a (by omega)
      unfold Mem.page
      split
      · rename_i hr
        left; exact ⟨⟨by omega, hp.mpr hr⟩, rfl⟩
      · rename_i hr
        right; exact ⟨fun hc => hr (hp.mp hc.2), _, rfl⟩

theorem writeByte_spec {m : Mem} (a : Nat) (v : UInt8) :
    (m.abs.Storable m.zone a 1 ∧ a < m.data.length ∧ m.writeByte a v = (.ok (), { m with data := m.data.set a v })) ∨
    (¬ m.abs.Storable m.zone a 1 ∧ ∃ e, m.writeByte a v = (.error e, m)) := by
  unfold Mem.writeByte
  have hone : m.abs.Storable m.zone a 1 ↔ m.zone ≤ a ∧ m.abs.perm a = .readWrite := by
    unfold PMem.Storable
    constructor
    · rintro (h | ⟨h1, h2⟩)
      · cases h
      · exact ⟨h1, h2 a (Nat.le_refl _) (by omega)⟩
    · rintro ⟨h1, h2⟩
      refine Or.inr ⟨h1, fun x h3 h4 => ?_⟩
      have hx : x = a := by omega
      rw [hx]; exact h2
  rw [hone]
  split
  · right; exact ⟨by omega, _, rfl⟩
  · split
    · rename_i hl
      right
      refine ⟨fun hc => ?_, _, rfl⟩
      have h2 := hc.2
      rw [perm_out _ (by omega)] at h2
      cases h2
    · rename_i hz hl
      have hp := perm_writable (m := m) a (by omega)
      unfold Mem.page
      split
      · rename_i hr
        left; exact ⟨⟨by omega, hp.mpr hr⟩, by omega, rfl⟩
      · rename_i hr
        right; exact ⟨fun hc => hr (hp.mp hc.2), _, rfl⟩

/-- The page loop: succeeds iff every page exists, and in both cases sets the existing pages. -/
theorem setPagesLoop_spec (m : Mem) (lo n : Nat) (a : Access) :
    ∃ acc', (m.setPagesLoop lo a n).2 = { m with acc := acc' } ∧ acc'.length = m.acc.length ∧
      (∀ p, acc'[p]? = if lo ≤ p ∧ p < lo + n ∧ p < m.acc.length then some a else m.acc[p]?) ∧
      ((m.setPagesLoop lo a n).1 = .ok () ↔ n = 0 ∨ lo + n ≤ m.acc.length) := by
  induction n generalizing m lo with
  | zero =>
    refine ⟨m.acc, rfl, rfl, fun p => by rw [if_neg (by omega)], ?_⟩
    simp [Mem.setPagesLoop]
  | succ n ih =>
    unfold Mem.setPagesLoop Mem.setPageAccess
    by_cases hlo : lo ≥ m.acc.length
    · rw [if_pos hlo]
      refine ⟨m.acc, rfl, rfl, fun p => by rw [if_neg (by omega)], ?_⟩
      simp; omega
    · rw [if_neg hlo]
      obtain ⟨acc', h1, h2, h3, h4⟩ := ih { m with acc := m.acc.set lo a } (lo + 1)
      simp only [List.length_set] at h2 h3 h4
      refine ⟨acc', h1, h2, ?_, ?_⟩
      · intro p
        rw [h3 p, List.getElem?_set]
        by_cases hp : lo = p
        · subst hp
          rw [if_neg (by omega), if_pos rfl, if_pos (by omega), if_pos (by omega)]
        · rw [if_neg hp]
          by_cases hc : lo + 1 ≤ p ∧ p < lo + 1 + n ∧ p < m.acc.length
          · rw [if_pos hc, if_pos (by omega)]
          · rw [if_neg hc, if_neg (by omega)]
      · rw [h4]; omega

theorem pmem_ext {s t : PMem} (h1 : ∀ x, s.byte x = t.byte x) (h2 : ∀ x, s.perm x = t.perm x) : s = t := by
  cases s; cases t
  congr
  · exact funext h1
  · exact funext h2

theorem abs_set_acc (m : Mem) (hwf : m.WF) (acc' : List Access) (a : Access) (lo hi : Nat) (hl : acc'.length = m.acc.length)
    (h : ∀ p, acc'[p]? = if lo ≤ p ∧ p < hi ∧ p < m.acc.length then some a else m.acc[p]?) :
    Mem.abs { m with acc := acc' } =
    { m.abs with perm := fun x =>
        if lo ≤ x / m.pageSize ∧ x / m.pageSize < hi ∧ x < m.data.length then a else m.abs.perm x } := by
  apply pmem_ext
  · intro x; rfl
  · intro x
    simp only [Mem.abs, List.getD_eq_getElem?_getD, h]
    have := WF.lt_iff hwf x
    by_cases hx : x < m.data.length
    · by_cases hc : lo ≤ x / m.pageSize ∧ x / m.pageSize < hi
      · rw [if_pos hx, if_pos ⟨hc.1, hc.2, this.mp hx⟩, if_pos ⟨hc.1, hc.2, hx⟩]; rfl
      · rw [if_pos hx, if_neg (fun h => hc ⟨h.1, h.2.1⟩), if_neg (fun h => hc ⟨h.1, h.2.1⟩), if_pos hx]
    · rw [if_neg hx, if_neg (fun h => hx h.2.2), if_neg hx]

end Fastroll.Pvm
