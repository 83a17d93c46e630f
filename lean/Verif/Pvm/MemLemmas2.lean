import Verif.Pvm.MemLemmas
/-! Helper lemmas: one operation on memory, and the heap. -/
namespace Fastroll.Pvm

theorem exec_does {m : Mem} (h : m.WF) (op : MemOp) :
    PMem.Does m.zone m.pageSize m.data.length m.abs op (m.exec op).1 (m.exec op).2.abs ∧
    (m.exec op).2.WF ∧ (m.exec op).2.zone = m.zone ∧ (m.exec op).2.pageSize = m.pageSize ∧
    (m.exec op).2.data.length = m.data.length := by
  cases op with
  | load a n =>
    refine ⟨?_, h, by trivial, by trivial, by trivial⟩
    rcases readBytes_spec h a n with ⟨hl, e⟩ | ⟨hl, err, e⟩
    · simp only [Mem.exec, e, toOpt]; exact .load hl
    · simp only [Mem.exec, e, toOpt]; exact .loadFail hl
  | loadByte a =>
    refine ⟨?_, h, by trivial, by trivial, by trivial⟩
    rcases readByte_spec h a with ⟨hl, e⟩ | ⟨hl, err, e⟩
    · simp only [Mem.exec, e, toOpt, Option.map_some]; exact .loadByte hl
    · simp only [Mem.exec, e, toOpt, Option.map_none]; exact .loadByteFail hl
  | store a bs =>
    rcases writeBytes_spec h a bs with ⟨hl, d, e, hd, hx⟩ | ⟨hl, err, e⟩
    · simp only [Mem.exec, e, toOpt, Option.map_some]
      refine ⟨?_, ⟨h.ps, by simpa [hd] using h.len⟩, by trivial, by trivial, hd⟩
      have : Mem.abs { m with data := d } =
          { m.abs with byte := fun x => if a ≤ x ∧ x < a + bs.length then bs.getD (x - a) 0 else m.abs.byte x } := by
        apply pmem_ext
        · exact hx
        · intro x; simp only [Mem.abs, hd]
      rw [this]
      exact .store hl
    · simp only [Mem.exec, e, toOpt, Option.map_none]
      exact ⟨.storeFail hl, h, by trivial, by trivial, by trivial⟩
  | storeByte a b =>
    rcases writeByte_spec (m := m) a b with ⟨hl, hlt, e⟩ | ⟨hl, err, e⟩
    · simp only [Mem.exec, e, toOpt, Option.map_some]
      refine ⟨?_, ⟨h.ps, by simpa using h.len⟩, by trivial, by trivial, by simp⟩
      have : Mem.abs { m with data := m.data.set a b } =
          { m.abs with byte := fun x => if x = a then b else m.abs.byte x } := by
        apply pmem_ext
        · intro x
          simp only [Mem.abs, List.getD_eq_getElem?_getD, List.getElem?_set]
          by_cases hx : x = a
          · subst hx; simp [hlt]
          · simp [hx, Ne.symm hx]
        · intro x; simp only [Mem.abs, List.length_set]
      rw [this]
      exact .storeByte hl
    · simp only [Mem.exec, e, toOpt, Option.map_none]
      exact ⟨.storeByteFail hl, h, by trivial, by trivial, by trivial⟩
  | protect lo hi a =>
    obtain ⟨acc', h1, h2, h3, h4⟩ := setPagesLoop_spec m lo (hi - lo) a
    simp only [Mem.exec, Mem.setPageRange, h1]
    refine ⟨?_, ⟨h.ps, by simpa [h2] using h.len⟩, by trivial, by trivial, by trivial⟩
    have h3' : ∀ p, acc'[p]? = if lo ≤ p ∧ p < hi ∧ p < m.acc.length then some a else m.acc[p]? := by
      intro p
      rw [h3 p]
      by_cases hc : lo ≤ p ∧ p < hi ∧ p < m.acc.length
      · rw [if_pos hc, if_pos (by omega)]
      · rw [if_neg hc, if_neg (by omega)]
    rw [abs_set_acc m h acc' a lo hi h2 h3']
    have hfit : (hi - lo = 0 ∨ lo + (hi - lo) ≤ m.acc.length) ↔ (hi ≤ lo ∨ hi * m.pageSize ≤ m.data.length) := by
      rw [h.len, Nat.mul_le_mul_right_iff h.ps]
      omega
    rw [hfit] at h4
    cases hr : (m.setPagesLoop lo a (hi - lo)).1 with
    | ok u =>
      simp only [toOpt, Option.map_some]
      exact .protect (h4.mp hr)
    | error e =>
      simp only [toOpt, Option.map_none]
      refine .protectFail (fun hc => ?_)
      rw [h4.mpr hc] at hr; cases hr

theorem validate_fault {m : Mem} (h : m.WF) (test : Nat → Bool) (a n x : Nat) (hn : 0 < n)
    (e : m.validate test a n = .error (.accessViolation x)) :
    a + n ≤ m.data.length ∧ ∃ y, a ≤ y ∧ y < a + n ∧ test (y / m.pageSize) = false ∧ x = y / m.pageSize * m.pageSize ∧
      ∀ z, a ≤ z → z < y → test (z / m.pageSize) = true := by
  unfold Mem.validate at e
  split at e
  · cases e
  · dsimp only at e
    split at e
    · cases e
    · rename_i hl
      refine ⟨by omega, ?_⟩
      split at e
      · rename_i bad hb
        cases e
        obtain ⟨q, h1, h2, h3, h4, h5⟩ := firstBad_some _ _ _ _ _ hb
        unfold Mem.page at h1 h2 h5
        have e2 := Nat.div_le_div_right (c := m.pageSize) (show a ≤ a + n - 1 by omega)
        have h6 : q ≤ (a + n - 1) / m.pageSize := by omega
        have h7 := (Nat.le_div_iff_mul_le h.ps).mp h6
        rcases Nat.lt_or_ge (a / m.pageSize) q with hlt | hge
        · have h8 := (Nat.div_lt_iff_lt_mul h.ps).mp hlt
          refine ⟨q * m.pageSize, by omega, by omega, ?_, ?_, ?_⟩
          · rw [Nat.mul_div_cancel _ h.ps]; exact h3
          · rw [Nat.mul_div_cancel _ h.ps]; exact h4
          · intro z hz1 hz2
            exact h5 _ (Nat.div_le_div_right hz1) ((Nat.div_lt_iff_lt_mul h.ps).mpr hz2)
        · have hq : q = a / m.pageSize := by omega
          refine ⟨a, Nat.le_refl _, by omega, ?_, ?_, ?_⟩
          · rw [← hq]; exact h3
          · rw [← hq]; exact h4
          · intro z h1 h2; omega
      · cases e

/-! ### The heap -/

theorem rangeTest_iff {m : Mem} (h : m.WF) (test : Nat → Bool) (a n : Nat) (hn : 0 < n) :
    m.rangeTest test a n = true ↔ a + n ≤ m.data.length ∧ ∀ x, a ≤ x → x < a + n → test (x / m.pageSize) = true := by
  unfold Mem.rangeTest
  rw [if_neg (by omega)]
  dsimp only
  split
  · simp; omega
  · rename_i hl
    rw [allPages_iff, pages_iff m h.ps test a n hn]
    constructor
    · intro H; exact ⟨by omega, H⟩
    · exact fun H => H.2

/-- The break search only moves through addresses inside the memory, so the model's
iteration bound is never what stops it. -/
theorem getBreak_ok (m : Mem) (size : Nat) (hs : m.heapEnd ≤ m.data.length) :
    ¬ (m.rangeReadable (m.getBreak size) size = true ∧ m.rangeWritable (m.getBreak size) size = false) := by
  have key : ∀ fuel brk, brk ≤ m.data.length → m.data.length < brk + fuel →
      ¬ (m.rangeReadable (m.getBreakLoop size fuel brk) size = true ∧
         m.rangeWritable (m.getBreakLoop size fuel brk) size = false) := by
    intro fuel
    induction fuel with
    | zero => intro brk h1 h2; omega
    | succ fuel ih =>
      intro brk h1 h2
      unfold Mem.getBreakLoop
      by_cases hc : (m.rangeReadable brk size && !m.rangeWritable brk size) = true
      · rw [if_pos hc]
        apply ih
        · have hr : m.rangeReadable brk size = true := by
            simp only [Bool.and_eq_true] at hc; exact hc.1
          have hw : m.rangeWritable brk size = false := by
            simp only [Bool.and_eq_true, Bool.not_eq_true'] at hc; exact hc.2
          unfold Mem.rangeReadable Mem.rangeTest at hr
          unfold Mem.rangeWritable Mem.rangeTest at hw
          split at hr
          · rename_i h0; simp [h0] at hw
          · dsimp only at hr
            split at hr
            · cases hr
            · omega
        · omega
      · rw [if_neg hc]
        simpa [Bool.and_eq_true] using hc
  exact key _ _ hs (by omega)

/-- What the loader sets up and a heap operation must keep: the heap lies below the stack, and
every read-only page ends before the heap or lies behind an inaccessible page above the start
of the stack. -/
structure Mem.HeapInv (m : Mem) : Prop where
  wf : m.WF
  start : 0 < m.heapStart
  lo : m.heapStart ≤ m.heapEnd
  hi : m.heapEnd ≤ m.stackStart
  inside : m.stackStart ≤ m.data.length
  ro : ∀ p, m.acc[p]? = some .readOnly → (p + 1) * m.pageSize ≤ m.heapStart ∨
    ∃ g, g < p ∧ m.acc[g]? = some .inaccessible ∧ m.stackStart ≤ g * m.pageSize

/-- Under the invariant the break is the end of the heap. -/
theorem getBreak_eq {m : Mem} (h : m.HeapInv) (size : Nat) : m.getBreak size = m.heapEnd := by
  unfold Mem.getBreak Mem.getBreakLoop
  rw [if_neg]
  intro hc
  simp only [Bool.and_eq_true, Bool.not_eq_true'] at hc
  obtain ⟨hr, hw⟩ := hc
  by_cases hn : size = 0
  · subst hn; simp [Mem.rangeWritable, Mem.rangeTest] at hw
  · unfold Mem.rangeReadable at hr
    unfold Mem.rangeWritable at hw
    have hr := (rangeTest_iff h.wf _ _ _ (by omega)).mp hr
    have : m.rangeTest m.pageWritable m.heapEnd size = true := by
      rw [rangeTest_iff h.wf _ _ _ (by omega)]
      refine ⟨hr.1, fun x h1 h2 => ?_⟩
      have hx := hr.2 x h1 h2
      unfold Mem.pageReadable at hx
      unfold Mem.pageWritable
      split at hx
      · rename_i hp
        exfalso
        rcases h.ro _ hp with h3 | ⟨g, h3, h4, h5⟩
        · have h6 : x < (x / m.pageSize + 1) * m.pageSize := by
            have := Nat.div_add_mod x m.pageSize
            have := Nat.mod_lt x h.wf.ps
            rw [Nat.add_mul, Nat.mul_comm]; omega
          have := h.lo
          omega
        · have h6 := (Nat.lt_div_iff_mul_lt h.wf.ps).mp h3
          have h7 := hr.2 (g * m.pageSize) (by have := h.hi; omega) (by omega)
          rw [Nat.mul_div_cancel _ h.wf.ps] at h7
          unfold Mem.pageReadable at h7
          rw [h4] at h7
          cases h7
      · rename_i hp; rw [hp]
      · cases hx
    rw [this] at hw; cases hw

/-- One allocation under the invariant. -/
theorem sbrk_spec {m : Mem} (h : m.HeapInv) (n : Nat) (hn : n < 2 ^ 32) (hw : m.heapEnd + n < 2 ^ 32) :
    (m.stackStart ≤ m.heapEnd + n ∧ m.sbrk n = (.error .sbrkHeapStackCollision, m)) ∨
    (m.heapEnd + n < m.stackStart ∧ ∃ acc', m.sbrk n = (.ok m.heapEnd, { m with acc := acc', heapEnd := m.heapEnd + n }) ∧
      acc'.length = m.acc.length ∧
      (∀ p, acc'[p]? = if 0 < n ∧ m.heapEnd / m.pageSize ≤ p ∧ p ≤ (m.heapEnd + n - 1) / m.pageSize
        then some .readWrite else m.acc[p]?)) := by
  have hs := h.start
  unfold Mem.sbrk
  rw [getBreak_eq h]
  unfold Mem.expandHeap
  dsimp only
  rw [Nat.mod_eq_of_lt hn, Nat.mod_eq_of_lt hw]
  by_cases hc : m.stackStart ≤ m.heapEnd + n
  · left
    rw [if_pos ⟨by omega, hc⟩]
    exact ⟨hc, rfl⟩
  · right
    refine ⟨by omega, ?_⟩
    rw [if_neg (by omega)]
    unfold Mem.setAddrRange
    by_cases h0 : n = 0
    · subst h0
      rw [if_pos (by omega)]
      exact ⟨m.acc, rfl, rfl, fun p => by rw [if_neg (by omega)]⟩
    · rw [if_neg (by omega)]
      unfold Mem.setPageRange Mem.page
      obtain ⟨acc', h1, h2, h3, h4⟩ := setPagesLoop_spec m (m.heapEnd / m.pageSize)
        ((m.heapEnd + n - 1) / m.pageSize + 1 - m.heapEnd / m.pageSize) .readWrite
      have hle := Nat.div_le_div_right (c := m.pageSize) (show m.heapEnd ≤ m.heapEnd + n - 1 by omega)
      have hlt := (WF.lt_iff h.wf (m.heapEnd + n - 1)).mp (by have := h.inside; omega)
      have hok := h4.mpr (by omega)
      generalize hE : m.setPagesLoop (m.heapEnd / m.pageSize) .readWrite
        ((m.heapEnd + n - 1) / m.pageSize + 1 - m.heapEnd / m.pageSize) = E at h1 hok ⊢
      obtain ⟨r, m'⟩ := E
      simp only at h1 hok
      subst hok h1
      refine ⟨acc', rfl, h2, fun p => ?_⟩
      rw [h3 p]
      by_cases hp : 0 < n ∧ m.heapEnd / m.pageSize ≤ p ∧ p ≤ (m.heapEnd + n - 1) / m.pageSize
      · rw [if_pos hp, if_pos (by omega)]
      · rw [if_neg hp, if_neg (by omega)]

theorem sbrk_keeps {m : Mem} (h : m.HeapInv) (n : Nat) (hn : n < 2 ^ 32) (hw : m.heapEnd + n < 2 ^ 32) :
    (m.sbrk n).2.HeapInv ∧ (∀ p : Nat, m.acc[p]? = some Access.readOnly ↔ (m.sbrk n).2.acc[p]? = some Access.readOnly) ∧
    (m.sbrk n).2.data = m.data ∧ (m.sbrk n).2.pageSize = m.pageSize ∧ (m.sbrk n).2.zone = m.zone ∧
    (m.sbrk n).2.stackStart = m.stackStart := by
  rcases sbrk_spec h n hn hw with ⟨_, e⟩ | ⟨hc, acc', e, hl, ha⟩
  · rw [e]; exact ⟨h, fun p => Iff.rfl, rfl, rfl, rfl, rfl⟩
  · rw [e]
    have hps := h.wf.ps
    have hro : ∀ p : Nat, m.acc[p]? = some Access.readOnly ↔ acc'[p]? = some Access.readOnly := by
      intro p
      rw [ha p]
      by_cases hp : 0 < n ∧ m.heapEnd / m.pageSize ≤ p ∧ p ≤ (m.heapEnd + n - 1) / m.pageSize
      · rw [if_pos hp]
        constructor
        · intro hr
          exfalso
          have h1 := (Nat.le_div_iff_mul_le hps).mp hp.2.2
          have h2 := Nat.lt_of_lt_of_le (Nat.lt_succ_of_le hp.2.1) (Nat.le_refl _)
          have h3 := (Nat.div_lt_iff_lt_mul hps).mp h2
          have h4 := h.lo
          rcases h.ro p hr with h5 | ⟨g, h5, h6, h7⟩
          · have h8 : p.succ * m.pageSize = (p + 1) * m.pageSize := rfl
            omega
          · have h8 : g * m.pageSize ≤ p * m.pageSize := Nat.mul_le_mul_right _ (by omega)
            omega
        · intro hr; cases hr
      · rw [if_neg hp]
    refine ⟨⟨⟨hps, by rw [show ({ m with acc := acc', heapEnd := m.heapEnd + n } : Mem).acc.length = m.acc.length from hl]; exact h.wf.len⟩,
      h.start, ?_, ?_, h.inside, ?_⟩, hro, rfl, rfl, rfl, rfl⟩
    · have := h.lo; show m.heapStart ≤ m.heapEnd + n; omega
    · show m.heapEnd + n ≤ m.stackStart; omega
    · intro p hp
      rcases h.ro p ((hro p).mpr hp) with h5 | ⟨g, h5, h6, h7⟩
      · exact Or.inl h5
      · refine Or.inr ⟨g, h5, ?_, h7⟩
        show acc'[g]? = _
        rw [ha g, if_neg]
        · exact h6
        · rintro ⟨_, _, hg⟩
          have h1 := (Nat.le_div_iff_mul_le hps).mp hg
          omega

end Fastroll.Pvm
