import Verif.Pvm.MemLemmas2
/-! # PVM memory is a protected byte map (C11) -/
namespace Fastroll.Pvm

/-- A small memory for the examples: pages of 4 bytes, a forbidden zone of one page, read-only
data in page 1, heap in page 3 (12..14 used), stack in page 6. -/
def demoMem : Mem where
  data := List.replicate 4 0 ++ [1, 2, 3, 4] ++ List.replicate 24 0
  acc := [.inaccessible, .readOnly, .inaccessible, .readWrite, .inaccessible, .inaccessible, .readWrite, .inaccessible]
  pageSize := 4
  zone := 4
  heapStart := 12
  heapEnd := 14
  stackStart := 24

theorem demoMem_inv : demoMem.HeapInv :=
  ⟨⟨by decide, by decide⟩, by decide, by decide, by decide, by decide, by
    intro p hp
    left
    have : p = 1 := by
      match p, hp with
      | 0, hp => exact absurd hp (by decide)
      | 1, _ => rfl
      | 2, hp => exact absurd hp (by decide)
      | 3, hp => exact absurd hp (by decide)
      | 4, hp => exact absurd hp (by decide)
      | 5, hp => exact absurd hp (by decide)
      | 6, hp => exact absurd hp (by decide)
      | 7, hp => exact absurd hp (by decide)
      | p + 8, hp =>
        have : demoMem.acc[p + 8]? = none := List.getElem?_eq_none (by show 8 ≤ p + 8; omega)
        rw [this] at hp; cases hp
    subst this
    decide⟩

/-- **C11.** Every history of loads, stores and permission changes on a memory gives the
results, and leaves the byte map, that the protected byte map gives. -/
theorem C11_refines_byte_map {m : Mem} (h : m.WF) (ops : List MemOp) :
    PMem.Runs m.zone m.pageSize m.data.length m.abs ops (m.execAll ops).1 (m.execAll ops).2.abs ∧
    (m.execAll ops).2.WF := by
  induction ops generalizing m with
  | nil => exact ⟨.nil, h⟩
  | cons op ops ih =>
    obtain ⟨h1, h2, h3, h4, h5⟩ := exec_does h op
    have := ih h2
    rw [h3, h4, h5] at this
    exact ⟨.cons h1 this.1, this.2⟩

example : (demoMem.execAll [.store 12 [7, 8], .load 11 2, .load 12 3, .store 5 [9], .loadByte 5, .protect 2 3 .readOnly, .load 10 4]).1 =
    [some [], none, some [7, 8, 0], none, some [2], some [], some [0, 0, 7, 8]] := by decide

/-- **C11.** After a successful store, every successful load of any range sees the stored
bytes where the range overlaps it and the old bytes elsewhere. -/
theorem C11_read_after_write {m m' : Mem} (h : m.WF) (a : Nat) (bs : List UInt8)
    (hw : m.writeBytes a bs = (.ok (), m')) (b n : Nat) :
    m'.readBytes b n = (m.readBytes b n).map fun old =>
      (List.range n).map fun i => if a ≤ b + i ∧ b + i < a + bs.length then bs.getD (b + i - a) 0 else old.getD i 0 := by
  rcases writeBytes_spec h a bs with ⟨hl, d, e, hd, hx⟩ | ⟨hl, err, e⟩
  · rw [hw] at e
    cases e
    have hv : ∀ k, Mem.validate { m with data := d } (Mem.pageReadable { m with data := d }) b k = m.validate m.pageReadable b k := by
      intro k
      have hfb : ∀ (t : Nat → Bool) k p, Mem.firstBad { m with data := d } t p k = m.firstBad t p k := by
        intro t k
        induction k with
        | zero => intro p; rfl
        | succ k ih => intro p; unfold Mem.firstBad; rw [ih]
      unfold Mem.validate
      simp only [hd, hfb]
      rfl
    unfold Mem.readBytes
    rw [hv]
    by_cases hn : n = 0
    · subst hn; rfl
    · rw [if_neg hn, if_neg hn]
      cases hr : m.validate m.pageReadable b n with
      | error e => rfl
      | ok u =>
        have hlen := loadable_len (by omega) ((validate_read h b n (by omega)).mp hr)
        simp only [Except.map, Except.ok.injEq]
        rw [drop_take_map _ _ _ (by omega), drop_take_map _ _ _ hlen]
        apply List.map_congr_left
        intro i hi
        have hi := List.mem_range.mp hi
        rw [hx, List.getD_eq_getElem?_getD (l := List.map _ _), List.getElem?_map, List.getElem?_range hi]
        rfl
  · rw [hw] at e; cases e

example : ∃ m', demoMem.writeBytes 12 [7, 8] = (.ok (), m') ∧ m'.readBytes 13 3 = .ok [8, 0, 0] :=
  ⟨_, rfl, by decide⟩

/-- **C11.** A failed store changes nothing; a store fails exactly when some byte of a
non-empty range is not writable or the range starts in the forbidden zone. -/
theorem C11_failed_store_no_effect {m : Mem} (h : m.WF) (a : Nat) (bs : List UInt8) :
    ((∃ e, (m.writeBytes a bs).1 = .error e) ↔
      bs ≠ [] ∧ (a < m.zone ∨ ∃ x, a ≤ x ∧ x < a + bs.length ∧ m.abs.perm x ≠ .readWrite)) ∧
    ((∃ e, (m.writeBytes a bs).1 = .error e) → (m.writeBytes a bs).2 = m) := by
  have hcl : ¬ m.abs.Storable m.zone a bs.length ↔
      bs ≠ [] ∧ (a < m.zone ∨ ∃ x, a ≤ x ∧ x < a + bs.length ∧ m.abs.perm x ≠ .readWrite) := by
    unfold PMem.Storable
    rw [List.length_eq_zero_iff]
    constructor
    · intro hc
      refine ⟨fun h0 => hc (Or.inl h0), ?_⟩
      apply Classical.byContradiction
      intro hno
      apply hc
      right
      refine ⟨Nat.not_lt.mp fun hz => hno (Or.inl hz), fun x h1 h2 => ?_⟩
      apply Classical.byContradiction
      intro hp
      exact hno (Or.inr ⟨x, h1, h2, hp⟩)
    · rintro ⟨h0, h1⟩ (h2 | ⟨h2, h3⟩)
      · exact h0 h2
      · rcases h1 with h1 | ⟨x, hx1, hx2, hx3⟩
        · omega
        · exact hx3 (h3 x hx1 hx2)
  rw [← hcl]
  rcases writeBytes_spec h a bs with ⟨hl, d, e, hd, hx⟩ | ⟨hl, err, e⟩
  · rw [e]
    exact ⟨⟨(fun ⟨e', h'⟩ => by cases h'), fun hc => absurd hl hc⟩, (fun ⟨e', h'⟩ => by cases h')⟩
  · rw [e]
    exact ⟨⟨fun _ => hl, fun _ => ⟨err, rfl⟩⟩, fun _ => rfl⟩

example : (demoMem.writeBytes 14 [1, 2, 3]) = (.error (.accessViolation 16), demoMem) := by decide

/-- **C11.** The address in a fault of a load or store of a range is the start of the page of
the lowest address in the range that lacks the permission. -/
theorem C11_fault_address {m : Mem} (h : m.WF) (a x : Nat) :
    (∀ n, m.readBytes a n = .error (.accessViolation x) → ∃ y, a ≤ y ∧ y < a + n ∧ m.abs.perm y = .inaccessible ∧
      x = y / m.pageSize * m.pageSize ∧ ∀ z, a ≤ z → z < y → m.abs.perm z ≠ .inaccessible) ∧
    (∀ bs, (m.writeBytes a bs).1 = .error (.accessViolation x) → ∃ y, a ≤ y ∧ y < a + bs.length ∧ m.abs.perm y ≠ .readWrite ∧
      x = y / m.pageSize * m.pageSize ∧ ∀ z, a ≤ z → z < y → m.abs.perm z = .readWrite) := by
  constructor
  · intro n e
    unfold Mem.readBytes at e
    split at e
    · cases e
    · split at e
      · rename_i hn er hv
        cases e
        obtain ⟨hl, y, h1, h2, h3, h4, h5⟩ := validate_fault h _ _ _ _ (by omega) hv
        refine ⟨y, h1, h2, ?_, h4, fun z hz1 hz2 => (perm_readable z (by omega)).mpr (h5 z hz1 hz2)⟩
        apply Classical.byContradiction
        intro hp
        rw [(perm_readable y (by omega)).mp hp] at h3
        cases h3
      · cases e
  · intro bs e
    unfold Mem.writeBytes at e
    split at e
    · cases e
    · split at e
      · rename_i hn er hv
        cases e
        obtain ⟨hl, y, h1, h2, h3, h4, h5⟩ := validate_fault h _ _ _ _ (by omega) hv
        refine ⟨y, h1, h2, ?_, h4, fun z hz1 hz2 => (perm_writable z (by omega)).mpr (h5 z hz1 hz2)⟩
        intro hp
        rw [(perm_writable y (by omega)).mp hp] at h3
        cases h3
      · cases e

example : demoMem.readBytes 6 7 = .error (.accessViolation 8) := by decide

/-- **C11, a defect.** Single-byte accesses report the faulting address itself, not its page's
start, so a one-byte load and a one-byte range load of the same address disagree. -/
theorem C11_byte_fault_unaligned :
    ∃ (m : Mem) (a : Nat), m.WF ∧ m.readByte a = .error (.accessViolation a) ∧ a % m.pageSize ≠ 0 ∧
      m.readBytes a 1 = .error (.accessViolation (a / m.pageSize * m.pageSize)) :=
  ⟨demoMem, 9, ⟨by decide, by decide⟩, by decide, by decide, by decide⟩

/-- **C11.** The heap: an allocation whose end stays below `2^32` either grants exactly the
pages covering `[heapEnd, heapEnd + n)` as read-write memory, keeps every other permission and every
byte, and moves the heap's end; or fails with no effect because it would reach the stack. The
code's search for a break always stops at the heap's end. Missing: requests whose end passes
`2^32` (see `C11_sbrk_wraps`). -/
theorem C11_sbrk_partial {m : Mem} (h : m.HeapInv) (n : Nat) (hw : m.heapEnd + n < 2 ^ 32) :
    (m.stackStart ≤ m.heapEnd + n ∧ m.sbrk n = (.error .sbrkHeapStackCollision, m)) ∨
    (m.heapEnd + n < m.stackStart ∧ ∃ m', m.sbrk n = (.ok m.heapEnd, m') ∧ m'.HeapInv ∧ m'.heapEnd = m.heapEnd + n ∧
      ∀ x, m'.abs.byte x = m.abs.byte x ∧
        ((∃ y, m.heapEnd ≤ y ∧ y < m.heapEnd + n ∧ x / m.pageSize = y / m.pageSize) → m'.abs.perm x = .readWrite) ∧
        ((¬ ∃ y, m.heapEnd ≤ y ∧ y < m.heapEnd + n ∧ x / m.pageSize = y / m.pageSize) → m'.abs.perm x = m.abs.perm x)) := by
  rcases sbrk_spec h n (by omega) hw with hc | ⟨hc, acc', e, hl, ha⟩
  · exact Or.inl hc
  · right
    have hk := (sbrk_keeps h n (by omega) hw).1
    rw [e] at hk
    refine ⟨hc, _, e, hk, rfl, fun x => ⟨rfl, ?_, ?_⟩⟩
    · rintro ⟨y, h1, h2, h3⟩
      have h4 : x / m.pageSize < m.acc.length := by
        rw [h3]; exact (WF.lt_iff h.wf y).mp (by have := h.inside; omega)
      have h5 := (WF.lt_iff h.wf x).mpr h4
      simp only [Mem.abs, h5, if_true, List.getD_eq_getElem?_getD, ha]
      rw [if_pos]
      · rfl
      · refine ⟨by omega, ?_, ?_⟩
        · rw [h3]; exact Nat.div_le_div_right h1
        · rw [h3]; exact Nat.div_le_div_right (by omega)
    · intro hno
      simp only [Mem.abs, List.getD_eq_getElem?_getD, ha]
      rw [if_neg (c := 0 < n ∧ _)]
      rintro ⟨h1, h2, h3⟩
      apply hno
      have h4 := (Nat.le_div_iff_mul_le h.wf.ps).mp h3
      rcases Nat.lt_or_ge (m.heapEnd / m.pageSize) (x / m.pageSize) with h5 | h5
      · have h6 := (Nat.div_lt_iff_lt_mul h.wf.ps).mp h5
        exact ⟨x / m.pageSize * m.pageSize, by omega, by omega, by rw [Nat.mul_div_cancel _ h.wf.ps]⟩
      · exact ⟨m.heapEnd, by omega, by omega, by omega⟩

example : demoMem.HeapInv ∧ (demoMem.sbrk 4).1 = .ok 14 ∧
    (demoMem.sbrk 4).2.acc = [.inaccessible, .readOnly, .inaccessible, .readWrite, .readWrite, .inaccessible, .readWrite, .inaccessible] ∧
    (demoMem.sbrk 10).1 = .error .sbrkHeapStackCollision := ⟨demoMem_inv, by decide, by decide, by decide⟩

/-- What a program can do to its memory. -/
inductive ProgOp where
  | load (addr len : Nat) | loadByte (addr : Nat) | store (addr : Nat) (bytes : List UInt8)
  | storeByte (addr : Nat) (b : UInt8) | sbrk (n : Nat)

/-- The memory after one of the program's operations, whatever its result. -/
def Mem.after (m : Mem) : ProgOp → Mem
  | .load _ _ => m
  | .loadByte _ => m
  | .store a bs => (m.writeBytes a bs).2
  | .storeByte a b => (m.writeByte a b).2
  | .sbrk n => (m.sbrk n).2

/-- **C11.** Read-only addresses stay read-only and keep their bytes under every sequence of
loads, stores and heap allocations by the program, and the heap invariant is kept. Missing:
allocations so large that the heap's end could pass `2^32` (see `C11_sbrk_wraps`). -/
theorem C11_read_only_preserved_partial {m : Mem} (h : m.HeapInv) (ops : List ProgOp)
    (hs : ∀ n, ProgOp.sbrk n ∈ ops → m.stackStart + n < 2 ^ 32) :
    (ops.foldl Mem.after m).HeapInv ∧
    ∀ x, m.abs.perm x = .readOnly →
      (ops.foldl Mem.after m).abs.perm x = .readOnly ∧ (ops.foldl Mem.after m).abs.byte x = m.abs.byte x := by
  induction ops generalizing m with
  | nil => exact ⟨h, fun x hx => ⟨hx, rfl⟩⟩
  | cons op ops ih =>
    have step : (m.after op).HeapInv ∧ (m.after op).stackStart = m.stackStart ∧ ∀ x, m.abs.perm x = .readOnly →
        (m.after op).abs.perm x = .readOnly ∧ (m.after op).abs.byte x = m.abs.byte x := by
      cases op with
      | load a n => exact ⟨h, rfl, fun x hx => ⟨hx, rfl⟩⟩
      | loadByte a => exact ⟨h, rfl, fun x hx => ⟨hx, rfl⟩⟩
      | store a bs =>
        rcases writeBytes_spec h.wf a bs with ⟨hl, d, e, hd, hx⟩ | ⟨hl, err, e⟩
        · simp only [Mem.after, e]
          refine ⟨⟨⟨h.wf.ps, by simpa [hd] using h.wf.len⟩, h.start, h.lo, h.hi, by simpa [hd] using h.inside, h.ro⟩, trivial, ?_⟩
          intro x hp
          refine ⟨by simpa only [Mem.abs, hd] using hp, ?_⟩
          show d.getD x 0 = _
          rw [hx, if_neg]
          · rfl
          · rintro ⟨h1, h2⟩
            rcases hl with hl | ⟨_, hl⟩
            · omega
            · rw [hl x h1 h2] at hp; cases hp
        · simp only [Mem.after, e]; exact ⟨h, trivial, fun x hx => ⟨hx, trivial⟩⟩
      | storeByte a b =>
        rcases writeByte_spec (m := m) a b with ⟨hl, hlt, e⟩ | ⟨hl, err, e⟩
        · simp only [Mem.after, e]
          refine ⟨⟨⟨h.wf.ps, by simpa using h.wf.len⟩, h.start, h.lo, h.hi, by simpa using h.inside, h.ro⟩, trivial, ?_⟩
          intro x hp
          refine ⟨by simpa only [Mem.abs, List.length_set] using hp, ?_⟩
          simp only [Mem.abs, List.getD_eq_getElem?_getD, List.getElem?_set]
          rw [if_neg]
          intro hx
          subst hx
          rcases hl with hl | ⟨_, hl⟩
          · omega
          · rw [hl _ (Nat.le_refl _) (by omega)] at hp; cases hp
        · simp only [Mem.after, e]; exact ⟨h, trivial, fun x hx => ⟨hx, trivial⟩⟩
      | sbrk n =>
        have hn := hs n (List.mem_cons_self ..)
        obtain ⟨h1, h2, h3, h4, h5, h6⟩ := sbrk_keeps h n (by omega) (by have := h.hi; omega)
        refine ⟨h1, h6, ?_⟩
        intro x hp
        simp only [Mem.after, Mem.abs, h3, h4] at hp ⊢
        refine ⟨?_, trivial⟩
        by_cases hx : x < m.data.length
        · rw [if_pos hx] at hp ⊢
          simp only [List.getD_eq_getElem?_getD] at hp ⊢
          cases hq : m.acc[x / m.pageSize]? with
          | none => rw [hq] at hp; cases hp
          | some a =>
            rw [hq] at hp
            simp only [Option.getD_some] at hp
            subst hp
            rw [(h2 _).mp hq]; rfl
        · rw [if_neg hx] at hp; cases hp
    obtain ⟨s1, s2, s3⟩ := step
    have := ih s1 (fun n hn => by rw [s2]; exact hs n (List.mem_cons_of_mem _ hn))
    refine ⟨this.1, fun x hx => ?_⟩
    obtain ⟨p1, p2⟩ := s3 x hx
    obtain ⟨q1, q2⟩ := this.2 x p1
    exact ⟨q1, q2.trans p2⟩

example : demoMem.HeapInv ∧ demoMem.abs.perm 6 = .readOnly ∧
    (([.sbrk 3, .store 15 [1, 2], .store 5 [9]] : List ProgOp).foldl Mem.after demoMem).readBytes 5 2 = .ok [2, 3] :=
  ⟨demoMem_inv, by decide, by decide⟩

/-- **C11, a defect.** Without overflow checks a huge allocation wraps around: it "succeeds",
grants nothing and moves the heap's end below its start. A second allocation then makes the
read-only data writable, so a program can overwrite it. -/
theorem C11_sbrk_wraps :
    ∃ (m : Mem) (n k a : Nat), m.HeapInv ∧ n < 2 ^ 32 ∧ m.abs.perm a = .readOnly ∧
      (m.sbrk n).1 = .ok m.heapEnd ∧ (m.sbrk n).2.heapEnd < m.heapStart ∧
      (([.sbrk n, .sbrk k, .store a [0xff]] : List ProgOp).foldl Mem.after m).abs.byte a ≠ m.abs.byte a :=
  ⟨demoMem, 2 ^ 32 - 10, 6, 5, demoMem_inv, by decide, by decide, by decide, by decide, by decide⟩

/-- **C11, a defect.** An allocation of a positive multiple of `2^32` bytes reports success but
allocates nothing. -/
theorem C11_sbrk_truncates {m : Mem} (h : m.HeapInv) (k : Nat) (hlt : m.heapEnd < m.stackStart) (hs : m.stackStart < 2 ^ 32) :
    m.sbrk (2 ^ 32 * k) = (.ok m.heapEnd, m) := by
  unfold Mem.sbrk
  rw [getBreak_eq h]
  unfold Mem.expandHeap
  dsimp only
  rw [Nat.mul_mod_right, Nat.add_zero, Nat.mod_eq_of_lt (by omega), if_neg (by omega)]
  unfold Mem.setAddrRange
  rw [if_pos (Nat.le_refl _)]

example : demoMem.sbrk (2 ^ 32 * 3) = (.ok 14, demoMem) := C11_sbrk_truncates demoMem_inv 3 (by decide) (by decide)

end Fastroll.Pvm
