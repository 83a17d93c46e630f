import Verif.Pvm.LayoutLemmas
import Verif.Pvm.PropsMem
/-! # The initial memory of a standard program (C14) -/
namespace Fastroll.Pvm

/-- A program with some of everything. -/
def demoProg : FProg where
  staticSize := 5000
  heapSize := 3
  extraPages := 2
  stackSize := 70000
  staticData := List.replicate 5000 7
  heapData := [1, 2, 3]

theorem init_eq (p : FProg) (args : List UInt8) (hv : p.sizeValid = true) (ha : args.length ≤ INPUT) :
    initMemory p args = setupMemory (Mem.new (2 ^ 32) PAGE ZONE) p args := by
  unfold initMemory
  rw [if_neg (by omega), hv]; rfl

theorem stack_stop (p : FProg) (n : Nat) : (theRegions p n).stack.stop = 4278059008 := by
  show 4294967296 - 131072 - 16777216 = 4278059008; omega
theorem args_start (p : FProg) (n : Nat) : (theRegions p n).args.start = 4278124544 := by
  show 4294967296 - 65536 - 16777216 = 4278124544; omega
theorem args_stop (p : FProg) (n : Nat) : (theRegions p n).args.stop = 4278124544 + pageAlign n := by
  show 4294967296 - 65536 - 16777216 + pageAlign n = 4278124544 + pageAlign n; omega

/-- **C14.** For every program the size check admits and every argument blob of at most
`2^24` bytes, initialization succeeds, and the memory is exactly the prescribed map: the four
regions, at least a zone apart, above the low and below the high zone, hold the program's data with the
right permissions, and every other address is inaccessible. -/
theorem C14_regions (p : FProg) (args : List UInt8) (hv : p.sizeValid = true) (ha : args.length ≤ 16777216)
    (ho : p.staticData.length = p.staticSize) (hh : p.heapData.length = p.heapSize) :
    ∃ m r, initMemory p args = .ok m ∧ Regions.Prescribed r p args.length ∧ r.Separate ∧ r.Describes p args m.abs ∧
      m.heapStart = r.heap.start ∧ m.heapEnd = r.heap.stop ∧ m.stackStart = r.stack.start := by
  have hf := fits_of_valid p args.length hv ha
  obtain ⟨h1, h2, h3, h4⟩ := new_abs (2 ^ 32) PAGE ZONE (by decide) ⟨2 ^ 20, by decide⟩
  obtain ⟨m, e, _, hd, _, _, _, hs, he, hst⟩ := setup_ok p args hf ho hh (Mem.new (2 ^ 32) PAGE ZONE) h1 h4 rfl rfl h2 h3
  exact ⟨m, _, (init_eq p args hv ha).trans e, theRegions_prescribed p _, theRegions_separate hf, hd, hs, he, hst⟩

example : demoProg.sizeValid = true ∧ demoProg.staticData.length = demoProg.staticSize ∧
    demoProg.heapData.length = demoProg.heapSize := ⟨by decide, List.length_replicate, rfl⟩

/-- **C14.** The sizes a program blob can express (three bytes each, two for the extra pages)
always pass the check, so decoding never yields a program that the check rejects. -/
theorem C14_always_admitted (p : FProg) (h1 : p.staticSize < 2 ^ 24) (h2 : p.heapSize < 2 ^ 24)
    (h3 : p.stackSize < 2 ^ 24) (h4 : p.extraPages < 2 ^ 16) : p.sizeValid = true := by
  unfold FProg.sizeValid
  apply decide_eq_true
  unfold zoneAlign INPUT ZONE PAGE
  omega

example : ∃ p : FProg, p.staticSize = 2 ^ 24 - 1 ∧ p.heapSize = 2 ^ 24 - 1 ∧ p.stackSize = 2 ^ 24 - 1 ∧
    p.extraPages = 2 ^ 16 - 1 ∧ p.sizeValid = true :=
  ⟨⟨2 ^ 24 - 1, 2 ^ 24 - 1, 2 ^ 16 - 1, 2 ^ 24 - 1, [], []⟩, rfl, rfl, rfl, rfl, by decide⟩

/-- **C14.** The initial memory satisfies the invariant the heap allocator needs (C11). -/
theorem C14_heap_invariant (p : FProg) (args : List UInt8) (hv : p.sizeValid = true) (ha : args.length ≤ 16777216)
    (ho : p.staticData.length = p.staticSize) (hh : p.heapData.length = p.heapSize) :
    ∃ m, initMemory p args = .ok m ∧ m.HeapInv := by
  have hf := fits_of_valid p args.length hv ha
  obtain ⟨h1, h2, h3, h4⟩ := new_abs (2 ^ 32) PAGE ZONE (by decide) ⟨2 ^ 20, by decide⟩
  obtain ⟨m, e, wf, hd, hl, hps, hz, hs, he, hst⟩ := setup_ok p args hf ho hh (Mem.new (2 ^ 32) PAGE ZONE) h1 h4 rfl rfl h2 h3
  refine ⟨m, (init_eq p args hv ha).trans e, ?_⟩
  have hsep := theRegions_separate hf
  generalize hr : theRegions p args.length = r at *
  have eend : r.stack.stop + 65536 = r.args.start := by rw [← hr, stack_stop, args_start]
  have emod : r.stack.stop % 4096 = 0 := by
    rw [← hr]; show (4294967296 - 131072 - 16777216) % 4096 = 0; decide
  have egap : r.args.start % 4096 = 0 := by
    rw [← hr]; show (4294967296 - 65536 - 16777216) % 4096 = 0; decide
  unfold Regions.Separate at hsep
  have hro : r.ro.stop % 4096 = 0 := by
    rw [← hr]
    have := (pageAlign_spec p.staticSize).1
    show (65536 + pageAlign p.staticSize) % 4096 = 0
    omega
  refine ⟨wf, by omega, by omega, by omega, by omega, ?_⟩
  intro q hq
  have hqlt : q < m.acc.length := by
    apply Nat.lt_of_not_le
    intro hc
    rw [List.getElem?_eq_none hc] at hq; cases hq
  have hx : q * m.pageSize < m.data.length := by
    rw [wf.len]; exact Nat.mul_lt_mul_of_pos_right hqlt wf.ps
  have hp : m.abs.perm (q * m.pageSize) = .readOnly := by
    simp only [Mem.abs, hx, if_true, List.getD_eq_getElem?_getD, Nat.mul_div_cancel _ wf.ps, hq]; rfl
  rw [hps] at hp hx ⊢
  by_cases c1 : r.ro.Has (q * 4096)
  · left
    unfold Region.Has at c1
    omega
  · right
    by_cases c2 : r.heap.Has (q * 4096)
    · rw [(hd.heap _ c2).1] at hp; cases hp
    · by_cases c3 : r.stack.Has (q * 4096)
      · rw [(hd.stack _ c3).1] at hp; cases hp
      · by_cases c4 : r.args.Has (q * 4096)
        · unfold Region.Has at c4
          refine ⟨r.stack.stop / 4096, by omega, ?_, by omega⟩
          have hg : m.abs.perm (r.stack.stop) = .inaccessible := by
            apply hd.other <;> (unfold Region.Has; omega)
          simp only [Mem.abs, hps] at hg
          rw [if_pos (by omega)] at hg
          have hlt : r.stack.stop / 4096 < m.acc.length := by
            have := (WF.lt_iff wf r.stack.stop).mp (by omega)
            rwa [hps] at this
          rw [List.getD_eq_getElem?_getD, List.getElem?_eq_getElem hlt] at hg
          rw [List.getElem?_eq_getElem hlt]
          exact congrArg some hg
        · rw [hd.other _ c1 c2 c3 c4] at hp; cases hp

example : ∃ m, initMemory demoProg [1, 2] = .ok m ∧ m.HeapInv :=
  C14_heap_invariant demoProg [1, 2] (by decide) (by decide) List.length_replicate rfl

/-- **C14.** The initial registers point into the map: the stack pointer is the end of the
stack, registers 7 and 8 are the start and length of the arguments, and register 0 is the halt address
`2^32 - 2^16`, which is above every region. All other registers are zero. -/
theorem C14_registers (p : FProg) (args : List UInt8) (hv : p.sizeValid = true) (ha : args.length ≤ 16777216) :
    ∃ r, Regions.Prescribed r p args.length ∧ initReg args.length 1 = r.stack.stop ∧ initReg args.length 7 = r.args.start ∧
      initReg args.length 8 = args.length ∧ initReg args.length 7 + initReg args.length 8 ≤ r.args.stop ∧
      initReg args.length 0 = 2 ^ 32 - 2 ^ 16 ∧ r.args.stop ≤ initReg args.length 0 ∧
      ∀ i, i ≠ 0 → i ≠ 1 → i ≠ 7 → i ≠ 8 → initReg args.length i = 0 := by
  have hf := fits_of_valid p args.length hv ha
  have h := (pageAlign_spec args.length).2.1
  have h' := hf.pa
  refine ⟨theRegions p args.length, theRegions_prescribed p _, ?_, ?_, by simp [initReg], ?_, by simp [initReg], ?_, ?_⟩
  · rw [stack_stop]; simp [initReg, ZONE, INPUT]
  · rw [args_start]; simp [initReg, ZONE, INPUT]
  · rw [args_stop]; simp [initReg, ZONE, INPUT]; omega
  · rw [args_stop]; simp [initReg, ZONE, INPUT]; omega
  · intro i h0 h1 h7 h8
    unfold initReg
    rw [if_neg h0, if_neg h1, if_neg h7, if_neg h8]

example : demoProg.sizeValid = true ∧ initReg 2 0 = 4294901760 ∧ initReg 2 8 = 2 ∧ initReg 2 9 = 0 := by decide

/-- **C14, a defect.** The permissions of the initial map can be escaped: for every admitted
program with read-only data, two `sbrk` instructions (without overflow checks) make all of it writable. -/
theorem C14_read_only_escape (p : FProg) (args : List UInt8) (hv : p.sizeValid = true) (ha : args.length ≤ 16777216)
    (ho : p.staticData.length = p.staticSize) (hh : p.heapData.length = p.heapSize) (hpos : 0 < p.staticSize) :
    ∃ m n k, initMemory p args = .ok m ∧ n < 2 ^ 32 ∧ k < 2 ^ 32 ∧
      ∀ i, i < p.staticSize → m.abs.perm (65536 + i) = .readOnly ∧
        (([.sbrk n, .sbrk k] : List ProgOp).foldl Mem.after m).abs.perm (65536 + i) = .readWrite := by
  obtain ⟨m', e', hinv⟩ := C14_heap_invariant p args hv ha ho hh
  have hf := fits_of_valid p args.length hv ha
  obtain ⟨h1, h2, h3, h4⟩ := new_abs (2 ^ 32) PAGE ZONE (by decide) ⟨2 ^ 20, by decide⟩
  obtain ⟨m, e, wf, hd, hl, hps, hz, hs, he, hst⟩ := setup_ok p args hf ho hh (Mem.new (2 ^ 32) PAGE ZONE) h1 h4 rfl rfl h2 h3
  have emm : m' = m := by
    rw [init_eq p args hv ha] at e'
    exact Except.ok.inj (e'.symm.trans e)
  subst emm
  have hsep := theRegions_separate hf
  have hrs : (theRegions p args.length).ro.start = 65536 := rfl
  have hre : (theRegions p args.length).ro.stop = 65536 + pageAlign p.staticSize := rfl
  generalize theRegions p args.length = r at *
  unfold Regions.Separate at hsep
  obtain ⟨hp1, hp2, hp3⟩ := pageAlign_spec p.staticSize
  generalize pageAlign p.staticSize = po at *
  refine ⟨m', 4294967296 - m'.heapEnd + 65536, po + 1, e', by omega, by omega, ?_⟩
  -- the first allocation
  have s1 : m'.after (.sbrk (4294967296 - m'.heapEnd + 65536)) = { m' with heapEnd := 65536 } := by
    simp only [Mem.after, Mem.sbrk]
    rw [getBreak_eq hinv]
    have est : (m'.heapEnd + (4294967296 - m'.heapEnd + 65536) % 2 ^ 32) % 2 ^ 32 = 65536 := by omega
    unfold Mem.expandHeap Mem.setAddrRange
    simp only [est]
    rw [if_neg (by omega), if_pos (by omega)]
  generalize hm2 : ({ m' with heapEnd := 65536 } : Mem) = m2 at s1
  have a2 : m2.abs = m'.abs := by rw [← hm2]; rfl
  have w2 : m2.WF := by rw [← hm2]; exact ⟨wf.ps, wf.len⟩
  have l2 : m2.data.length = 4294967296 := by rw [← hm2]; exact hl
  have ps2 : m2.pageSize = 4096 := by rw [← hm2]; exact hps
  have he2 : m2.heapEnd = 65536 := by rw [← hm2]
  have ss2 : m2.stackStart = r.stack.start := by rw [← hm2]; exact hst
  -- the second
  have hgb : m2.getBreak (po + 1) = 65536 := by
    unfold Mem.getBreak Mem.getBreakLoop
    rw [he2, if_neg]
    intro hc
    simp only [Bool.and_eq_true] at hc
    have h5 := ((rangeTest_iff w2 _ _ _ (by omega)).mp hc.1).2 (65536 + po) (by omega) (by omega)
    have h6 := (perm_readable (m := m2) (65536 + po) (by omega)).mpr h5
    rw [a2] at h6
    exact h6 (by apply hd.other <;> (unfold Region.Has; omega))
  intro i hi
  have hro : r.ro.Has (65536 + i) := by unfold Region.Has; omega
  refine ⟨(hd.ro _ hro).1, ?_⟩
  simp only [List.foldl_cons, List.foldl_nil, s1]
  simp only [Mem.after, Mem.sbrk]
  rw [hgb]
  have est : (65536 + (po + 1) % 2 ^ 32) % 2 ^ 32 = 65537 + po := by omega
  unfold Mem.expandHeap Mem.setAddrRange Mem.setPageRange Mem.page
  simp only [est, ps2]
  rw [if_neg (by omega), if_neg (by omega)]
  obtain ⟨acc', q1, q2, q3, q4⟩ := setPagesLoop_spec m2 (65536 / 4096) ((65537 + po - 1) / 4096 + 1 - 65536 / 4096) .readWrite
  have hfit : (65537 + po - 1) / 4096 < m2.acc.length := by
    have := (WF.lt_iff w2 (65537 + po - 1)).mp (by omega)
    rwa [ps2] at this
  have hok := q4.mpr (by omega)
  generalize m2.setPagesLoop (65536 / 4096) .readWrite ((65537 + po - 1) / 4096 + 1 - 65536 / 4096) = E at q1 hok ⊢
  obtain ⟨res, m3⟩ := E
  simp only at q1 hok
  subst hok q1
  simp only [Mem.abs, l2, ps2, List.getD_eq_getElem?_getD, q3]
  rw [if_pos (by omega), if_pos (by omega)]
  rfl

example : ∃ m n k, initMemory demoProg [] = .ok m ∧ n < 2 ^ 32 ∧ k < 2 ^ 32 ∧
    ∀ i, i < demoProg.staticSize → m.abs.perm (65536 + i) = .readOnly ∧
      (([.sbrk n, .sbrk k] : List ProgOp).foldl Mem.after m).abs.perm (65536 + i) = .readWrite :=
  C14_read_only_escape demoProg [] (by decide) (by decide) List.length_replicate rfl (by decide)

end Fastroll.Pvm
