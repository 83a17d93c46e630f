import Verif.Pvm.LayoutSpec
import Verif.Pvm.MemLemmas2
/-! Helper lemmas for the initial memory. -/
namespace Fastroll.Pvm

/-- Everything but bytes and permissions is the same. -/
structure Mem.Same (m m' : Mem) : Prop where
  wf : m'.WF
  len : m'.data.length = m.data.length
  ps : m'.pageSize = m.pageSize
  zone : m'.zone = m.zone
  hs : m'.heapStart = m.heapStart
  he : m'.heapEnd = m.heapEnd
  ss : m'.stackStart = m.stackStart

theorem setAddr_abs {m : Mem} (h : m.WF) (lo hi : Nat) (a : Access) (d1 : m.pageSize ∣ lo) (d2 : m.pageSize ∣ hi)
    (hlo : lo ≤ hi) (hle : hi ≤ m.data.length) :
    ∃ m', m.setAddrRange lo hi a = (.ok (), m') ∧ Mem.Same m m' ∧ (∀ x, m'.abs.byte x = m.abs.byte x) ∧
      (∀ x, m'.abs.perm x = if lo ≤ x ∧ x < hi then a else m.abs.perm x) := by
  have hps := h.ps
  unfold Mem.setAddrRange
  by_cases he : hi ≤ lo
  · rw [if_pos he]
    exact ⟨m, rfl, ⟨h, rfl, rfl, rfl, rfl, rfl, rfl⟩, fun x => rfl, fun x => by rw [if_neg (by omega)]⟩
  · rw [if_neg he]
    unfold Mem.setPageRange Mem.page
    obtain ⟨i, hi'⟩ := d1
    obtain ⟨j, hj⟩ := d2
    have e1 : lo / m.pageSize = i := by rw [hi', Nat.mul_div_cancel_left _ hps]
    have hij : i < j := by
      apply Nat.lt_of_mul_lt_mul_left (a := m.pageSize); omega
    have e2 : (hi - 1) / m.pageSize + 1 = j := by
      have : (hi - 1) / m.pageSize = j - 1 := by
        apply Nat.div_eq_of_lt_le
        · have : (j - 1) * m.pageSize + m.pageSize = j * m.pageSize := by
            rw [← Nat.succ_mul]; congr 1; omega
          rw [Nat.mul_comm j] at this; omega
        · have : (j - 1 + 1) * m.pageSize = m.pageSize * j := by
            rw [Nat.mul_comm]; congr 1; omega
          omega
      omega
    rw [e1, e2]
    obtain ⟨acc', h1, h2, h3, h4⟩ := setPagesLoop_spec m i (j - i) a
    have hfit : j ≤ m.acc.length := by
      rw [h.len, hj, Nat.mul_comm] at hle
      exact Nat.le_of_mul_le_mul_right hle hps
    have hok := h4.mpr (by omega)
    generalize m.setPagesLoop i a (j - i) = E at h1 hok
    obtain ⟨r, m'⟩ := E
    simp only at h1 hok
    subst hok h1
    refine ⟨_, rfl, ⟨⟨hps, by simpa [h2] using h.len⟩, rfl, rfl, rfl, rfl, rfl, rfl⟩, fun x => rfl, fun x => ?_⟩
    rw [abs_set_acc m h acc' a i j h2 (fun p => by
      rw [h3 p]
      by_cases hc : i ≤ p ∧ p < j ∧ p < m.acc.length
      · rw [if_pos hc, if_pos (by omega)]
      · rw [if_neg hc, if_neg (by omega)])]
    show (if i ≤ x / m.pageSize ∧ x / m.pageSize < j ∧ x < m.data.length then a else m.abs.perm x) = _
    have c1 : i ≤ x / m.pageSize ↔ lo ≤ x := by rw [Nat.le_div_iff_mul_le hps, hi', Nat.mul_comm]
    have c2 : x / m.pageSize < j ↔ x < hi := by rw [Nat.div_lt_iff_lt_mul hps, hj, Nat.mul_comm]
    simp only [c1, c2]
    by_cases hc : lo ≤ x ∧ x < hi
    · rw [if_pos ⟨hc.1, hc.2, by omega⟩, if_pos hc]
    · rw [if_neg (by omega), if_neg hc]

theorem write_abs {m : Mem} (h : m.WF) (a : Nat) (bs : List UInt8) (hz : m.zone ≤ a)
    (hp : ∀ x, a ≤ x → x < a + bs.length → m.abs.perm x = .readWrite) :
    ∃ m', m.writeBytes a bs = (.ok (), m') ∧ Mem.Same m m' ∧
      (∀ x, m'.abs.byte x = if a ≤ x ∧ x < a + bs.length then bs.getD (x - a) 0 else m.abs.byte x) ∧
      (∀ x, m'.abs.perm x = m.abs.perm x) := by
  rcases writeBytes_spec h a bs with ⟨hl, d, e, hd, hx⟩ | ⟨hl, err, e⟩
  · exact ⟨_, e, ⟨⟨h.ps, by simpa [hd] using h.len⟩, hd, rfl, rfl, rfl, rfl, rfl⟩, hx, fun x => by simp only [Mem.abs, hd]⟩
  · exact absurd (Or.inr ⟨hz, hp⟩) hl

theorem pageAlign_spec (x : Nat) : RoundsUp 4096 x (pageAlign x) := by
  unfold RoundsUp pageAlign PAGE
  refine ⟨⟨_, rfl⟩, ?_, ?_⟩ <;> omega

theorem zoneAlign_spec (x : Nat) : RoundsUp 65536 x (zoneAlign x) := by
  unfold RoundsUp zoneAlign ZONE
  refine ⟨⟨_, rfl⟩, ?_, ?_⟩ <;> omega

/-- The arithmetic of an admitted program: no conversion to 32 bits truncates. -/
structure Fits (p : FProg) (argsLen : Nat) : Prop where
  po : pageAlign p.staticSize ≤ zoneAlign p.staticSize
  total : 131072 + zoneAlign p.staticSize + pageAlign p.heapSize + p.extraPages * 4096 + 65536 + pageAlign p.stackSize
    + 131072 + 16777216 ≤ 4294967296
  pa : pageAlign argsLen ≤ 16777216

theorem fits_of_valid (p : FProg) (n : Nat) (hv : p.sizeValid = true) (ha : n ≤ INPUT) : Fits p n := by
  unfold FProg.sizeValid INPUT ZONE PAGE at hv
  unfold INPUT at ha
  have hv := of_decide_eq_true hv
  have align : ∀ x, pageAlign x ≤ zoneAlign x := by
    intro x
    unfold pageAlign zoneAlign PAGE ZONE
    omega
  have h1 : pageAlign p.heapSize + p.extraPages * 4096 = pageAlign (p.heapSize + p.extraPages * 4096) := by
    unfold pageAlign PAGE; omega
  have h2 := align (p.heapSize + p.extraPages * 4096)
  have h3 := align p.stackSize
  have h4 := align p.staticSize
  have hv' : 5 * 65536 + zoneAlign p.staticSize + zoneAlign (p.heapSize + p.extraPages * 4096) + zoneAlign p.stackSize
    + 16777216 ≤ 4294967296 := hv
  refine ⟨h4, by omega, ?_⟩
  unfold pageAlign PAGE
  omega

/-- The regions in the order the code builds them. -/
def theRegions (p : FProg) (n : Nat) : Regions where
  ro := ⟨65536, 65536 + pageAlign p.staticSize⟩
  heap := ⟨131072 + zoneAlign p.staticSize, 131072 + zoneAlign p.staticSize + pageAlign p.heapSize + p.extraPages * 4096⟩
  stack := ⟨4294967296 - 131072 - 16777216 - pageAlign p.stackSize, 4294967296 - 131072 - 16777216⟩
  args := ⟨4294967296 - 65536 - 16777216, 4294967296 - 65536 - 16777216 + pageAlign n⟩

theorem theRegions_prescribed (p : FProg) (n : Nat) : (theRegions p n).Prescribed p n :=
  ⟨_, _, _, _, _, pageAlign_spec _, zoneAlign_spec _, pageAlign_spec _, pageAlign_spec _, pageAlign_spec _, rfl, rfl, rfl, rfl⟩

theorem theRegions_separate {p : FProg} {n : Nat} (h : Fits p n) : (theRegions p n).Separate := by
  have := h.po; have := h.total; have := h.pa
  unfold Regions.Separate theRegions
  dsimp only
  omega

theorem new_abs (size ps zone : Nat) (hps : 0 < ps) (hd : ps ∣ size) :
    (Mem.new size ps zone).WF ∧ (∀ x, (Mem.new size ps zone).abs.byte x = 0) ∧
    (∀ x, (Mem.new size ps zone).abs.perm x = .inaccessible) ∧ (Mem.new size ps zone).data.length = size := by
  obtain ⟨k, hk⟩ := hd
  have hk' : (size + ps - 1) / ps = k := by
    apply Nat.div_eq_of_lt_le
    · rw [hk, Nat.mul_comm]; omega
    · rw [hk, Nat.add_mul, Nat.mul_comm]; omega
  have e1 : (Mem.new size ps zone).data.length = size := by
    unfold Mem.new; exact List.length_replicate
  have e2 : (Mem.new size ps zone).acc.length = k := by
    unfold Mem.new; rw [hk']; exact List.length_replicate
  refine ⟨⟨hps, ?_⟩, ?_, ?_, e1⟩
  · rw [e1, e2, hk, Nat.mul_comm]; rfl
  · intro x
    unfold Mem.abs Mem.new
    simp only [List.getD_eq_getElem?_getD, List.getElem?_replicate]
    split <;> rfl
  · intro x
    unfold Mem.abs Mem.new
    simp only [List.getD_eq_getElem?_getD, List.getElem?_replicate]
    split
    · split <;> rfl
    · rfl

/-- Building the memory: it succeeds and gives the byte map described. -/
theorem setup_ok (p : FProg) (args : List UInt8) (hf : Fits p args.length)
    (ho : p.staticData.length = p.staticSize) (hh : p.heapData.length = p.heapSize)
    (m0 : Mem) (wf0 : m0.WF) (len0 : m0.data.length = 4294967296) (ps0 : m0.pageSize = 4096) (z0 : m0.zone = 65536)
    (b0 : ∀ x, m0.abs.byte x = 0) (p0 : ∀ x, m0.abs.perm x = .inaccessible) :
    ∃ m, setupMemory m0 p args = .ok m ∧ m.WF ∧ (theRegions p args.length).Describes p args m.abs ∧
      m.data.length = 4294967296 ∧ m.pageSize = 4096 ∧ m.zone = 65536 ∧
      m.heapStart = (theRegions p args.length).heap.start ∧ m.heapEnd = (theRegions p args.length).heap.stop ∧
      m.stackStart = (theRegions p args.length).stack.start := by
  obtain ⟨f1, f2, f3⟩ := hf
  obtain ⟨do1, do2, do3⟩ := pageAlign_spec p.staticSize
  obtain ⟨dz1, dz2, dz3⟩ := zoneAlign_spec p.staticSize
  obtain ⟨dw1, dw2, dw3⟩ := pageAlign_spec p.heapSize
  obtain ⟨ds1, ds2, ds3⟩ := pageAlign_spec p.stackSize
  obtain ⟨da1, da2, da3⟩ := pageAlign_spec args.length
  have eo : u32 ZONE = 65536 := rfl
  have eoe : u32 (65536 + u32 (pageAlign p.staticSize)) = 65536 + pageAlign p.staticSize := by unfold u32; omega
  have ew : u32 (2 * ZONE + zoneAlign p.staticSize) = 131072 + zoneAlign p.staticSize := by unfold u32 ZONE; omega
  have ewe : u32 (u32 (131072 + zoneAlign p.staticSize + u32 (pageAlign p.heapSize)) + u32 (u32 p.extraPages * u32 PAGE)) =
      131072 + zoneAlign p.staticSize + pageAlign p.heapSize + p.extraPages * 4096 := by unfold u32 PAGE; omega
  have es : u32 (2 ^ 32 - 2 * ZONE - INPUT - pageAlign p.stackSize) = 4294967296 - 131072 - 16777216 - pageAlign p.stackSize := by
    unfold u32 ZONE INPUT; omega
  have ese : u32 (2 ^ 32 - 2 * ZONE - INPUT) = 4294967296 - 131072 - 16777216 := rfl
  have ea : u32 (2 ^ 32 - ZONE - INPUT) = 4294967296 - 65536 - 16777216 := rfl
  have eae : u32 (4294967296 - 65536 - 16777216 + u32 (pageAlign args.length)) =
      4294967296 - 65536 - 16777216 + pageAlign args.length := by unfold u32; omega
  unfold setupMemory theRegions
  simp only [eo, eoe, ew, ewe, es, ese, ea, eae]
  clear eo eoe ew ewe es ese ea eae
  generalize pageAlign p.staticSize = po at *
  generalize zoneAlign p.staticSize = zo at *
  generalize pageAlign p.heapSize = pw at *
  generalize pageAlign p.stackSize = ps at *
  generalize pageAlign args.length = pa at *
  -- read-only data
  obtain ⟨m1, r1, s1, b1, p1⟩ := setAddr_abs wf0 65536 (65536 + po) .readWrite (by rw [ps0]; omega) (by rw [ps0]; omega)
    (by omega) (by omega)
  rw [r1]
  obtain ⟨m2, r2, s2, b2, p2⟩ := write_abs s1.wf 65536 p.staticData (by rw [s1.zone, z0]; omega) (by
    intro x h1 h2; rw [p1, if_pos (by omega)])
  simp only [okMem, bind, Except.bind]
  rw [r2]
  obtain ⟨m3, r3, s3, b3, p3⟩ := setAddr_abs s2.wf 65536 (65536 + po) .readOnly
    (by rw [s2.ps, s1.ps, ps0]; omega) (by rw [s2.ps, s1.ps, ps0]; omega) (by omega) (by rw [s2.len, s1.len]; omega)
  simp only [okMem]
  rw [r3]
  have l3 : m3.data.length = 4294967296 := by rw [s3.len, s2.len, s1.len, len0]
  have ps3 : m3.pageSize = 4096 := by rw [s3.ps, s2.ps, s1.ps, ps0]
  have z3 : m3.zone = 65536 := by rw [s3.zone, s2.zone, s1.zone, z0]
  -- heap
  obtain ⟨m4, r4, s4, b4, p4⟩ := setAddr_abs s3.wf (131072 + zo) (131072 + zo + pw + p.extraPages * 4096) .readWrite
    (by rw [ps3]; omega) (by rw [ps3]; omega) (by omega) (by omega)
  simp only [okMem]
  rw [r4]
  obtain ⟨m5, r5, s5, b5, p5⟩ := write_abs s4.wf (131072 + zo) p.heapData (by rw [s4.zone, z3]; omega) (by
    intro x h1 h2; rw [p4, if_pos (by omega)])
  simp only [okMem]
  rw [r5]
  have l5 : m5.data.length = 4294967296 := by rw [s5.len, s4.len, l3]
  have ps5 : m5.pageSize = 4096 := by rw [s5.ps, s4.ps, ps3]
  have z5 : m5.zone = 65536 := by rw [s5.zone, s4.zone, z3]
  simp only [okMem]
  -- stack
  generalize hm6 : ({ m5 with heapStart := 131072 + zo, heapEnd := 131072 + zo + pw + p.extraPages * 4096 } : Mem) = m6
  have a6 : m6.abs = m5.abs := by rw [← hm6]; rfl
  have w6 : m6.WF := by rw [← hm6]; exact ⟨s5.wf.ps, s5.wf.len⟩
  have l6 : m6.data.length = 4294967296 := by rw [← hm6]; exact l5
  have ps6 : m6.pageSize = 4096 := by rw [← hm6]; exact ps5
  have z6 : m6.zone = 65536 := by rw [← hm6]; exact z5
  have hs6 : m6.heapStart = 131072 + zo := by rw [← hm6]
  have he6 : m6.heapEnd = 131072 + zo + pw + p.extraPages * 4096 := by rw [← hm6]
  obtain ⟨m7, r7, s7, b7, p7⟩ := setAddr_abs w6 (4294967296 - 131072 - 16777216 - ps) (4294967296 - 131072 - 16777216) .readWrite
    (by rw [ps6]; omega) (by rw [ps6]; omega) (by omega) (by omega)
  rw [r7]
  simp only [okMem]
  generalize hm8 : ({ m7 with stackStart := 4294967296 - 131072 - 16777216 - ps } : Mem) = m8
  have a8 : m8.abs = m7.abs := by rw [← hm8]; rfl
  have w8 : m8.WF := by rw [← hm8]; exact ⟨s7.wf.ps, s7.wf.len⟩
  have l8 : m8.data.length = 4294967296 := by rw [← hm8]; exact s7.len.trans l6
  have ps8 : m8.pageSize = 4096 := by rw [← hm8]; exact s7.ps.trans ps6
  have z8 : m8.zone = 65536 := by rw [← hm8]; exact s7.zone.trans z6
  have hs8 : m8.heapStart = 131072 + zo := by rw [← hm8]; exact s7.hs.trans hs6
  have he8 : m8.heapEnd = 131072 + zo + pw + p.extraPages * 4096 := by rw [← hm8]; exact s7.he.trans he6
  have ss8 : m8.stackStart = 4294967296 - 131072 - 16777216 - ps := by rw [← hm8]
  -- arguments
  obtain ⟨m9, r9, s9, b9, p9⟩ := setAddr_abs w8 (4294967296 - 65536 - 16777216) (4294967296 - 65536 - 16777216 + pa) .readWrite
    (by rw [ps8]; omega) (by rw [ps8]; omega) (by omega) (by omega)
  rw [r9]
  simp only [okMem]
  obtain ⟨m10, r10, s10, b10, p10⟩ := write_abs s9.wf (4294967296 - 65536 - 16777216) args (by rw [s9.zone, z8]; omega) (by
    intro x h1 h2; rw [p9, if_pos (by omega)])
  rw [r10]
  simp only [okMem]
  obtain ⟨m11, r11, s11, b11, p11⟩ := setAddr_abs s10.wf (4294967296 - 65536 - 16777216) (4294967296 - 65536 - 16777216 + pa) .readOnly
    (by rw [s10.ps, s9.ps, ps8]; omega) (by rw [s10.ps, s9.ps, ps8]; omega) (by omega) (by rw [s10.len, s9.len, l8]; omega)
  rw [r11]
  simp only
  clear r1 r2 r3 r4 r5 r7 r9 r10 r11
  have hperm : ∀ x, m11.abs.perm x =
      if 4294967296 - 65536 - 16777216 ≤ x ∧ x < 4294967296 - 65536 - 16777216 + pa then .readOnly
      else if 4294967296 - 131072 - 16777216 - ps ≤ x ∧ x < 4294967296 - 131072 - 16777216 then .readWrite
      else if 131072 + zo ≤ x ∧ x < 131072 + zo + pw + p.extraPages * 4096 then .readWrite
      else if 65536 ≤ x ∧ x < 65536 + po then .readOnly else .inaccessible := by
    intro x
    rw [p11, p10, p9, a8, p7, a6, p5, p4, p3, p2, p1, p0]
    repeat' split
    all_goals first | rfl | omega
  have hbyte : ∀ x, m11.abs.byte x =
      if 4294967296 - 65536 - 16777216 ≤ x ∧ x < 4294967296 - 65536 - 16777216 + args.length then
        args.getD (x - (4294967296 - 65536 - 16777216)) 0
      else if 131072 + zo ≤ x ∧ x < 131072 + zo + p.heapData.length then p.heapData.getD (x - (131072 + zo)) 0
      else if 65536 ≤ x ∧ x < 65536 + p.staticData.length then p.staticData.getD (x - 65536) 0 else 0 := by
    intro x
    rw [b11, b10, b9, a8, b7, a6, b5, b4, b3, b2, b1, b0]
  clear p11 p10 p9 a8 p7 a6 p5 p4 p3 p2 p1 p0 b11 b10 b9 b7 b5 b4 b3 b2 b1 b0
  have over : ∀ (l : List UInt8) i, l.length ≤ i → l.getD i 0 = 0 := by
    intro l i h
    rw [List.getD_eq_getElem?_getD, List.getElem?_eq_none h]; rfl
  refine ⟨m11, rfl, s11.wf, ⟨?_, ?_, ?_, ?_, ?_⟩, ?_, ?_, ?_, ?_, ?_, ?_⟩
  · intro x hx
    unfold Region.Has at hx
    simp only at hx ⊢
    rw [hperm, hbyte]
    rw [if_neg (by omega), if_neg (by omega), if_neg (by omega), if_pos (by omega), if_neg (by omega), if_neg (by omega)]
    refine ⟨rfl, ?_⟩
    split
    · rfl
    · exact (over _ _ (by omega)).symm
  · intro x hx
    unfold Region.Has at hx
    simp only at hx ⊢
    rw [hperm, hbyte]
    rw [if_neg (by omega), if_neg (by omega), if_pos (by omega), if_neg (by omega)]
    refine ⟨rfl, ?_⟩
    split
    · rfl
    · rw [if_neg (by omega)]
      exact (over _ _ (by omega)).symm
  · intro x hx
    unfold Region.Has at hx
    simp only at hx ⊢
    rw [hperm, hbyte]
    rw [if_neg (by omega), if_pos (by omega), if_neg (by omega), if_neg (by omega), if_neg (by omega)]
    exact ⟨rfl, rfl⟩
  · intro x hx
    unfold Region.Has at hx
    simp only at hx ⊢
    rw [hperm, hbyte]
    rw [if_pos (by omega)]
    refine ⟨rfl, ?_⟩
    split
    · rfl
    · rw [if_neg (by omega), if_neg (by omega)]
      exact (over _ _ (by omega)).symm
  · intro x h1 h2 h3 h4
    unfold Region.Has at h1 h2 h3 h4
    simp only at h1 h2 h3 h4
    rw [hperm, if_neg h4, if_neg h3, if_neg h2, if_neg h1]
  · rw [s11.len, s10.len, s9.len, l8]
  · rw [s11.ps, s10.ps, s9.ps, ps8]
  · rw [s11.zone, s10.zone, s9.zone, z8]
  · rw [s11.hs, s10.hs, s9.hs, hs8]
  · rw [s11.he, s10.he, s9.he, he8]
  · rw [s11.ss, s10.ss, s9.ss, ss8]

end Fastroll.Pvm
