import Verif.Refine.Props

/-!
# C51: what `pages` would do on an inner memory that exists

The code gives every inner machine a memory of no pages (`C51_no_inner_memory`).  The theorems below are
about contexts in which a machine has a proper memory, so that the rest of `host_pages` is compared with
the paper too.
-/
namespace Fastroll.Refine
open Fastroll.Pvm Fastroll.Svc
open Paper (CanRead CanWrite octets Answers)

/-- A memory of whole pages of 4096 octets whose first 16 pages are reserved. -/
structure Proper (m : Mem) : Prop where
  ps : m.pageSize = 4096
  len : m.data.length = m.acc.length * 4096
  zone : m.zone = 65536

theorem Proper.wf {m : Mem} (h : Proper m) : m.WF := ⟨by rw [h.ps]; decide, by rw [h.ps]; exact h.len⟩

/-- All pages of a range are readable exactly when all its octets are. -/
theorem readable_pages {m : Mem} (h : Proper m) (lo n : Nat) :
    allPages m.pageReadable lo n = true ↔ CanRead m.abs (lo * 4096) (n * 4096) := by
  rw [allPages_iff]
  constructor
  · intro H x h1 h2
    have hq := H (x / 4096) (by omega) (by omega)
    have hlt : x < m.data.length := by
      rw [WF.lt_iff h.wf, h.ps]
      unfold Mem.pageReadable at hq
      by_cases hc : x / 4096 < m.acc.length
      · exact hc
      · rw [List.getElem?_eq_none (by omega)] at hq; cases hq
    rw [perm_readable x hlt, h.ps]; exact hq
  · intro H q h1 h2
    have hx := H (q * 4096) (by omega) (by omega)
    by_cases hlt : q * 4096 < m.data.length
    · rw [perm_readable _ hlt, h.ps, Nat.mul_div_cancel _ (by decide)] at hx
      exact hx
    · exact absurd (perm_out _ hlt) hx

/-- A range that is not closed lies in the memory. -/
theorem range_inside {m : Mem} (h : Proper m) {lo n : Nat} (hn : 0 < n) (hr : CanRead m.abs (lo * 4096) (n * 4096)) :
    lo + n ≤ m.acc.length := by
  have hx := hr ((lo + n - 1) * 4096) (by omega) (by omega)
  by_cases hlt : (lo + n - 1) * 4096 < m.data.length
  · rw [h.len] at hlt; omega
  · exact absurd (perm_out _ hlt) hx

/-- The access types set at the end of `pages`. -/
theorem pagesAccess_spec {m : Mem} (h : Proper m) (x : RCtx) (k : Nat) (i : Inner) (lo n mode : Nat)
    (hl : n = 0 ∨ lo + n ≤ m.acc.length) :
    ∃ m', pagesAccess x k i m lo (lo + n) mode = (.ok (ret OK), x.put k (some { i with mem := m' })) ∧
      m'.abs.byte = m.abs.byte ∧
      ∀ a, m'.abs.perm a = if lo ≤ a / 4096 ∧ a / 4096 < lo + n then
        (if mode = 0 then .inaccessible else if mode = 1 ∨ mode = 3 then .readOnly else .readWrite) else m.abs.perm a := by
  obtain ⟨acc', h1, h2, h3, h4⟩ := setPagesLoop_spec m lo n (modeAccess mode)
  have hres : m.setPagesLoop lo (modeAccess mode) n = (.ok (), { m with acc := acc' }) :=
    Prod.ext (h4.mpr hl) h1
  refine ⟨{ m with acc := acc' }, ?_, rfl, fun a => ?_⟩
  · unfold pagesAccess Mem.setPageRange
    rw [show lo + n - lo = n by omega, hres]
  · have := abs_set_acc m h.wf acc' (modeAccess mode) lo (lo + n) h2 (fun p => by rw [h3 p])
    rw [this, h.ps]
    dsimp only
    by_cases hc : lo ≤ a / 4096 ∧ a / 4096 < lo + n
    · have : a < m.data.length := by
        rw [WF.lt_iff h.wf, h.ps]; omega
      rw [if_pos ⟨hc.1, hc.2, this⟩, if_pos hc]; rfl
    · rw [if_neg (fun h => hc ⟨h.1, h.2.1⟩), if_neg hc]

/-- **`pages` on a proper memory.** For every request whose end does not wrap round `2^64`: no such machine or a bad
request is answered as in the paper; so are modes 3 and 4; and modes 0 to 2 when the pages are already
writable. -/
theorem C51_pages_proper_partial (other : Nat → VM → HostResult) (env : REnv) (vm : VM) (x : RCtx) (i : Inner) (Ψ : Paper.Invocation)
    (nx : Paper.NextPos) (hg : (10 : Int) ≤ vm.gas) (hi : x.machines (VM.n vm 7) = some i) (hp : Proper i.mem)
    (hw : VM.n vm 8 + VM.n vm 9 < 2 ^ 64)
    (hm : VM.n vm 10 < 3 → CanWrite i.mem.abs (VM.n vm 8 * 4096) (VM.n vm 9 * 4096)) :
    Follows env Ψ nx vm x 11 (refineCall other env 11 vm x) := by
  show Follows env Ψ nx vm _ 11 (hostPages vm _)
  have h8 : φ vm 8 = VM.n vm 8 := rfl
  have h9 : φ vm 9 = VM.n vm 9 := rfl
  have h10 : φ vm 10 = VM.n vm 10 := rfl
  have hmach := abs_mach_some hi
  unfold hostPages
  rw [enough hg, if_neg (by decide), hi]
  dsimp only
  rw [show (VM.n vm 8 + VM.n vm 9) % U64 = VM.n vm 8 + VM.n vm 9 from Nat.mod_eq_of_lt (by unfold U64; omega)]
  by_cases c1 : VM.n vm 10 > 4 ∨ VM.n vm 8 < 16 ∨ VM.n vm 8 + VM.n vm 9 ≥ U32 / PAGE
  · rw [if_pos c1]
    exact ⟨_, _, .pagesHuh hmach (by rw [h8, h9, h10]; unfold U32 PAGE at c1; omega), rfl, rfl⟩
  rw [if_neg c1]
  have hlegal : ¬ (4 < φ vm 10 ∨ φ vm 8 < 16 ∨ 2 ^ 32 / 4096 ≤ φ vm 8 + φ vm 9) := by
    rw [h8, h9, h10]; unfold U32 PAGE at c1; omega
  have hnum : 16 ≤ VM.n vm 8 ∧ VM.n vm 8 + VM.n vm 9 < 2 ^ 20 ∧ VM.n vm 10 ≤ 4 := by
    rw [h8, h9, h10] at hlegal; omega
  rw [show VM.n vm 8 + VM.n vm 9 - VM.n vm 8 = VM.n vm 9 by omega]
  -- how the two successful branches end
  have fin : ∀ m : Mem, Proper m → m.abs.perm = i.mem.abs.perm →
      (∀ a, m.abs.byte a = if VM.n vm 10 < 3 ∧ VM.n vm 8 ≤ a / 4096 ∧ a / 4096 < VM.n vm 8 + VM.n vm 9 then 0 else i.mem.abs.byte a) →
      (VM.n vm 9 = 0 ∨ VM.n vm 8 + VM.n vm 9 ≤ m.acc.length) →
      ¬ (2 < φ vm 10 ∧ ¬ CanRead i.mem.abs (φ vm 8 * 4096) (φ vm 9 * 4096)) →
      Follows env Ψ nx vm x 11 (pagesAccess x (VM.n vm 7) i m (VM.n vm 8) (VM.n vm 8 + VM.n vm 9) (VM.n vm 10)) := by
    intro m hm' hperm hbyte hl hb
    obtain ⟨m', e1, e2, e3⟩ := pagesAccess_spec hm' x (VM.n vm 7) i (VM.n vm 8) (VM.n vm 9) (VM.n vm 10) hl
    refine ⟨_, _, .pages hmach hlegal hb, by rw [e1]; rfl, ?_⟩
    rw [e1, abs_put]
    show x.abs.put (VM.n vm 7) (some ⟨i.code, m'.abs, i.pc⟩) = x.abs.put (VM.n vm 7) (some ⟨i.code, _, i.pc⟩)
    congr 3
    apply pmem_ext
    · intro a; rw [e2, hbyte]; rfl
    · intro a; rw [e3, hperm]; rfl
  by_cases c3 : VM.n vm 10 < 3
  · rw [if_neg (fun h => by omega), if_pos c3]
    rw [show VM.n vm 9 * PAGE % U64 = VM.n vm 9 * 4096 from Nat.mod_eq_of_lt (by unfold U64 PAGE; omega)]
    rw [if_neg (by omega)]
    rw [show VM.n vm 8 * PAGE % U64 % U32 = VM.n vm 8 * 4096 by unfold U64 U32 PAGE; omega]
    have hcw := hm c3
    rcases writeBytes_spec hp.wf (VM.n vm 8 * 4096) (List.replicate (VM.n vm 9 * 4096) 0) with
      ⟨_, d, hd, hdl, hdx⟩ | ⟨hns, _⟩
    · rw [hd]
      dsimp only
      refine fin { i.mem with data := d } ⟨hp.ps, by rw [show ({ i.mem with data := d } : Mem).data.length = _ from hdl]; exact hp.len, hp.zone⟩ ?_ ?_ ?_ (by rw [h10]; omega)
      · funext a; simp only [Mem.abs, hdl]
      · intro a
        show d.getD a 0 = _
        rw [hdx a, List.length_replicate]
        by_cases hc : VM.n vm 8 ≤ a / 4096 ∧ a / 4096 < VM.n vm 8 + VM.n vm 9
        · rw [if_pos (by omega), if_pos ⟨c3, hc⟩]
          simp only [List.getD_eq_getElem?_getD, List.getElem?_replicate]
          split <;> rfl
        · rw [if_neg (by omega), if_neg (fun h => hc h.2)]; rfl
      · by_cases h0 : VM.n vm 9 = 0
        · exact .inl h0
        · refine .inr (range_inside hp (by omega) ?_)
          intro a h1 h2; rw [hcw a h1 h2]; decide
    · exfalso
      apply hns
      rw [List.length_replicate, hp.zone]
      exact .inr ⟨by omega, hcw⟩
  · by_cases c4 : allPages i.mem.pageReadable (VM.n vm 8) (VM.n vm 9) = false
    · rw [if_pos ⟨by omega, c4⟩]
      refine ⟨_, _, .pagesBare hmach hlegal ⟨by rw [h10]; omega, ?_⟩, rfl, rfl⟩
      intro hr
      exact absurd ((readable_pages hp (VM.n vm 8) (VM.n vm 9)).mpr hr) (by rw [c4]; decide)
    · rw [if_neg (fun h => c4 h.2), if_neg c3]
      have hr := (readable_pages hp _ _).mp (by simpa using c4)
      refine fin i.mem hp rfl (fun a => by rw [if_neg (fun h => c3 h.1)]) ?_ (fun h => h.2 hr)
      by_cases h0 : VM.n vm 9 = 0
      · exact .inl h0
      · exact .inr (range_inside hp (by omega) hr)

/-- A context whose machine 0 has 18 pages, of which the last two are writable. -/
def exProper : RCtx :=
  RCtx.put {} 0 (some { code := [], mem := { data := List.replicate (18 * 4096) 7, acc := List.replicate 16 .inaccessible ++ [.readWrite, .readWrite], pageSize := 4096, zone := 65536 }, pc := 0 })

/-- Page 17 is made read-only and cleared; page 16 stays as it was. -/
example : (refineCall Ex.other Ex.env 11 (Ex.vm 0 17 1 1) exProper).1 = .ok (ret OK) ∧
    ((refineCall Ex.other Ex.env 11 (Ex.vm 0 17 1 1) exProper).2.machines 0).map
      (fun i => (i.mem.acc.drop 16, i.mem.data.getD (17 * 4096) 1, i.mem.data.getD (17 * 4096 - 1) 1)) =
      some ([.readWrite, .readOnly], 0, 7) := by decide +kernel

/-- **A proper memory would not be enough.** In modes 0 to 2 the code clears the pages by an ordinary write, before it gives
access to them: a request that the paper grants is answered `HUH` whenever one octet of the pages
is not writable yet, so that a page could never be opened. -/
theorem C51_pages_closed (other : Nat → VM → HostResult) (env : REnv) (vm : VM) (x : RCtx) (i : Inner) (Ψ : Paper.Invocation)
    (nx : Paper.NextPos) (hg : (10 : Int) ≤ vm.gas) (hi : x.machines (VM.n vm 7) = some i) (hp : Proper i.mem)
    (h16 : 16 ≤ VM.n vm 8) (ht : VM.n vm 8 + VM.n vm 9 < 2 ^ 20) (hm : VM.n vm 10 < 3)
    (hc : ¬ CanWrite i.mem.abs (VM.n vm 8 * 4096) (VM.n vm 9 * 4096)) :
    (refineCall other env 11 vm x).1 = .ok (ret HUH) ∧ (refineCall other env 11 vm x).2.abs = x.abs ∧
    ∀ r c, Call env Ψ nx vm x 11 r c → r = .ret 0 none none := by
  have hmach := abs_mach_some hi
  have h8 : φ vm 8 = VM.n vm 8 := rfl
  have h9 : φ vm 9 = VM.n vm 9 := rfl
  have h10 : φ vm 10 = VM.n vm 10 := rfl
  have hrun : refineCall other env 11 vm x = (.ok (ret HUH), x.put (VM.n vm 7) (some i)) := by
    show hostPages vm x = _
    unfold hostPages
    rw [enough hg, if_neg (by decide), hi]
    dsimp only
    rw [show (VM.n vm 8 + VM.n vm 9) % U64 = VM.n vm 8 + VM.n vm 9 from Nat.mod_eq_of_lt (by unfold U64; omega)]
    rw [if_neg (by unfold U32 PAGE; omega), if_neg (by omega), if_pos hm]
    rw [show VM.n vm 9 * PAGE % U64 = VM.n vm 9 * 4096 from Nat.mod_eq_of_lt (by unfold U64 PAGE; omega)]
    rw [if_neg (by omega)]
    rw [show VM.n vm 8 * PAGE % U64 % U32 = VM.n vm 8 * 4096 by unfold U64 U32 PAGE; omega]
    rcases writeBytes_spec hp.wf (VM.n vm 8 * 4096) (List.replicate (VM.n vm 9 * 4096) 0) with
      ⟨hs, _⟩ | ⟨_, e, he⟩
    · exfalso
      rw [List.length_replicate] at hs
      rcases hs with h0 | hs
      · exact hc (fun a h1 h2 => by omega)
      · exact hc hs.2
    · rw [he]
  refine ⟨by rw [hrun], ?_, fun r c hcall => ?_⟩
  · rw [hrun, abs_put]
    show x.abs.put (VM.n vm 7) _ = _
    have : x.abs.put (VM.n vm 7) (x.abs.mach (VM.n vm 7)) = x.abs := by
      unfold Paper.Ctx.put
      have : (fun k => if k = VM.n vm 7 then x.abs.mach (VM.n vm 7) else x.abs.mach k) = x.abs.mach := by
        funext k; split
        · next h => rw [h]
        · rfl
      rw [this]
    rw [← this]
    congr 1
    exact hmach.symm
  · cases hcall with
    | pagesWho hw => rw [show φ vm 7 = VM.n vm 7 from rfl, hmach] at hw; cases hw
    | pagesHuh _ hb => exfalso; rw [h8, h9, h10] at hb; omega
    | pagesBare _ _ hb => exfalso; rw [h10] at hb; omega
    | pages _ _ _ => rfl

/-- Page 18 is past the end of this memory; page 17, once closed, cannot be opened again. -/
example : (refineCall Ex.other Ex.env 11 (Ex.vm 0 18 1 2) exProper).1 = .ok (ret HUH) ∧
    (refineCall Ex.other Ex.env 11 (Ex.vm 0 17 1 0) exProper).1 = .ok (ret OK) ∧
    (refineCall Ex.other Ex.env 11 (Ex.vm 0 17 1 2) (refineCall Ex.other Ex.env 11 (Ex.vm 0 17 1 0) exProper).2).1 = .ok (ret HUH) := by
  decide +kernel

/-- **Known numbers are told.** An inner machine asking for one of the functions 0 to 26, or 100, is told to its caller as
asking for just that one, and will go on behind the call. -/
theorem C51_host_number_told (x : RCtx) (n o w h : Nat) (i : Inner) (rs : List Reg) (p : Prog) (vm' : VM) (hw : w < 2 ^ 63)
    (hl : loadProgram i.code = .ok p) (hr : runInner p (w + 2) { regs := rs, mem := i.mem, pc := i.pc, gas := w } = (some (.ok (.hostCall h)), vm'))
    (hk : h ≤ 26 ∨ h = 100) :
    ∃ r x', invokeRun x n o i w rs = (.ok r, x') ∧ r.r7 = some (reg 3) ∧ r.r8 = some (reg h) ∧
      ∃ j, x'.machines n = some j ∧ j.code = i.code ∧ j.pc = p.nextPc vm'.pc := by
  unfold invokeRun
  rw [if_neg (by omega), hl]
  simp only []
  rw [hr]
  simp only [invokeEnd, invokeCodes, hostNumber]
  rw [if_pos hk]
  refine ⟨_, _, rfl, rfl, rfl, { i with mem := vm'.mem, pc := p.nextPc vm'.pc }, ?_, rfl, rfl⟩
  simp [RCtx.put]

/-- The machine of the example asks for 7 and goes on at 2. -/
example : (Ex.asked.2.machines 0).map (·.pc) = some 2 := Ex.asked_is.2

end Fastroll.Refine
