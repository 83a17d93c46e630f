import Verif.Pvm.StepLemmas
/-! Lemmas: one iteration of the interpreter realises the paper's step. -/
namespace Fastroll.Pvm
open Paper (oct le X imm off)

/-- The paper's view of a machine state. -/
def VM.paper (vm : VM) : Paper.State where
  reg r := (vm.r r).toNat
  mem := vm.mem.abs
  pc := vm.pc

/-- What the interpreter returns for an outcome; fault addresses count by page. -/
def Returns (ps : Nat) : Paper.Out → Option (Except VmErr Exit) → Prop
  | .cont, r => r = none
  | .halt, r => r = some (.ok .halt)
  | .panic, r => r = some (.ok .panic)
  | .fault y, r => ∃ x, r = some (.ok (.pageFault x)) ∧ x / ps = y / ps
  | .host n, r => r = some (.ok (.hostCall n))

/-- The interpreter made a step the paper allows: it charged one unit of gas, returned the outcome and
left the paper's registers and memory; and the program counter where execution is to go on. -/
def Realises (starts : Nat → Prop) (jt : List Nat) (nxt : Nat) (eff : Paper.Eff) (vm : VM)
    (r : Option (Except VmErr Exit) × VM) : Prop :=
  ∃ out s', Paper.Does starts jt vm.mem.zone nxt vm.paper eff out s' ∧ Returns vm.mem.pageSize out r.1 ∧
    r.2.gas = vm.gas - 1 ∧ r.2.paper.reg = s'.reg ∧ r.2.paper.mem = s'.mem ∧
    (out = .cont ∨ (∃ n, out = .host n) → r.2.pc = s'.pc)

/-- An outcome that changes nothing but the gas counter. -/
theorem iter_still {p : Prog} {vm : VM} {ins : Instr} {e : Exit} {c : Change} (hg : 1 ≤ vm.gas)
    (hi : p.instructionAt vm.pc = some ins) (hs : singleStep vm p ins = (.ok (e, c), vm.mem))
    (he : e.changesState = false) : iter p vm = (some (.ok e), { vm with gas := vm.gas - 1 }) := by
  unfold iter
  rw [hi]
  simp only [hs, he]
  unfold VM.apply
  have h1 : (INST_GAS.toNat : Int) = 1 := rfl
  rcases charge_spec vm INST_GAS.toNat with ⟨e', h⟩ | ⟨_, h⟩
  · exfalso
    unfold VM.charge at h
    rw [if_neg (by decide), if_neg (by rw [h1]; omega)] at h
    simp at h
  · rw [show ({ vm with mem := vm.mem } : VM) = vm from rfl, h]
    simp only [h1]
    rw [if_pos (by simp)]
    simp only []
    rw [if_neg (by omega), if_neg (by intro h; rw [h] at he; cases he)]

/-- A store. -/
theorem iter_store {p : Prog} {vm : VM} {ins : Instr} {a n : Nat} {bs : List UInt8} (hg : 1 ≤ vm.gas)
    (hi : p.instructionAt vm.pc = some ins)
    (hs : singleStep vm p ins = (.ok (.cont, { newPc := n, mem := some (a, bs) }), vm.mem)) :
    (a < vm.mem.zone → (iter p vm).1 = some (.ok .panic) ∧ (iter p vm).2 = { vm with gas := vm.gas - 1 }) ∧
    (vm.mem.zone ≤ a →
      (∀ m, vm.mem.writeBytes a bs = (.ok (), m) → iter p vm = (none, { vm with gas := vm.gas - 1, pc := n, mem := m })) ∧
      (∀ x, vm.mem.writeBytes a bs = (.error (.accessViolation x), vm.mem) →
        iter p vm = (some (.ok (.pageFault (x / vm.mem.pageSize * vm.mem.pageSize))), { vm with gas := vm.gas - 1, pc := 0 }))) := by
  have h1 : (INST_GAS.toNat : Int) = 1 := rfl
  have hc : vm.charge INST_GAS.toNat = (.ok (vm.gas - 1), { vm with gas := vm.gas - 1 }) := by
    rcases charge_spec vm INST_GAS.toNat with ⟨e', h⟩ | ⟨_, h⟩
    · exfalso
      unfold VM.charge at h
      rw [if_neg (by decide), if_neg (by rw [h1]; omega)] at h
      simp at h
    · rw [h, h1]
  have key : iter p vm = match ({ vm with mem := vm.mem } : VM).apply { newPc := n, mem := some (a, bs) } true with
      | (.forbidden, vm') => (some (.ok .panic), vm')
      | (.pageFault a, vm') => (some (.ok (.pageFault a)), { vm' with pc := 0 })
      | (.err e, vm') => (some (.error e), vm')
      | (.gas post, vm') => if post < 0 then (some (.ok .outOfGas), vm') else (none, vm') := by
    unfold iter
    rw [hi]
    simp only [hs]
    rfl
  rw [show ({ vm with mem := vm.mem } : VM) = vm from rfl] at key
  unfold VM.apply at key
  rw [hc] at key
  simp only [] at key
  rw [if_neg (by simp; omega)] at key
  constructor
  · intro hz
    rw [if_pos hz] at key
    rw [key]
    exact ⟨rfl, rfl⟩
  · intro hz
    rw [if_neg (by omega)] at key
    constructor
    · intro m hm
      rw [hm] at key
      simp only [] at key
      rw [if_neg (by omega)] at key
      exact key
    · intro x hx
      rw [hx] at key
      exact key

/-- Setting one of the thirteen registers. -/
theorem paper_set (vm vm' : VM) (r : Nat) (v : Reg) (hr : r < vm.regs.length) (h : vm'.regs = vm.regs.set r v) :
    vm'.paper.reg = Paper.put vm.paper.reg r v.toNat := by
  funext x
  unfold VM.paper Paper.put VM.r
  simp only []
  rw [h, List.getD_eq_getElem?_getD, List.getD_eq_getElem?_getD, List.getElem?_set]
  by_cases hx : x = r
  · subst hx
    rw [if_pos rfl, if_pos hr, if_pos rfl]
    rfl
  · rw [if_neg (fun e => hx e.symm), if_neg hx]

/-- Writing a register and going on. -/
theorem realises_set {p : Prog} {vm : VM} {ins : Instr} {starts : Nat → Prop} {jt : List Nat} {ok : Nat → Prop}
    {r : Nat} {v : Reg} (hg : 1 ≤ vm.gas) (hi : p.instructionAt vm.pc = some ins) (hr : r < vm.regs.length)
    (hs : singleStep vm p ins = (.ok (.cont, { newPc := p.nextPc vm.pc, reg := some (r, v) }), vm.mem))
    (hok : ok v.toNat) : Realises starts jt (p.nextPc vm.pc) (.set r ok) vm (iter p vm) := by
  rw [iter_plain hg hi hs rfl rfl]
  exact ⟨.cont, _, .set hok, rfl, rfl, paper_set vm _ r v hr rfl, rfl, fun _ => rfl⟩

theorem Cond.holds_iff (c : Cond) (a b : Reg) : c.eval a b = true ↔ Paper.holds c a.toNat b.toNat := by
  have hZa := uToI_eq 64 a.toNat (by omega) a.isLt
  have hZb := uToI_eq 64 b.toNat (by omega) b.isLt
  cases c <;> simp only [Cond.eval, Paper.holds, hZa, hZb, decide_eq_true_eq]
  · exact ⟨fun h => by rw [h], BitVec.eq_of_toNat_eq⟩
  · exact ⟨fun h e => h (BitVec.eq_of_toNat_eq e), fun h e => h (by rw [e])⟩
  all_goals exact Iff.rfl

/-- The target register of a static jump. -/
theorem target_addr {p : Prog} {t : Int} (hcode : p.code.length < 2 ^ 31) (hl : Loaded p) (h1 : -2 ^ 31 ≤ t) (h2 : t < 2 ^ 32) :
    (∀ n : Nat, t = n → addr32 (BitVec.ofInt 64 t) = n) ∧
    (bitAt p.blocks (addr32 (BitVec.ofInt 64 t)) = true → t = (addr32 (BitVec.ofInt 64 t) : Nat)) := by
  have e : ((addr32 (BitVec.ofInt 64 t) : Nat) : Int) = t % 2 ^ 32 := by
    unfold addr32
    rw [BitVec.toNat_ofInt]
    omega
  refine ⟨fun n hn => by omega, fun hb => ?_⟩
  have := ((hl.blocks _).1 hb).1
  omega

theorem off_bounds (code : List UInt8) (i n : Nat) (hn : n ≤ 4) : -2 ^ 31 ≤ off code i n ∧ off code i n < 2 ^ 31 := by
  unfold off
  split
  · omega
  · have h := Z_bounds (8 * n) (le code i n) (by omega) (le_lt _ _ _)
    have : n = 1 ∨ n = 2 ∨ n = 3 ∨ n = 4 := by omega
    rcases this with rfl | rfl | rfl | rfl <;> simp only [Nat.reduceMul, Nat.reduceSub] at h ⊢ <;> omega

/-- Writing the register of a jump. -/
def setLink (regs : List Reg) : Option (Nat × Reg) → List Reg
  | some (i, v) => regs.set i v
  | none => regs

theorem paper_link (vm vm' : VM) (lr : Option (Nat × Reg)) (l : Option (Nat × Nat))
    (hlr : l = lr.map fun x => (x.1, x.2.toNat)) (hr : ∀ x, lr = some x → x.1 < vm.regs.length)
    (hv : vm'.regs = setLink vm.regs lr) : vm'.paper.reg = Paper.link vm.paper.reg l := by
  subst hlr
  cases lr with
  | none => funext x; unfold VM.paper VM.r; simp only []; rw [hv]; rfl
  | some iv => exact paper_set vm vm' iv.1 iv.2 (hr _ rfl) hv

theorem iter_linked {p : Prog} {vm : VM} {ins : Instr} {e : Exit} {n : Nat} {lr : Option (Nat × Reg)} (hg : 1 ≤ vm.gas)
    (hi : p.instructionAt vm.pc = some ins) (hs : singleStep vm p ins = (.ok (e, { newPc := n, reg := lr }), vm.mem))
    (he : e.changesState = true) :
    iter p vm = (if e = .cont then none else some (.ok e),
      { vm with gas := vm.gas - 1, pc := n, regs := setLink vm.regs lr }) := by
  rw [iter_plain hg hi hs rfl he]
  cases lr <;> rfl

/-- A static jump. -/
theorem realises_branch {p : Prog} {vm : VM} {ins : Instr} {starts : Nat → Prop} {jt : List Nat} {c : Prop} {cb : Bool}
    {t : Int} {l : Option (Nat × Nat)} {lr : Option (Nat × Reg)} (hg : 1 ≤ vm.gas) (hi : p.instructionAt vm.pc = some ins)
    (hcode : p.code.length < 2 ^ 31) (hl : Loaded p) (h1 : -2 ^ 31 ≤ t) (h2 : t < 2 ^ 32)
    (hst : ∀ n : Nat, t = n → (bitAt p.blocks n = true ↔ starts n)) (hc : cb = true ↔ c)
    (hlr : l = lr.map fun x => (x.1, x.2.toNat)) (hr : ∀ x, lr = some x → x.1 < vm.regs.length)
    (hs : singleStep vm p ins = (.ok ((branchTo p vm.pc (addr32 (BitVec.ofInt 64 t)) cb).1,
      { newPc := (branchTo p vm.pc (addr32 (BitVec.ofInt 64 t)) cb).2, reg := lr }), vm.mem)) :
    Realises starts jt (p.nextPc vm.pc) (.branch c t l) vm (iter p vm) := by
  obtain ⟨ha, hb⟩ := target_addr hcode hl h1 h2
  have hlink : ∀ (vm' : VM), vm'.regs = setLink vm.regs lr → vm'.paper.reg = Paper.link vm.paper.reg l :=
    fun vm' => paper_link vm vm' lr l hlr hr
  cases hcb : cb with
  | false =>
    rw [hcb] at hs
    have hn : ¬ c := fun h => by rw [hc.2 h] at hcb; cases hcb
    simp only [branchTo, Bool.false_eq_true, if_false] at hs
    rw [iter_linked hg hi hs rfl]
    exact ⟨.cont, _, .notTaken hn, rfl, rfl, hlink _ rfl, rfl, fun _ => rfl⟩
  | true =>
    rw [hcb] at hs
    have hy : c := hc.1 hcb
    simp only [branchTo, if_true] at hs
    by_cases hbk : bitAt p.blocks (addr32 (BitVec.ofInt 64 t)) = true
    · rw [if_pos hbk] at hs
      rw [iter_linked hg hi hs rfl]
      exact ⟨.cont, { vm.paper with reg := Paper.link vm.paper.reg l, pc := addr32 (BitVec.ofInt 64 t) }, .taken _ hy (hb hbk) ((hst _ (hb hbk)).1 hbk), rfl, rfl, hlink _ rfl, rfl, fun _ => rfl⟩
    · rw [if_neg hbk] at hs
      rw [iter_linked hg hi hs rfl]
      refine ⟨.panic, { vm.paper with reg := Paper.link vm.paper.reg l }, .badTarget hy ?_, rfl, rfl, hlink _ rfl, rfl, fun h => ?_⟩
      · intro n hn hsn
        exact hbk (by rw [ha n hn]; exact (hst n hn).2 hsn)
      · rcases h with h | ⟨n, h⟩ <;> cases h

/-- A dynamic jump. -/
theorem realises_djump {p : Prog} {vm : VM} {ins : Instr} {starts : Nat → Prop} {a : Nat}
    {l : Option (Nat × Nat)} {lr : Option (Nat × Reg)} (hg : 1 ≤ vm.gas) (hi : p.instructionAt vm.pc = some ins)
    (hst : ∀ k n : Nat, a = 2 * (k + 1) → p.table[k]? = some n → (bitAt p.blocks n = true ↔ starts n))
    (hlr : l = lr.map fun x => (x.1, x.2.toNat)) (hr : ∀ x, lr = some x → x.1 < vm.regs.length)
    (hs : ∀ r, djump p vm.pc a = .ok r → singleStep vm p ins = (.ok (r.1, { newPc := r.2, reg := lr }), vm.mem)) :
    Realises starts p.table (p.nextPc vm.pc) (.djump a l) vm (iter p vm) := by
  have hlink : ∀ (vm' : VM), vm'.regs = setLink vm.regs lr → vm'.paper.reg = Paper.link vm.paper.reg l :=
    fun vm' => paper_link vm vm' lr l hlr hr
  by_cases hh : a = 2 ^ 32 - 2 ^ 16
  · have hs' := hs (.halt, vm.pc) (by unfold djump; rw [if_pos hh])
    rw [iter_linked hg hi hs' rfl]
    refine ⟨.halt, _, .halt hh, rfl, rfl, hlink _ rfl, rfl, fun h => ?_⟩
    rcases h with h | ⟨n, h⟩ <;> cases h
  · by_cases hb : a = 0 ∨ a > p.table.length * 2 ∨ a % 2 ≠ 0
    · have hs' := hs (.panic, vm.pc) (by unfold djump; rw [if_neg hh, if_pos hb])
      rw [iter_linked hg hi hs' rfl]
      refine ⟨.panic, _, .badJump hh ?_, rfl, rfl, hlink _ rfl, rfl, fun h => ?_⟩
      · intro k t ha hk
        exfalso
        have : k < p.table.length := (List.getElem?_eq_some_iff.1 hk).1
        omega
      · rcases h with h | ⟨n, h⟩ <;> cases h
    · obtain ⟨t, ht⟩ : ∃ t, p.table[a / 2 - 1]? = some t :=
        ⟨p.table[a / 2 - 1]'(by omega), List.getElem?_eq_getElem (by omega)⟩
      have ha : a = 2 * (a / 2 - 1 + 1) := by omega
      have hd : djump p vm.pc a = if bitAt p.blocks t then .ok (.cont, t) else .ok (.panic, vm.pc) := by
        unfold djump
        rw [if_neg hh, if_neg hb, ht]
      by_cases hbk : bitAt p.blocks t = true
      · rw [if_pos hbk] at hd
        rw [iter_linked hg hi (hs _ hd) rfl]
        exact ⟨.cont, _, .djump hh _ t ha ht ((hst _ t ha ht).1 hbk), rfl, rfl, hlink _ rfl, rfl, fun _ => rfl⟩
      · rw [if_neg hbk] at hd
        rw [iter_linked hg hi (hs _ hd) rfl]
        refine ⟨.panic, _, .badJump hh ?_, rfl, rfl, hlink _ rfl, rfl, fun h => ?_⟩
        · intro k t' hk ht' hst'
          have : k = a / 2 - 1 := by omega
          subst this
          rw [ht] at ht'
          cases ht'
          exact hbk ((hst _ t ha ht).2 hst')
        · rcases h with h | ⟨n, h⟩ <;> cases h

theorem storeBytes_getD (w : Nat) (v : Reg) (k : Nat) (h : k < w) :
    (storeBytes w v).getD k 0 = UInt8.ofNat (v.toNat / 256 ^ k % 256) := by
  unfold storeBytes Codec.leBytes
  rw [List.getD_eq_getElem?_getD, List.getElem?_map, List.getElem?_range h]
  show UInt8.ofNat (v.toNat >>> (8 * k) &&& (2 ^ 8 - 1)) = _
  rw [Nat.and_two_pow_sub_one_eq_mod, Nat.shiftRight_eq_div_pow, Nat.pow_mul]

theorem storeBytes_length (w : Nat) (v : Reg) : (storeBytes w v).length = w := by simp [storeBytes, Codec.leBytes]

/-- A store inside memory. -/
theorem realises_store {p : Prog} {vm : VM} {ins : Instr} {starts : Nat → Prop} {jt : List Nat} {a w v : Nat} {vr : Reg}
    (hg : 1 ≤ vm.gas) (hwf : vm.mem.WF) (hi : p.instructionAt vm.pc = some ins) (hw : 0 < w)
    (hsz : a % 2 ^ 32 + w ≤ vm.mem.data.length) (hv : vr.toNat = v)
    (hs : singleStep vm p ins = (.ok (.cont, { newPc := p.nextPc vm.pc, mem := some (a % 2 ^ 32, storeBytes w vr) }), vm.mem)) :
    Realises starts jt (p.nextPc vm.pc) (.store a w v) vm (iter p vm) := by
  obtain ⟨hf, hn⟩ := iter_store hg hi hs
  by_cases hz : a % 2 ^ 32 < vm.mem.zone
  · obtain ⟨h1, h2⟩ := hf hz
    refine ⟨.panic, _, .storeZone hz, h1, by rw [h2], by rw [h2]; rfl, by rw [h2]; rfl, fun h => ?_⟩
    rcases h with h | ⟨n, h⟩ <;> cases h
  · obtain ⟨hok, hbad⟩ := hn (by omega)
    have hlen := storeBytes_length w vr
    rcases writeBytes_spec hwf (a % 2 ^ 32) (storeBytes w vr) with ⟨hst, dd, hd, hdl, hdx⟩ | ⟨hst, e, he⟩
    · rw [hok _ hd]
      rw [hlen] at hst
      have hperm := hst.resolve_left (by omega)
      refine ⟨.cont, _, .store (by omega) hperm.2, rfl, rfl, rfl, ?_, fun _ => rfl⟩
      apply pmem_ext
      · intro x
        unfold VM.paper Mem.abs
        simp only []
        rw [hdx x, hlen]
        by_cases hx : a % 2 ^ 32 ≤ x ∧ x < a % 2 ^ 32 + w
        · rw [if_pos hx, if_pos hx, storeBytes_getD _ _ _ (by omega), hv]
        · rw [if_neg hx, if_neg hx]
      · intro x
        unfold VM.paper Mem.abs
        simp only [hdl]
    · rw [hlen] at hst
      -- the failure is an access violation
      have hv' : ∃ x, vm.mem.validate vm.mem.pageWritable (a % 2 ^ 32) w = .error (.accessViolation x) := by
        cases hval : vm.mem.validate vm.mem.pageWritable (a % 2 ^ 32) w with
        | ok u => exact absurd ((validate_write hwf _ _ hw).1 hval) hst
        | error er =>
          unfold Mem.validate at hval
          rw [if_neg hz] at hval
          simp only [] at hval
          rw [if_neg (by omega)] at hval
          split at hval
          · cases hval; exact ⟨_, rfl⟩
          · cases hval
      obtain ⟨x, hx⟩ := hv'
      have hwb : vm.mem.writeBytes (a % 2 ^ 32) (storeBytes w vr) = (.error (.accessViolation x), vm.mem) := by
        unfold Mem.writeBytes
        rw [hlen, if_neg (by omega), hx]
      obtain ⟨_, y, h1, h2, h3, h4, h5⟩ := validate_fault hwf _ _ _ _ hw hx
      rw [hbad x hwb]
      refine ⟨.fault y, _, .storeFault (by omega) ⟨h1, h2, ?_, ?_⟩, ⟨_, rfl, ?_⟩, rfl, rfl, rfl, fun h => ?_⟩
      · intro hp
        rw [(perm_writable y (by omega)).mp hp] at h3
        cases h3
      · intro z hz1 hz2
        exact (perm_writable z (by omega)).mpr (h5 z hz1 hz2)
      · rw [Nat.mul_div_cancel _ hwf.ps, h4, Nat.mul_div_cancel _ hwf.ps]
      · rcases h with h | ⟨n, h⟩ <;> cases h

/-- The number in a list of octets read from memory. -/
theorem fromLE_word (m : PMem) (a : Nat) : ∀ w, fromLE ((List.range w).map fun i => m.byte (a + i)) = Paper.word m a w := by
  intro w
  unfold fromLE Paper.word
  rw [foldr_leValue]
  induction w generalizing a with
  | zero => rfl
  | succ w ih =>
    rw [List.range_succ_eq_map, List.map_cons, List.map_cons, List.map_map, List.map_map, List.sum_cons, leValue]
    have e1 : (List.range w).map ((fun i => m.byte (a + i)) ∘ Nat.succ) = (List.range w).map fun i => m.byte (a + 1 + i) := by
      apply List.map_congr_left
      intro k _
      simp only [Function.comp]
      rw [show a + Nat.succ k = a + 1 + k by omega]
    rw [e1, ih (a + 1)]
    simp only [Nat.add_zero, Nat.pow_zero, Nat.mul_one]
    congr 1
    have : ∀ (l : List Nat), 256 * (l.map fun k => (m.byte (a + 1 + k)).toNat * 256 ^ k).sum =
        (l.map ((fun k => (m.byte (a + k)).toNat * 256 ^ k) ∘ Nat.succ)).sum := by
      intro l
      induction l with
      | nil => rfl
      | cons b l ih =>
        simp only [List.map_cons, List.sum_cons, ← ih, Function.comp]
        rw [show a + Nat.succ b = a + 1 + b by omega, Nat.pow_succ, Nat.mul_add]
        congr 1
        rw [← Nat.mul_assoc, Nat.mul_comm, Nat.mul_comm _ (256 ^ b * 256), Nat.mul_assoc]
    exact this _

theorem word_lt (m : PMem) (a w : Nat) : Paper.word m a w < 2 ^ (8 * w) := by
  rw [← fromLE_word]
  unfold fromLE
  rw [foldr_leValue]
  have := leValue_lt ((List.range w).map fun i => m.byte (a + i))
  simpa using this

/-- What `loadRaw` returns inside memory. -/
theorem loadRaw_spec {m : Mem} (hwf : m.WF) (a : Nat) (k : LoadK) (hz : m.zone ≤ a) (hsz : a + k.size ≤ m.data.length) :
    (loadRaw m a k = .ok (Paper.word m.abs a k.size) ∧ ∀ x, a ≤ x → x < a + k.size → m.abs.perm x ≠ .inaccessible) ∨
    (∃ x y, loadRaw m a k = .error (.accessViolation x) ∧ x / m.pageSize = y / m.pageSize ∧
      Paper.FirstWithout (fun x => m.abs.perm x ≠ .inaccessible) a k.size y) := by
  unfold loadRaw
  by_cases h1 : k.size = 1
  · rw [if_pos h1, h1]
    have hp := perm_readable (m := m) a (by omega)
    unfold Mem.readByte Mem.page
    rw [if_neg (by omega), if_neg (by omega)]
    by_cases hr : m.pageReadable (a / m.pageSize) = true
    · rw [if_pos hr]
      left
      refine ⟨?_, fun x hx1 hx2 => ?_⟩
      · show Except.ok (m.data.getD a 0).toNat = _
        simp [Paper.word, Mem.abs]
      · have : x = a := by omega
        rw [this]; exact hp.mpr hr
    · rw [if_neg hr]
      right
      exact ⟨a, a, rfl, rfl, Nat.le_refl _, by omega, fun h => hr (hp.mp h), fun z h1 h2 => by omega⟩
  · rw [if_neg h1]
    have hpos : 0 < k.size := by cases k <;> decide
    rcases readBytes_spec hwf a k.size with ⟨hl, hr⟩ | ⟨hl, e, he⟩
    · left
      rw [hr]
      exact ⟨congrArg Except.ok (fromLE_word m.abs a k.size), (hl.resolve_left (by omega)).2⟩
    · right
      have hv' : ∃ x, m.validate m.pageReadable a k.size = .error (.accessViolation x) := by
        cases hval : m.validate m.pageReadable a k.size with
        | ok u => exact absurd ((validate_read hwf _ _ hpos).1 hval) hl
        | error er =>
          unfold Mem.validate at hval
          rw [if_neg (by omega)] at hval
          simp only [] at hval
          rw [if_neg (by omega)] at hval
          split at hval
          · cases hval; exact ⟨_, rfl⟩
          · cases hval
      obtain ⟨x, hx⟩ := hv'
      obtain ⟨_, y, g1, g2, g3, g4, g5⟩ := validate_fault hwf _ _ _ _ hpos hx
      refine ⟨x, y, ?_, ?_, g1, g2, ?_, ?_⟩
      · unfold Mem.readBytes
        rw [if_neg (by omega), hx]
        rfl
      · rw [g4, Nat.mul_div_cancel _ hwf.ps]
      · intro hp
        rw [(perm_readable y (by omega)).mp hp] at g3
        cases g3
      · intro z hz1 hz2
        exact (perm_readable z (by omega)).mpr (g5 z hz1 hz2)

theorem loadRaw_zone {m : Mem} (a : Nat) (k : LoadK) (hz : a < m.zone) : loadRaw m a k = .error (.forbidden a) := by
  unfold loadRaw
  by_cases h1 : k.size = 1
  · rw [if_pos h1]
    unfold Mem.readByte
    rw [if_pos hz]
    rfl
  · rw [if_neg h1]
    unfold Mem.readBytes Mem.validate
    rw [if_neg (by cases k <;> decide), if_pos hz]
    rfl

/-- A load inside memory. -/
theorem realises_load {p : Prog} {vm : VM} {ins : Instr} {starts : Nat → Prop} {jt : List Nat} {a r : Nat} {k : LoadK}
    {f : Nat → Reg} (hg : 1 ≤ vm.gas) (hwf : vm.mem.WF) (hi : p.instructionAt vm.pc = some ins) (hr : r < vm.regs.length)
    (hsz : a % 2 ^ 32 + k.size ≤ vm.mem.data.length)
    (hf : ∀ x, x < 2 ^ (8 * k.size) → (f x).toNat = if k.signed = true then X k.size x else x)
    (hs : singleStep vm p ins = (loadStep vm p (a % 2 ^ 32) k r f, vm.mem)) :
    Realises starts jt (p.nextPc vm.pc) (.load r a k.size k.signed) vm (iter p vm) := by
  unfold loadStep at hs
  by_cases hz : a % 2 ^ 32 < vm.mem.zone
  · rw [loadRaw_zone _ k hz] at hs
    rw [iter_plain hg hi hs rfl rfl]
    refine ⟨.panic, _, .loadZone hz, rfl, rfl, rfl, rfl, fun h => ?_⟩
    rcases h with h | ⟨n, h⟩ <;> cases h
  · rcases loadRaw_spec hwf (a % 2 ^ 32) k (by omega) hsz with ⟨he, hp⟩ | ⟨x, y, he, hxy, hfw⟩
    · rw [he] at hs
      rw [iter_plain hg hi hs rfl rfl]
      refine ⟨.cont, _, .load (by omega) hp, rfl, rfl, ?_, rfl, fun _ => rfl⟩
      rw [paper_set vm _ r _ hr rfl, hf _ (word_lt _ _ _)]
      rfl
    · rw [he] at hs
      rw [iter_still hg hi hs rfl]
      refine ⟨.fault y, _, .loadFault (by omega) hfw, ⟨x, rfl, hxy⟩, rfl, rfl, rfl, fun h => ?_⟩
      rcases h with h | ⟨n, h⟩ <;> cases h

theorem value_X (k : LoadK) (x : Nat) (hx : x < 2 ^ (8 * k.size)) :
    (k.value x).toNat = if k.signed = true then X k.size x else x := by
  cases k <;> simp only [LoadK.value, LoadK.signed, LoadK.size, Bool.false_eq_true, if_false, if_true] at hx ⊢
  all_goals first
    | exact sext_X _ _ (by omega) hx
    | (rw [BitVec.toNat_ofNat]; exact Nat.mod_eq_of_lt (by simp only [Nat.reduceMul] at hx; omega))

theorem valueInd_X (k : LoadK) (x : Nat) (hx : x < 2 ^ (8 * k.size)) :
    (k.valueInd x).toNat = if k.signed = true then X k.size x else x := by
  cases k <;> simp only [LoadK.valueInd, LoadK.signed, LoadK.size, Bool.false_eq_true, if_false, if_true] at hx ⊢
  case u8 | u16 | u32 | u64 => rw [BitVec.toNat_ofNat]; exact Nat.mod_eq_of_lt (by simp only [Nat.reduceMul] at hx; omega)
  all_goals
    have hb := Z_bounds _ x (by omega) hx
    simp only [Nat.reduceMul, Nat.reduceSub] at hb hx ⊢
    rw [uToI_eq _ x (by omega) hx, i64ToU64_toNat _ (by omega)]
    unfold Zinv Z X
    simp only [Nat.reduceMul, Nat.reduceSub, Nat.reduceEqDiff, if_false] at hx ⊢
    split <;> omega

end Fastroll.Pvm
