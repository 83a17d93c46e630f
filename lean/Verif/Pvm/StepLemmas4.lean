import Verif.Pvm.StepLemmas3
/-! Lemmas: the paper's step has one outcome; what a step keeps. -/
namespace Fastroll.Pvm
open Paper (oct le X imm off)

theorem two_pow_between {a r s w : Nat} (hs : s ≤ w + 1) (h1 : a < 2 ^ (w + 1 - s)) (h2 : 2 ^ (w - r) ≤ a) : ¬ r < s := by
  intro h
  have : 2 ^ (w + 1 - s) ≤ 2 ^ (w - r) := Nat.pow_le_pow_right (by decide) (by omega)
  omega

theorem dvd_between {a r s : Nat} (h1 : 2 ^ s ∣ a) (h2 : ¬ 2 ^ (r + 1) ∣ a) : ¬ r < s := fun h =>
  h2 (Nat.dvd_trans (Nat.pow_dvd_pow 2 (by omega)) h1)

theorem digits_unique : ∀ n x y, x < 256 ^ n → y < 256 ^ n → (∀ i, i < n → x / 256 ^ i % 256 = y / 256 ^ i % 256) → x = y := by
  intro n
  induction n with
  | zero => intro x y hx hy _; simp at hx hy; omega
  | succ n ih =>
    intro x y hx hy h
    rw [Nat.pow_succ] at hx hy
    have h0 := h 0 (by omega)
    simp only [Nat.pow_zero, Nat.div_one] at h0
    have hd : x / 256 = y / 256 := by
      apply ih
      · exact Nat.div_lt_of_lt_mul (by rw [Nat.mul_comm]; exact hx)
      · exact Nat.div_lt_of_lt_mul (by rw [Nat.mul_comm]; exact hy)
      · intro i hi
        have := h (i + 1) (by omega)
        rw [Nat.pow_succ, Nat.mul_comm (256 ^ i), ← Nat.div_div_eq_div_mul, ← Nat.div_div_eq_div_mul] at this
        exact this
    omega

/-- Each two-register instruction has one result. -/
theorem Op2.Spec_unique (o : Op2) (a r s : Nat) (h1 : o.Spec a r) (h2 : o.Spec a s) : r = s := by
  cases o <;> simp only [Op2.Spec] at h1 h2
  case leadingZeroBits64 =>
    rcases Nat.lt_trichotomy r s with h | h | h
    · exact absurd h (two_pow_between (w := 63) h2.1 h2.2.1 (h1.2.2 (by omega)))
    · exact h
    · exact absurd h (two_pow_between (w := 63) h1.1 h1.2.1 (h2.2.2 (by omega)))
  case leadingZeroBits32 =>
    rcases Nat.lt_trichotomy r s with h | h | h
    · exact absurd h (two_pow_between (w := 31) h2.1 h2.2.1 (h1.2.2 (by omega)))
    · exact h
    · exact absurd h (two_pow_between (w := 31) h1.1 h1.2.1 (h2.2.2 (by omega)))
  case trailingZeroBits64 =>
    rcases Nat.lt_trichotomy r s with h | h | h
    · exact absurd h (dvd_between h2.2.1 (h1.2.2 (by omega)))
    · exact h
    · exact absurd h (dvd_between h1.2.1 (h2.2.2 (by omega)))
  case trailingZeroBits32 =>
    rcases Nat.lt_trichotomy r s with h | h | h
    · exact absurd h (dvd_between h2.2.1 (h1.2.2 (by omega)))
    · exact h
    · exact absurd h (dvd_between h1.2.1 (h2.2.2 (by omega)))
  case reverseBytes =>
    exact digits_unique 8 r s h1.1 h2.1 (fun i hi => by rw [h1.2 i hi, h2.2 i hi])
  all_goals rw [h1, h2]

theorem firstWithout_unique {ok : Nat → Prop} {a w y z : Nat} (h1 : Paper.FirstWithout ok a w y)
    (h2 : Paper.FirstWithout ok a w z) : y = z := by
  rcases Nat.lt_trichotomy y z with h | h | h
  · exact absurd (h2.first y h1.lo h) h1.bad
  · exact h
  · exact absurd (h1.first z h2.lo h) h2.bad

theorem does_unique {starts : Nat → Prop} {jt : List Nat} {zone nxt : Nat} {s s1 s2 : Paper.State} {eff : Paper.Eff}
    {o1 o2 : Paper.Out} (hset : ∀ r ok, eff = .set r ok → ∀ v w, ok v → ok w → v = w)
    (h1 : Paper.Does starts jt zone nxt s eff o1 s1) (h2 : Paper.Does starts jt zone nxt s eff o2 s2) :
    o1 = o2 ∧ s1 = s2 := by
  cases h1 <;> cases h2 <;> try exact ⟨rfl, rfl⟩
  case set.set h v k => rw [hset _ _ rfl _ _ h k]; exact ⟨rfl, rfl⟩
  all_goals try (exfalso; omega)
  all_goals try contradiction
  case loadFault.loadFault => rename_i h _ _ k; rw [firstWithout_unique h k]; exact ⟨rfl, rfl⟩
  case loadFault.load => rename_i h _ k; exact absurd (k _ h.lo h.hi) h.bad
  case load.loadFault => rename_i k _ _ h; exact absurd (k _ h.lo h.hi) h.bad
  case storeFault.storeFault => rename_i h _ _ k; rw [firstWithout_unique h k]; exact ⟨rfl, rfl⟩
  case storeFault.store => rename_i h _ k; exact absurd (k _ h.lo h.hi) h.bad
  case store.storeFault => rename_i k _ _ h; exact absurd (k _ h.lo h.hi) h.bad
  case taken.taken =>
    rename_i n _ h _ m _ _ k
    have : n = m := by omega
    rw [this]; exact ⟨rfl, rfl⟩
  case taken.badTarget => rename_i h hs _ k; exact absurd hs (k _ h)
  case badTarget.taken => rename_i k _ hs _ h; exact absurd hs (k _ h)
  case djump.djump =>
    rename_i k t hk hs _ m u ha ht hu hm
    have : k = m := by omega
    subst this
    rw [hs] at ha
    cases ha
    exact ⟨rfl, rfl⟩
  case djump.badJump => rename_i ha hk hs _ h; exact absurd hs (h _ _ ha hk)
  case badJump.djump => rename_i h _ _ hk hs _ ha; exact absurd hs (h _ _ ha hk)

/-- Every effect of an instruction that sets a register determines the number. -/
theorem effect_set_unique (code : List UInt8) (i d : Nat) (φ : Nat → Nat) (r : Nat) (ok : Nat → Prop)
    (h : Paper.effect code i d φ = .set r ok) (v w : Nat) (h1 : ok v) (h2 : ok w) : v = w := by
  unfold Paper.effect at h
  cases hk : Paper.inst (oct code i) <;> rw [hk] at h <;> simp only [] at h <;> cases h
  case two => exact Op2.Spec_unique _ _ _ _ h1 h2
  all_goals rw [h1, h2]

/-! ### What a step keeps -/

theorem writeBytes_wf {m m' : Mem} {a : Nat} {bs : List UInt8} (h : m.WF) (hw : m.writeBytes a bs = (.ok (), m')) :
    m'.WF ∧ m'.data.length = m.data.length ∧ m'.zone = m.zone ∧ m'.pageSize = m.pageSize := by
  rcases writeBytes_spec h a bs with ⟨_, d, hd, hl, _⟩ | ⟨_, e, he⟩
  · rw [hd] at hw
    injection hw with _ hw
    subst hw
    exact ⟨⟨h.ps, by show d.length = _; rw [hl]; exact h.len⟩, hl, rfl, rfl⟩
  · rw [he] at hw
    injection hw with hw _
    cases hw

theorem singleStep_mem {vm : VM} {p : Prog} {ins : Instr} (h : ins.op ≠ .sbrk) : (singleStep vm p ins).2 = vm.mem := by
  unfold singleStep
  cases hk : ins.op <;> simp only []
  exact absurd hk h

/-- A step other than heap growth that lets the program go on keeps the number of registers and the
shape of memory. -/
theorem iter_keeps {p : Prog} {vm vm' : VM} {ins : Instr} (hwf : vm.mem.WF) (hi : p.instructionAt vm.pc = some ins)
    (hop : ins.op ≠ .sbrk) (h : iter p vm = (none, vm')) :
    vm'.regs.length = vm.regs.length ∧ vm'.mem.WF ∧ vm'.mem.data.length = vm.mem.data.length ∧
      vm'.mem.zone = vm.mem.zone ∧ vm'.mem.pageSize = vm.mem.pageSize := by
  unfold iter at h
  rw [hi] at h
  simp only [] at h
  have hm := singleStep_mem (vm := vm) (p := p) hop
  rcases hs : singleStep vm p ins with ⟨r, m⟩
  rw [hs] at hm h
  simp only [] at hm
  subst hm
  cases r with
  | error e => cases h
  | ok ec =>
    obtain ⟨e, c⟩ := ec
    simp only [] at h
    rcases ha : VM.apply { vm with mem := vm.mem } c e.changesState with ⟨a, vm2⟩
    rw [ha] at h
    have key : vm2.regs.length = vm.regs.length ∧ vm2.mem.WF ∧ vm2.mem.data.length = vm.mem.data.length ∧
        vm2.mem.zone = vm.mem.zone ∧ vm2.mem.pageSize = vm.mem.pageSize := by
      rw [show ({ vm with mem := vm.mem } : VM) = vm from rfl] at ha
      unfold VM.apply at ha
      rcases charge_spec vm INST_GAS.toNat with ⟨e', h'⟩ | ⟨_, h'⟩
      · rw [h'] at ha
        injection ha with _ ha
        subst ha
        exact ⟨rfl, hwf, rfl, rfl, rfl⟩
      · rw [h'] at ha
        simp only [] at ha
        split at ha
        · injection ha with _ ha
          subst ha
          exact ⟨rfl, hwf, rfl, rfl, rfl⟩
        · cases hcm : c.mem with
          | none =>
            rw [hcm] at ha
            simp only [] at ha
            cases hcr : c.reg with
            | none => rw [hcr] at ha; injection ha with _ ha; subst ha; exact ⟨rfl, hwf, rfl, rfl, rfl⟩
            | some iv =>
              rw [hcr] at ha; injection ha with _ ha; subst ha
              exact ⟨List.length_set .., hwf, rfl, rfl, rfl⟩
          | some w =>
            obtain ⟨off, bytes⟩ := w
            rw [hcm] at ha
            simp only [] at ha
            split at ha
            · injection ha with _ ha
              subst ha
              exact ⟨rfl, hwf, rfl, rfl, rfl⟩
            · rcases hwb : vm.mem.writeBytes off bytes with ⟨r, m⟩
              rw [hwb] at ha
              have hmm : m.WF ∧ m.data.length = vm.mem.data.length ∧ m.zone = vm.mem.zone ∧ m.pageSize = vm.mem.pageSize := by
                cases r with
                | ok u => exact writeBytes_wf hwf hwb
                | error er =>
                  rcases writeBytes_spec hwf off bytes with ⟨_, d, hd, _⟩ | ⟨_, e, he⟩
                  · rw [hwb] at hd; injection hd with hd _; cases hd
                  · rw [hwb] at he; injection he with _ he; subst he; exact ⟨hwf, rfl, rfl, rfl⟩
              cases r with
              | ok u =>
                simp only [] at ha
                cases hcr : c.reg with
                | none => rw [hcr] at ha; injection ha with _ ha; subst ha; exact ⟨rfl, hmm⟩
                | some iv => rw [hcr] at ha; injection ha with _ ha; subst ha; exact ⟨List.length_set .., hmm⟩
              | error er =>
                cases er <;> (injection ha with _ ha; subst ha; exact ⟨rfl, hmm⟩)
    cases a with
    | forbidden => cases h
    | pageFault x => cases h
    | err e => cases h
    | gas post =>
      simp only [] at h
      split at h
      · cases h
      · split at h
        · injection h with _ h
          subst h
          exact key
        · cases h

/-- The instruction at a start, its number and its operands. -/
theorem decoded_fits {p : Prog} (hl : Loaded p) {i d : Nat} (hs : StartsAt p.mask i) (hd : IsSkip p.mask p.code.length i d) :
    ∃ ins, p.instructionAt i = some ins ∧ Paper.inst (oct p.code i) = ins.op.paper ∧ Operands p.code i d ins := by
  obtain ⟨ins, hi⟩ := hl.start _ hs
  obtain ⟨_, b, hb, hop⟩ := hl.inst _ _ hi
  refine ⟨ins, hi, ?_, fromBlob_fits hd.inside (hl.decode _ _ _ hi hd)⟩
  have hoct : oct p.code i = b.toNat := by
    unfold oct
    rw [List.getD_eq_getElem?_getD, hb]
    rfl
  rw [hoct, inst_ofByte, hop]

/-- Stores store something. -/
def storeWidth : Paper.Inst → Nat
  | .storeImm w | .store w | .storeImmInd w | .storeInd w => w
  | _ => 1

theorem inst_width : ∀ c : Fin 256, 1 ≤ storeWidth (Paper.inst c.1) := by decide +kernel

/-- What a load or store asks the executor for. -/
theorem step_access {p : Prog} {vm : VM} {ins : Instr} {d : Nat} (hinst : Paper.inst (oct p.code vm.pc) = ins.op.paper)
    (hfit : Operands p.code vm.pc d ins) :
    (∀ r a w sg, Paper.effect p.code vm.pc d vm.paper.reg = .load r a w sg →
      ∃ k f, k.size = w ∧ singleStep vm p ins = (loadStep vm p (a % 2 ^ 32) k r f, vm.mem)) ∧
    (∀ a w v, Paper.effect p.code vm.pc d vm.paper.reg = .store a w v →
      1 ≤ w ∧ ∃ u, singleStep vm p ins = (.ok (.cont, { newPc := p.nextPc vm.pc, mem := some (a % 2 ^ 32, storeBytes w u) }), vm.mem)) := by
  unfold Paper.effect
  rw [hinst]
  unfold Operands at hfit
  constructor
  · intro r a w sg he
    cases hk : ins.op <;> rw [hk] at he hfit <;> simp only [Op.paper, Op.layout] at he hfit <;> cases he
    case left.load.refl k =>
      refine ⟨k, k.value, rfl, ?_⟩
      have hss : singleStep vm p ins = (loadStep vm p (ins.imm1.toNat % 2 ^ 32) k ins.rs1 k.value, vm.mem) := by
        unfold singleStep; rw [hk]; rfl
      rw [hss, hfit.1, hfit.2]
    case left.loadInd.refl k =>
      refine ⟨k, k.valueInd, rfl, ?_⟩
      have hss : singleStep vm p ins = (loadStep vm p (addr32 (vm.r ins.rs2 + ins.imm1)) k ins.rs1 k.valueInd, vm.mem) := by
        unfold singleStep; rw [hk]
      rw [addr32_add, hfit.1, hfit.2.1, hfit.2.2] at hss
      exact hss
  · intro a w v he
    have hw := inst_width ⟨oct p.code vm.pc, (p.code.getD vm.pc 0).toNat_lt⟩
    simp only [hinst] at hw
    cases hk : ins.op <;> rw [hk] at he hfit hw <;> simp only [Op.paper, Op.layout, storeWidth] at he hfit hw <;> cases he
    case right.storeImm.refl =>
      have hss : singleStep vm p ins = (.ok (.cont, { newPc := p.nextPc vm.pc, mem := some (ins.imm1.toNat % 2 ^ 32, storeBytes w ins.imm2) }), vm.mem) := by
        unfold singleStep; rw [hk]; rfl
      rw [hfit.1] at hss
      exact ⟨hw, _, hss⟩
    case right.store.refl =>
      have hss : singleStep vm p ins = (.ok (.cont, { newPc := p.nextPc vm.pc, mem := some (ins.imm1.toNat % 2 ^ 32, storeBytes w (vm.r ins.rs1)) }), vm.mem) := by
        unfold singleStep; rw [hk]; rfl
      rw [hfit.2] at hss
      exact ⟨hw, _, hss⟩
    case right.storeImmInd.refl =>
      have hss : singleStep vm p ins = (.ok (.cont, { newPc := p.nextPc vm.pc, mem := some (addr32 (vm.r ins.rs1 + ins.imm1), storeBytes w ins.imm2) }), vm.mem) := by
        unfold singleStep; rw [hk]
      rw [addr32_add, hfit.1, hfit.2.1] at hss
      exact ⟨hw, _, hss⟩
    case right.storeInd.refl =>
      have hss : singleStep vm p ins = (.ok (.cont, { newPc := p.nextPc vm.pc, mem := some (addr32 (vm.r ins.rs2 + ins.imm1), storeBytes w (vm.r ins.rs1)) }), vm.mem) := by
        unfold singleStep; rw [hk]
      rw [addr32_add, hfit.2.1, hfit.2.2] at hss
      exact ⟨hw, _, hss⟩

theorem loadRaw_end {m : Mem} (a : Nat) (k : LoadK) (hz : m.zone ≤ a) (hend : m.data.length < a + k.size) :
    loadRaw m a k = .error (.outOfRange a) := by
  unfold loadRaw
  split
  · rename_i h1
    unfold Mem.readByte
    rw [if_neg (by omega), if_pos (by omega)]
    rfl
  · have hk : k.size ≠ 0 := by cases k <;> decide
    unfold Mem.readBytes Mem.validate
    rw [if_neg hk, if_neg (by omega)]
    simp only []
    rw [if_pos (by omega)]
    rfl

theorem charge_one {vm : VM} (hg : 1 ≤ vm.gas) : vm.charge INST_GAS.toNat = (.ok (vm.gas - 1), { vm with gas := vm.gas - 1 }) := by
  have h1 : (INST_GAS.toNat : Int) = 1 := rfl
  rcases charge_spec vm INST_GAS.toNat with ⟨e', h⟩ | ⟨_, h⟩
  · exfalso
    unfold VM.charge at h
    rw [if_neg (by decide), if_neg (by rw [h1]; omega)] at h
    simp at h
  · rw [h, h1]

theorem iter_store_end {p : Prog} {vm : VM} {ins : Instr} {a n : Nat} {bs : List UInt8} (hg : 1 ≤ vm.gas)
    (hi : p.instructionAt vm.pc = some ins)
    (hs : singleStep vm p ins = (.ok (.cont, { newPc := n, mem := some (a, bs) }), vm.mem)) (hb : 1 ≤ bs.length)
    (hz : vm.mem.zone ≤ a) (hend : vm.mem.data.length < a + bs.length) :
    (iter p vm).1 = some (.error (.mem (.outOfRange a))) := by
  have hw : vm.mem.writeBytes a bs = (.error (.outOfRange a), vm.mem) := by
    unfold Mem.writeBytes Mem.validate
    rw [if_neg (by omega), if_neg (by omega)]
    simp only []
    rw [if_pos (by omega)]
  unfold iter
  rw [hi]
  simp only [hs]
  rw [show ({ vm with mem := vm.mem } : VM) = vm from rfl]
  unfold VM.apply
  rw [charge_one hg]
  simp only []
  rw [if_neg (by simp [Exit.changesState]; omega), if_neg (by omega), hw]

theorem iter_load_error {p : Prog} {vm : VM} {ins : Instr} {e : VmErr}
    (hi : p.instructionAt vm.pc = some ins) (hs : singleStep vm p ins = (.error e, vm.mem)) :
    (iter p vm).1 = some (.error e) := by
  unfold iter
  rw [hi]
  simp only [hs]

/-- A page fault at a store. -/
theorem iter_store_fault {p : Prog} {vm : VM} {ins : Instr} {a n x : Nat} {bs : List UInt8} (hg : 1 ≤ vm.gas)
    (hi : p.instructionAt vm.pc = some ins)
    (hs : singleStep vm p ins = (.ok (.cont, { newPc := n, mem := some (a, bs) }), vm.mem))
    (h : (iter p vm).1 = some (.ok (.pageFault x))) : (iter p vm).2.pc = 0 := by
  unfold iter at h ⊢
  rw [hi] at h ⊢
  simp only [hs] at h ⊢
  rw [show ({ vm with mem := vm.mem } : VM) = vm from rfl] at h ⊢
  rcases ha : vm.apply { newPc := n, mem := some (a, bs) } Exit.cont.changesState with ⟨r, vm'⟩
  rw [ha] at h
  cases r with
  | forbidden => cases h
  | err e => cases h
  | pageFault y => rfl
  | gas post =>
    simp only [] at h
    split at h
    · cases h
    · cases h

end Fastroll.Pvm
