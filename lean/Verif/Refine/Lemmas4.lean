import Verif.Refine.Lemmas3
import Verif.Codec.Lemmas

/-! Lemmas: what `invoke` reads, runs and hands back. -/
namespace Fastroll.Refine
open Fastroll.Pvm Fastroll.Svc
open Paper (CanRead CanWrite octets PMem.wrote Answers num Ended)

theorem fromLE_leVal (bs : Bytes) : Pvm.fromLE bs = Codec.leVal bs := by
  unfold Pvm.fromLE
  induction bs with
  | nil => rfl
  | cons b bs ih => simp only [List.foldr_cons, Codec.leVal, ih]

theorem num_slice (bs pre post : Bytes) (v : Nat) (h : bs = pre ++ Codec.leBytes 8 v ++ post) : num bs pre.length = v % 2 ^ 64 := by
  have e : num bs pre.length = Pvm.Paper.word ⟨fun x => bs.getD x 0, fun _ => .inaccessible⟩ pre.length 8 := rfl
  rw [e, ← fromLE_word, fromLE_leVal]
  have : (List.range 8).map (fun i => bs.getD (pre.length + i) 0) = Codec.leBytes 8 v := by
    apply List.ext_getElem?
    intro i
    by_cases c : i < 8
    · rw [List.getElem?_map, List.getElem?_range c, Option.map_some, h, List.getD_eq_getElem?_getD,
        List.getElem?_append_left (by rw [List.length_append, Codec.leBytes_length]; omega),
        List.getElem?_append_right (by omega), Nat.add_sub_cancel_left,
        List.getElem?_eq_getElem (by rw [Codec.leBytes_length]; exact c)]
      rfl
    · rw [List.getElem?_eq_none (by simp; omega), List.getElem?_eq_none (by rw [Codec.leBytes_length]; omega)]
  show Codec.leVal ((List.range 8).map (fun i => bs.getD (pre.length + i) 0)) = _
  rw [this, Codec.leVal_leBytes]

theorem regBytes_length (rs : List Reg) : (rs.map fun r => Codec.leBytes 8 r.toNat).flatten.length = 8 * rs.length := by
  induction rs with
  | nil => rfl
  | cons r rs ih => simp only [List.map_cons, List.flatten_cons, List.length_append, Codec.leBytes_length, ih, List.length_cons]; omega

theorem handBack_length (vm : VM) (h : vm.regs.length = 13) : (handBack vm).length = 112 := by
  unfold handBack
  rw [List.length_append, Codec.leBytes_length, regBytes_length, h]

theorem handBack_gas (vm : VM) : (num (handBack vm) 0 : Int) = vm.gas % 2 ^ 64 := by
  have := num_slice (handBack vm) [] ((vm.regs.map fun r => Codec.leBytes 8 r.toNat).flatten) (vm.gas % 2 ^ 64).toNat (by
    unfold handBack; simp)
  rw [List.length_nil] at this
  rw [this, Nat.mod_eq_of_lt (by omega)]
  omega

theorem handBack_reg (vm : VM) (i : Nat) (h : i < vm.regs.length) : num (handBack vm) (8 + 8 * i) = (vm.r i).toNat := by
  have hr : vm.r i = vm.regs[i] := by simp [VM.r, List.getD_eq_getElem?_getD, h]
  have hsplit : vm.regs = vm.regs.take i ++ vm.regs[i] :: vm.regs.drop (i + 1) := by simp
  have := num_slice (handBack vm) (Codec.leBytes 8 (vm.gas % 2 ^ 64).toNat ++ ((vm.regs.take i).map fun r => Codec.leBytes 8 r.toNat).flatten)
    (((vm.regs.drop (i + 1)).map fun r => Codec.leBytes 8 r.toNat).flatten) (vm.regs[i]).toNat (by
      unfold handBack
      have : (vm.regs.map fun r => Codec.leBytes 8 r.toNat) = ((vm.regs.take i ++ vm.regs[i] :: vm.regs.drop (i + 1)).map fun r => Codec.leBytes 8 r.toNat) :=
        congrArg _ hsplit
      rw [this, List.map_append, List.map_cons, List.flatten_append, List.flatten_cons]
      simp only [List.append_assoc])
  rw [List.length_append, Codec.leBytes_length, regBytes_length, List.length_take, Nat.min_eq_left (by omega)] at this
  rw [this, hr, Nat.mod_eq_of_lt (vm.regs[i]).isLt]

/-- The registers read for the inner machine. -/
theorem readRegs_spec {vm : VM} (hm : Sound vm.mem) (o : Nat) (hc : CanRead vm.mem.abs o 112) : ∀ n, n ≤ 13 →
    ∃ rs, readRegs vm o n = some rs ∧ rs.length = n ∧
      ∀ i, i < n → rs[i]? = some (BitVec.ofNat 64 (Pvm.Paper.word vm.mem.abs (o + 8 + 8 * (13 - n + i)) 8)) := by
  intro n
  induction n with
  | zero => intro _; exact ⟨[], rfl, rfl, fun i h => absurd h (by omega)⟩
  | succ n ih =>
    intro hn
    obtain ⟨rs, h1, h2, h3⟩ := ih (by omega)
    have hr := (sound_read hm (o + 8 + 8 * (12 - n)) 8).2 (fun x hx1 hx2 => hc x (by omega) (by omega))
    unfold readRegs
    rw [hr]
    simp only [h1]
    refine ⟨_, rfl, by simp [h2], fun i hi => ?_⟩
    cases i with
    | zero =>
      rw [List.getElem?_cons_zero, show 13 - (n + 1) + 0 = 12 - n by omega]
      rw [show Pvm.fromLE (octets vm.mem.abs (o + 8 + 8 * (12 - n)) 8) = Pvm.Paper.word vm.mem.abs (o + 8 + 8 * (12 - n)) 8 from fromLE_word _ _ 8]
    | succ i =>
      rw [List.getElem?_cons_succ, h3 i (by omega)]
      rw [show 13 - n + i = 13 - (n + 1) + (i + 1) by omega]

/-- How a run ended, when the number of a host call survives. -/
def endedOf : Exit → Option Ended
  | .halt => some .halt
  | .panic => some .panic
  | .outOfGas => some .outOfGas
  | .pageFault a => some (.fault a)
  | .hostCall h => if hostNumber h = h then some (.host h) else none
  | .cont => none

/-- The general invocation as the code performs it. -/
def codeRun : Paper.Invocation := fun code g s e g' s' =>
  ∃ p vm vm' ex, loadProgram code = .ok p ∧ vm.regs.length = 13 ∧ vm.paper = s ∧ vm.gas = (g : Int) ∧ Sound vm.mem ∧
    runInner p (g + 2) vm = (some (.ok ex), vm') ∧ endedOf ex = some e ∧ vm'.paper = s' ∧ vm'.gas = g'

/-- The position after an instruction, by the program's instruction mask. -/
def codeNext : Paper.NextPos := fun code i j =>
  ∃ p d, loadProgram code = .ok p ∧ IsSkip p.mask p.code.length i d ∧ j = i + 1 + d

theorem nextPc_skip {blob : Bytes} {p : Prog} (h : loadProgram blob = .ok p) {i : Nat} {ins : Instr} (hi : p.instructionAt i = some ins) :
    codeNext blob i (p.nextPc i) := by
  have hl := loadProgram_loaded h
  obtain ⟨_, b, hb, _⟩ := hl.inst i ins hi
  have hlt : i < p.skips.length := by
    rw [hl.skipLen]; exact (List.getElem?_eq_some_iff.1 hb).1
  refine ⟨p, p.skips[i], h, hl.skip i _ (List.getElem?_eq_getElem hlt), ?_⟩
  unfold Prog.nextPc
  rw [List.getElem?_eq_getElem hlt]
  rfl

/-- What handing back a finished run amounts to. -/
theorem end_follows {env : REnv} {vm vm' : VM} {x x' : RCtx} {r : HostResult} {i : Inner} {p : Prog} {s : Pvm.Paper.State} {e : Exit}
    (hc : CanWrite vm.mem.abs (VM.n vm 8) 112) (hi : x.machines (VM.n vm 7) = some i)
    (hl : loadProgram i.code = .ok p) (h13 : vm'.regs.length = 13)
    (hs : s = { reg := fun j => if j < 13 then Pvm.Paper.word vm.mem.abs (VM.n vm 8 + 8 + 8 * j) 8 else 0, mem := i.mem.abs, pc := i.pc })
    (hpc : ∀ k, e = .hostCall k → ∃ ins, p.instructionAt vm'.pc = some ins)
    (hrun : ∀ en, endedOf e = some en → codeRun i.code (Pvm.Paper.word vm.mem.abs (VM.n vm 8) 8) s en vm'.gas vm'.paper)
    (hk : r.r7 = some (reg 3) → r.r8 ≠ some (reg 255))
    (h : invokeEnd x (VM.n vm 7) (VM.n vm 8) i p e vm' = (.ok r, x')) :
    Follows env codeRun codeNext vm x 12 (.ok r, x') := by
  subst hs
  have fin : ∀ (en : Ended) (pc : Nat), endedOf e = some en →
      (.ok r, x') = ((.ok { exit := .cont, charge := BASE_GAS, r7 := some (reg en.code), r8 := en.arg.map reg, mem := some (VM.n vm 8, handBack vm') },
        x.put (VM.n vm 7) (some { i with mem := vm'.mem, pc })) : Out × RCtx) →
      ((∀ k, en = .host k → codeNext i.code vm'.pc pc) ∧ ((∀ k, en ≠ .host k) → pc = vm'.pc)) →
      Follows env codeRun codeNext vm x 12 (.ok r, x') := by
    intro en pc hen heq hpc
    rw [heq]
    refine ⟨.ret en.code en.arg (some (VM.n vm 8, handBack vm')), _,
      .invoke (M := ⟨i.code, i.mem.abs, i.pc⟩) (e := en) (g := vm'.gas) (s := vm'.paper) (bs := handBack vm') (pc := pc)
        hc (abs_mach_some hi) (hrun en hen)
        (handBack_length vm' h13) (handBack_gas vm') (fun j hj => handBack_reg vm' j (by omega)) hpc, rfl, ?_⟩
    rw [abs_put]
    rfl
  unfold invokeEnd invokeCodes at h
  cases e with
  | cont => cases h
  | halt => exact fin .halt vm'.pc rfl h.symm ⟨(fun k e => by cases e), fun _ => rfl⟩
  | panic => exact fin .panic vm'.pc rfl h.symm ⟨(fun k e => by cases e), fun _ => rfl⟩
  | outOfGas => exact fin .outOfGas vm'.pc rfl h.symm ⟨(fun k e => by cases e), fun _ => rfl⟩
  | pageFault a => exact fin (.fault a) vm'.pc rfl h.symm ⟨(fun k e => by cases e), fun _ => rfl⟩
  | hostCall k =>
    have hkn : hostNumber k = k := by
      unfold hostNumber
      split
      · rfl
      · rename_i hc'
        exfalso
        simp only [Option.map_some, hostNumber, if_neg hc'] at h
        injection h with h _
        injection h with h
        subst h
        exact hk rfl rfl
    refine fin (.host k) (p.nextPc vm'.pc) (by simp only [endedOf, if_pos hkn]) ?_ ⟨fun k' e => ?_, fun e => absurd rfl (e k)⟩
    · rw [← h]; simp only [hkn]; rfl
    · obtain ⟨ins, hins⟩ := hpc k rfl
      exact nextPc_skip hl hins

/-- The state an inner machine is started in. -/
theorem start_state {vm : VM} {i : Inner} {rs : List Reg} {g : Int} (hl : rs.length = 13)
    (h : ∀ j, j < 13 → rs[j]? = some (BitVec.ofNat 64 (Pvm.Paper.word vm.mem.abs (VM.n vm 8 + 8 + 8 * (13 - 13 + j)) 8))) :
    VM.paper { regs := rs, mem := i.mem, pc := i.pc, gas := g } =
      { reg := fun j => if j < 13 then Pvm.Paper.word vm.mem.abs (VM.n vm 8 + 8 + 8 * j) 8 else 0, mem := i.mem.abs, pc := i.pc } := by
  unfold VM.paper
  congr 1
  funext j
  simp only [VM.r]
  by_cases c : j < 13
  · rw [if_pos c, List.getD_eq_getElem?_getD, h j c, Option.getD_some, BitVec.toNat_ofNat]
    rw [show 13 - 13 + j = j by omega]
    exact Nat.mod_eq_of_lt (word_lt _ _ 8)
  · rw [if_neg c, List.getD_eq_getElem?_getD, List.getElem?_eq_none (by omega)]
    rfl

theorem run_follows {env : REnv} {vm : VM} {x x' : RCtx} {r : HostResult} {i : Inner} {rs : List Reg} {w : Nat}
    (hw : w = Pvm.Paper.word vm.mem.abs (VM.n vm 8) 8)
    (hc : CanWrite vm.mem.abs (VM.n vm 8) 112) (hi : x.machines (VM.n vm 7) = some i) (hsi : Sound i.mem) (hl : rs.length = 13)
    (h : ∀ j, j < 13 → rs[j]? = some (BitVec.ofNat 64 (Pvm.Paper.word vm.mem.abs (VM.n vm 8 + 8 + 8 * (13 - 13 + j)) 8)))
    (hk : r.r7 = some (reg 3) → r.r8 ≠ some (reg 255))
    (hr : invokeRun x (VM.n vm 7) (VM.n vm 8) i w rs = (.ok r, x')) :
    Follows env codeRun codeNext vm x 12 (.ok r, x') := by
  unfold invokeRun at hr
  split at hr
  · cases hr
  · cases hp : loadProgram i.code with
    | error e => rw [hp] at hr; cases e <;> cases hr
    | ok p =>
      rw [hp] at hr
      simp only [] at hr
      rcases hrun : runInner p (w + 2) { regs := rs, mem := i.mem, pc := i.pc, gas := (w : Int) } with ⟨ro, vm'⟩
      rw [hrun] at hr
      have facts := runInner_facts p _ _ _ _ hrun
      rcases ro with _ | e | e
      · cases hr
      · cases hr
      · simp only [] at hr
        refine end_follows hc hi hp (by rw [facts.1]; exact hl) (start_state (i := i) (g := (w : Int)) hl h)
          (fun k e => facts.2.2.1 k (by rw [e])) (fun en hen => ?_) hk hr
        rw [← hw]
        exact ⟨p, _, vm', e, hp, hl, rfl, rfl, hsi, hrun, hen, rfl, rfl⟩

theorem invoke_follows (env : REnv) (vm : VM) (x x' : RCtx) (r : HostResult) (hg : 10 ≤ vm.gas)
    (hm : Sound vm.mem) (hx : Healthy x) (h : hostInvoke vm x = (.ok r, x'))
    (hk : r.r7 = some (reg 3) → r.r8 ≠ some (reg 255)) : Follows env codeRun codeNext vm x 12 (hostInvoke vm x) := by
  rw [h]
  unfold hostInvoke at h
  rw [enough hg] at h
  simp only [Bool.false_eq_true, if_false] at h
  cases hu : u32? vm 8 with
  | none =>
    rw [hu] at h
    cases h
    exact ⟨_, _, .invokePanic (big_addr hm vm 8 112 hu (.inr (by decide))).2, rfl, rfl⟩
  | some o =>
    have := u32_eq hu
    subst this
    rw [hu] at h
    simp only [] at h
    by_cases hw : vm.mem.rangeWritable (VM.n vm 8) 112 = true
    · have hc := (sound_write hm _ _).1.1 hw
      have hcr : CanRead vm.mem.abs (VM.n vm 8) 112 := fun y h1 h2 => by rw [hc y h1 h2]; decide
      rw [hw] at h
      simp only [Bool.not_true, Bool.false_eq_true, if_false] at h
      rw [(sound_read hm (VM.n vm 8) 8).2 (fun y h1 h2 => hcr y h1 (by omega))] at h
      simp only [] at h
      obtain ⟨rs, e1, e2, e3⟩ := readRegs_spec hm (VM.n vm 8) hcr 13 (Nat.le_refl _)
      rw [e1] at h
      simp only [] at h
      cases hi : x.machines (VM.n vm 7) with
      | none =>
        rw [hi] at h
        cases h
        exact ⟨_, _, .invokeWho hc (abs_mach_none hi), rfl, rfl⟩
      | some i =>
        rw [hi] at h
        simp only [] at h
        exact run_follows (fromLE_word _ _ 8) hc hi (hx _ _ hi) e2 e3 hk h
    · have hw' : vm.mem.rangeWritable (VM.n vm 8) 112 = false := by simpa using hw
      rw [hw'] at h
      simp only [Bool.not_false, if_true] at h
      cases h
      exact ⟨_, _, .invokePanic (fun e => hw ((sound_write hm _ _).1.2 e)), rfl, rfl⟩

end Fastroll.Refine
