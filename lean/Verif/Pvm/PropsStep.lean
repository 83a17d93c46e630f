import Verif.Pvm.StepLemmas4
import Verif.Pvm.PropsInterp
/-!
# C50: every instruction does what the Gray Paper says, from its bytes to the new state

`Paper.effect` (StepSpec) reads the instruction number and operands from the code and says what is to
be done; `Paper.Does` says when a new state does it. The theorems compare one iteration of the
interpreter's loop, on a program the loader accepted, with that relation.
-/
namespace Fastroll.Pvm
open Paper (oct)

/-- The cases in which the interpreter follows the paper: the effect is regular, the instruction is not
a signed remainder whose operands overflow, and control is not sent to the position after a
block-ending instruction at position 0. -/
structure Ordinary (p : Prog) (vm : VM) (d : Nat) : Prop where
  regular : (Paper.effect p.code vm.pc d vm.paper.reg).Regular vm.mem.data.length
  rem : ∀ o, Paper.inst (oct p.code vm.pc) = .three o →
    ¬ BadRem o (vm.r (min 12 (oct p.code (vm.pc + 1) % 16))) (vm.r (min 12 (oct p.code (vm.pc + 1) / 16)))
  second : ∀ e, EndsBlock p.code 0 → IsSkip p.mask p.code.length 0 e →
    ¬ (Paper.effect p.code vm.pc d vm.paper.reg).Target p.table (1 + e)

/-- **One step.** For every program that loads, every machine state with gas left and the program
counter at an instruction, outside the exceptions of `Ordinary`: the interpreter reads the operands
the paper reads, and its new registers, memory, program counter, outcome and gas are the paper's.
Missing from the statement: the exceptions, shown below to differ, and `sbrk` (C11). -/
theorem C50_step_partial (blob : List UInt8) (p : Prog) (h : loadProgram blob = .ok p) (vm : VM) (d : Nat)
    (hg : 1 ≤ vm.gas) (hm : vm.mem.WF) (hr : vm.regs.length = 13) (hc : p.code.length < 2 ^ 31)
    (hs : StartsAt p.mask vm.pc) (hd : IsSkip p.mask p.code.length vm.pc d) (ho : Ordinary p vm d) :
    Realises (IsBlockStart p.code p.mask) p.table (vm.pc + 1 + d) (Paper.effect p.code vm.pc d vm.paper.reg) vm
      (iter p vm) :=
  step_realises ⟨loadProgram_loaded h, hg, hm, hr, hs, hd, hc, ho.regular, ho.rem, ho.second⟩

/-- **The paper's step is a function.** The relation leaves no freedom, so `C50_step_partial` fixes the
interpreter's behaviour completely. -/
theorem C50_paper_deterministic (code : List UInt8) (i d : Nat) (starts : Nat → Prop) (jt : List Nat) (zone nxt : Nat)
    (s s1 s2 : Paper.State) (o1 o2 : Paper.Out)
    (h1 : Paper.Does starts jt zone nxt s (Paper.effect code i d s.reg) o1 s1)
    (h2 : Paper.Does starts jt zone nxt s (Paper.effect code i d s.reg) o2 s2) : o1 = o2 ∧ s1 = s2 :=
  does_unique (fun r ok h v w => effect_set_unique code i d s.reg r ok h v w) h1 h2

/-- Put 9 into register 1, store its low octet at 8, load that into register 2, add both into register
3, store register 3 at an address in the forbidden zone. -/
def moveBlob : List UInt8 :=
  [0, 1, 15, 51, 1, 9, 59, 1, 8, 52, 2, 8, 200, 0x21, 3, 62, 3, 4, 0x49, 0x12]

def moveProg : Prog :=
  match loadProgram moveBlob with
  | .ok p => p
  | .error _ => countProg

theorem moveProg_loads : loadProgram moveBlob = .ok moveProg := by decide

/-- All instructions of the program are three octets long. -/
theorem moveProg_skip (i : Nat) (h : i = 0 ∨ i = 3 ∨ i = 6 ∨ i = 9 ∨ i = 12) : IsSkip moveProg.mask moveProg.code.length i 2 := by
  rcases h with h | h | h | h | h <;> subst h
  all_goals
    refine ⟨by decide, by decide, fun j hj => ?_, by decide⟩
    rcases j with _ | _ | j
    · decide
    · decide
    · omega

theorem moveProg_ordinary (k : Nat) (hk : k < 5) :
    Ordinary moveProg (runFuel moveProg k (countVM 10)).2 2 := by
  refine ⟨?_, ?_, ?_⟩
  · have : ∀ k : Fin 5, (Paper.effect moveProg.code (runFuel moveProg k.1 (countVM 10)).2.pc 2
        (runFuel moveProg k.1 (countVM 10)).2.paper.reg).Regular (runFuel moveProg k.1 (countVM 10)).2.mem.data.length := by
      decide +kernel
    exact this ⟨k, hk⟩
  · have : ∀ k : Fin 5, Paper.inst (oct moveProg.code (runFuel moveProg k.1 (countVM 10)).2.pc) ∈
        [.loadImm, .store 1, .load 1 false, .three .add64, .store 8] := by decide +kernel
    intro o h hb
    have := this ⟨k, hk⟩
    rw [h] at this
    simp at this
    subst this
    rcases hb with ⟨hb, _⟩ | ⟨hb, _⟩ <;> cases hb
  · rintro e ⟨b, hb, h⟩
    have : b = 51 := by
      have hb' : moveProg.code[0]? = some 51 := by decide
      rw [hb'] at hb; cases hb; rfl
    subst this
    exact absurd h (by decide)

/-- Every step of the program satisfies the hypotheses; the second stores 9 at address 8, the fourth
gives 18, the fifth panics. -/
example : (runFuel moveProg 2 (countVM 10)).2.mem.data[8]? = some 9 ∧ (runFuel moveProg 4 (countVM 10)).2.r 3 = 18 ∧
    (runFuel moveProg 5 (countVM 10)).1 = some (.ok .panic) ∧
    Realises (IsBlockStart moveProg.code moveProg.mask) moveProg.table 6
      (Paper.effect moveProg.code 3 2 (runFuel moveProg 1 (countVM 10)).2.paper.reg) (runFuel moveProg 1 (countVM 10)).2
      (iter moveProg (runFuel moveProg 1 (countVM 10)).2) :=
  ⟨by decide, by decide, by decide,
    C50_step_partial moveBlob moveProg moveProg_loads _ 2 (by decide) ⟨by decide, by decide⟩ (by decide) (by decide) (by decide)
      (moveProg_skip 3 (by decide)) (moveProg_ordinary 1 (by decide))⟩

/-- **Whole runs.** `n` iterations that all let the program continue are `n` steps of the paper's
machine from the same state to the same state, at one unit of gas each. -/
theorem C50_run_partial (blob : List UInt8) (p : Prog) (h : loadProgram blob = .ok p) (hc : p.code.length < 2 ^ 31)
    (n : Nat) : ∀ (vm vm' : VM), vm.mem.WF → vm.regs.length = 13 → runFuel p n vm = (none, vm') →
    (∀ k, k < n → ∀ d, IsSkip p.mask p.code.length (runFuel p k vm).2.pc d → Ordinary p (runFuel p k vm).2 d) →
    Paper.Runs p.code p.mask p.table vm.mem.zone n vm.paper vm'.paper ∧ vm'.gas = vm.gas - n := by
  induction n with
  | zero =>
    intro vm vm' _ _ hrun _
    cases hrun
    exact ⟨.done, by omega⟩
  | succ n ih =>
    intro vm vm' hm hr hrun ho
    refine ⟨?_, (runFuel_none (n + 1) vm vm' hrun).1⟩
    unfold runFuel at hrun
    rcases hit : iter p vm with ⟨o, vm1⟩
    rw [hit] at hrun
    cases o with
    | some r => cases hrun
    | none =>
      simp only [] at hrun
      obtain ⟨hst, d, hd, _⟩ := C13_step blob p h vm vm1 hit
      have hg : 1 ≤ vm.gas := by
        have := ((iter_spec p vm).1 vm1 hit)
        omega
      have h0 := ho 0 (by omega) d hd
      obtain ⟨out, s', hdoes, hret, _, hreg, hmem, hpc⟩ := C50_step_partial blob p h vm d hg hm hr hc hst hd h0
      rw [hit] at hret hreg hmem hpc
      have hout : out = .cont := by
        cases out <;> simp only [Returns] at hret <;> try cases hret
        · rfl
        · rename_i hx; cases hx.1
      subst hout
      have hs' : s' = vm1.paper := by
        obtain ⟨r, m, c⟩ := s'
        have h3 := hpc (.inl rfl)
        simp only [] at hreg hmem h3
        subst h3
        rw [← hreg, ← hmem]
        rfl
      subst hs'
      obtain ⟨ins, hi⟩ := (loadProgram_loaded h).start _ hst
      have hop : ins.op ≠ .sbrk := by
        intro hop
        have hreg0 := h0.regular
        obtain ⟨_, b, hb, hob⟩ := (loadProgram_loaded h).inst _ _ hi
        have hoct : oct p.code vm.pc = b.toNat := by
          unfold oct
          rw [List.getD_eq_getElem?_getD, hb]
          rfl
        change (Paper.effect p.code vm.pc d vm.paper.reg).Regular vm.mem.data.length at hreg0
        unfold Paper.effect at hreg0
        rw [hoct, inst_ofByte, ← hob, hop] at hreg0
        exact hreg0
      obtain ⟨hk1, hk2, _, hk3, _⟩ := iter_keeps hm hi hop hit
      have hrest := ih vm1 vm' hk2 (by rw [hk1]; exact hr) hrun (fun k hk d hd => by
        have hkk : runFuel p (k + 1) vm = runFuel p k vm1 := by
          conv => lhs; unfold runFuel
          rw [hit]
        have := ho (k + 1) (by omega) d (by rw [hkk]; exact hd)
        rw [hkk] at this
        exact this)
      rw [hk3] at hrest
      exact .step hst hd hdoes hrest.1

example : ∃ vm', runFuel moveProg 4 (countVM 10) = (none, vm') ∧
    Paper.Runs moveProg.code moveProg.mask moveProg.table 8 4 (countVM 10).paper vm'.paper ∧ vm'.gas = 6 := by
  refine ⟨_, rfl, C50_run_partial moveBlob moveProg moveProg_loads (by decide) 4 (countVM 10) _ ⟨by decide, by decide⟩ (by decide) rfl ?_⟩
  intro k hk d hd
  have hpc : ∀ k : Fin 5, (runFuel moveProg k.1 (countVM 10)).2.pc = 3 * min k.1 4 := by decide +kernel
  have hsk := moveProg_skip (runFuel moveProg k (countVM 10)).2.pc (by rw [hpc ⟨k, by omega⟩]; simp only []; omega)
  rw [hd.unique hsk]
  exact moveProg_ordinary k (by omega)

/-! ## Where the interpreter differs -/

/-- **Host calls are known by their number modulo 256.** For every `ecalli`, the interpreter asks for
the host function whose number is the immediate's low octet; so when the immediate is 256 or more it
does not do what the paper says, whatever the machine state. -/
theorem C50_host_number_truncated (blob : List UInt8) (p : Prog) (h : loadProgram blob = .ok p) (vm : VM) (d n : Nat)
    (hg : 1 ≤ vm.gas) (hs : StartsAt p.mask vm.pc) (hd : IsSkip p.mask p.code.length vm.pc d)
    (he : Paper.effect p.code vm.pc d vm.paper.reg = .host n) :
    iter p vm = (some (.ok (.hostCall (n % 256))), { vm with gas := vm.gas - 1 }) ∧
    (256 ≤ n → ¬ Realises (IsBlockStart p.code p.mask) p.table (vm.pc + 1 + d)
      (Paper.effect p.code vm.pc d vm.paper.reg) vm (iter p vm)) := by
  have key : iter p vm = (some (.ok (.hostCall (n % 256))), { vm with gas := vm.gas - 1 }) := by
    obtain ⟨ins, hi, hinst, hfit⟩ := decoded_fits (loadProgram_loaded h) hs hd
    unfold Paper.effect at he
    rw [hinst] at he
    unfold Operands at hfit
    cases hk : ins.op <;> rw [hk] at he hfit <;> simp only [Op.paper, Op.layout] at he hfit <;> cases he
    have hss : singleStep vm p ins = (.ok (.hostCall (ins.imm1.toNat % 256), { newPc := p.nextPc vm.pc }), vm.mem) := by
      unfold singleStep; rw [hk]
    rw [iter_still hg hi hss rfl, hfit]
  refine ⟨key, fun hn => ?_⟩
  rintro ⟨out, s', hdoes, hret, _⟩
  rw [he] at hdoes
  cases hdoes
  rw [key] at hret
  simp only [Returns, Option.some.injEq, Except.ok.injEq, Exit.hostCall.injEq] at hret
  omega

/-- `ecalli 263` asks for host function 7. -/
example : ∃ p, loadProgram [0, 1, 4, 1, 10, 7, 1, 3] = .ok p ∧
    (iter p { countVM 5 with pc := 1 }).1 = some (.ok (.hostCall 7)) ∧
    Paper.effect p.code 1 2 (countVM 5).paper.reg = .host 263 := ⟨_, rfl, by decide, rfl⟩

/-- **Reaching past the end of memory is an error**, not a fault: for every load or store above the
forbidden zone whose range leaves memory at the top, the interpreter returns an error, which its
callers hand on instead of ending the service's execution; it never does what the paper says. -/
theorem C50_past_end_error (blob : List UInt8) (p : Prog) (h : loadProgram blob = .ok p) (vm : VM) (d a w : Nat)
    (hg : 1 ≤ vm.gas) (hs : StartsAt p.mask vm.pc) (hd : IsSkip p.mask p.code.length vm.pc d)
    (he : (∃ r sg, Paper.effect p.code vm.pc d vm.paper.reg = .load r a w sg) ∨
      ∃ v, Paper.effect p.code vm.pc d vm.paper.reg = .store a w v)
    (hz : vm.mem.zone ≤ a % 2 ^ 32) (hend : vm.mem.data.length < a % 2 ^ 32 + w) :
    (∃ e, (iter p vm).1 = some (.error e)) ∧
    ¬ Realises (IsBlockStart p.code p.mask) p.table (vm.pc + 1 + d)
      (Paper.effect p.code vm.pc d vm.paper.reg) vm (iter p vm) := by
  have key : ∃ e, (iter p vm).1 = some (.error e) := by
    obtain ⟨ins, hi, hinst, hfit⟩ := decoded_fits (loadProgram_loaded h) hs hd
    obtain ⟨hld, hst⟩ := step_access hinst hfit
    rcases he with ⟨r, sg, he⟩ | ⟨v, he⟩
    · obtain ⟨k, f, hk, hss⟩ := hld _ _ _ _ he
      subst hk
      refine ⟨.mem (.outOfRange (a % 2 ^ 32)), iter_load_error hi ?_⟩
      rw [hss]
      unfold loadStep
      rw [loadRaw_end _ _ hz hend]
    · obtain ⟨hw, u, hss⟩ := hst _ _ _ he
      exact ⟨_, iter_store_end hg hi hss (by rw [storeBytes_length]; exact hw) hz (by rw [storeBytes_length]; exact hend)⟩
  refine ⟨key, ?_⟩
  obtain ⟨e, key⟩ := key
  rintro ⟨out, s', _, hret, _⟩
  rw [key] at hret
  cases out <;> simp only [Returns] at hret <;> try cases hret
  rename_i hx
  cases hx.1

/-- Loading eight octets at 20 of 24: the paper's machine faults, the interpreter returns an error. -/
example : ∃ p, loadProgram [0, 1, 3, 58, 2, 20, 1] = .ok p ∧
    (iter p (countVM 5)).1 = some (.error (.mem (.outOfRange 20))) ∧
    Paper.Does (IsBlockStart p.code p.mask) p.table 8 3 (countVM 5).paper (Paper.effect p.code 0 2 (countVM 5).paper.reg)
      (.fault 20) (countVM 5).paper :=
  ⟨_, rfl, by decide, .loadFault (by decide) ⟨by decide, by decide, by decide, fun z h1 h2 => by
    have : (20 : Nat) ≤ z := h1
    omega⟩⟩

/-- **A faulting store loses its place.** After a page fault the paper leaves the program counter at the
instruction, so that a machine can be resumed once the page is provided. The interpreter does so for
loads; for every store it sets the counter to 0. -/
theorem C50_store_fault_resets_pc (blob : List UInt8) (p : Prog) (h : loadProgram blob = .ok p) (vm : VM) (d a w x : Nat)
    (hg : 1 ≤ vm.gas) (hs : StartsAt p.mask vm.pc) (hd : IsSkip p.mask p.code.length vm.pc d)
    (hf : (iter p vm).1 = some (.ok (.pageFault x))) :
    (∀ v, Paper.effect p.code vm.pc d vm.paper.reg = .store a w v → (iter p vm).2.pc = 0) ∧
    (∀ r sg, Paper.effect p.code vm.pc d vm.paper.reg = .load r a w sg → (iter p vm).2.pc = vm.pc) := by
  obtain ⟨ins, hi, hinst, hfit⟩ := decoded_fits (loadProgram_loaded h) hs hd
  obtain ⟨hld, hst⟩ := step_access hinst hfit
  constructor
  · intro v he
    obtain ⟨hw, u, hss⟩ := hst _ _ _ he
    exact iter_store_fault hg hi hss hf
  · intro r sg he
    obtain ⟨k, f, hk, hss⟩ := hld _ _ _ _ he
    unfold loadStep at hss
    cases hraw : loadRaw vm.mem (a % 2 ^ 32) k with
    | ok v =>
      rw [hraw] at hss
      rw [iter_plain hg hi hss rfl rfl] at hf
      cases hf
    | error e =>
      rw [hraw] at hss
      cases e with
      | forbidden y =>
        rw [iter_plain hg hi hss rfl rfl] at hf
        cases hf
      | accessViolation y =>
        rw [iter_still hg hi hss rfl]
      | _ =>
        rw [iter_load_error hi hss] at hf
        cases hf

/-- A store and a load of the same unavailable page, at position 3: the first ends with the counter at
0, the second at 3. -/
example :
    (∃ p, loadProgram [0, 1, 6, 51, 1, 9, 59, 1, 16, 9] = .ok p ∧
      (runFuel p 2 (countVM 5)).1 = some (.ok (.pageFault 16)) ∧ (runFuel p 2 (countVM 5)).2.pc = 0) ∧
    (∃ p, loadProgram [0, 1, 6, 51, 1, 9, 52, 1, 16, 9] = .ok p ∧
      (runFuel p 2 (countVM 5)).1 = some (.ok (.pageFault 16)) ∧ (runFuel p 2 (countVM 5)).2.pc = 3) :=
  ⟨⟨_, rfl, by decide, by decide⟩, ⟨_, rfl, by decide, by decide⟩⟩

/-- **A jump to the second instruction panics** when the first one ends a block: the paper's machine goes
on there. A program beginning with a jump, as compiled services do, cannot be entered behind it. -/
theorem C50_second_instruction_rejected :
    ∃ (p : Prog) (s' : Paper.State), loadProgram [0, 1, 3, 1, 40, 0, 3] = .ok p ∧
      (iter p { countVM 8 with pc := 1 }).1 = some (.ok .panic) ∧
      Paper.effect p.code 1 1 (countVM 8).paper.reg = .branch True 1 none ∧
      Paper.Does (IsBlockStart p.code p.mask) p.table 8 3 { (countVM 8).paper with pc := 1 }
        (.branch True 1 none) .cont s' ∧ s'.pc = 1 :=
  ⟨_, _, rfl, by decide, rfl, .taken 1 trivial rfl (.inr ⟨0, 0, rfl, ⟨1, rfl, .inl (by decide)⟩,
    ⟨by decide, by decide, fun j h => by omega, .inr (.inr rfl)⟩, rfl⟩), rfl⟩

end Fastroll.Pvm
