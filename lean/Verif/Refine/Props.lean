import Verif.Refine.Lemmas6
import Verif.Svc.PropsWindow
import Verif.Svc.PropsLife

/-!
# C51, C52: the host functions of refinement, and the machines inside a machine

`Paper.Answers` (Spec) says what each call returns and does to the inner machines and the exported
segments. The first theorems say where the code follows it; the others, what holds along every
sequence of calls, and where the code departs from it.
-/
namespace Fastroll.Refine
open Fastroll.Pvm Fastroll.Svc
open Paper (CanRead CanWrite octets Answers)

deriving instance DecidableEq for HostResult, Out

/-! ## A host machine for the examples -/

/-- 256 octets of writable memory in pages of 16; `ecalli 7` as a program at 0, the same with another
number at 8, gas 50 for an inner machine at 100. -/
def Ex.data : Bytes :=
  [0, 1, 2, 10, 7, 1, 0, 0, 0, 1, 2, 10, 50, 1] ++ List.replicate 86 0 ++ [50] ++ List.replicate 155 0
def Ex.mem : Mem := { data := Ex.data, acc := List.replicate 16 .readWrite, pageSize := 16, zone := 0 }
def Ex.vm (r7 r8 r9 r10 : Nat) : VM :=
  { regs := List.replicate 7 0 ++ [reg r7, reg r8, reg r9, reg r10, 0, 0], mem := Ex.mem, pc := 0, gas := 1000 }
def Ex.env : REnv := { state := Svc.Ex.avail, anchor := 9, self := 7, exportOffset := 3070 }
def Ex.other : Nat → VM → HostResult := fun _ _ => ret OK
def Ex.code : Bytes := [0, 1, 2, 10, 7, 1]
/-- One machine, number 0, running `ecalli 7`. -/
def Ex.one : RCtx := refineCalls Ex.other Ex.env [(8, Ex.vm 0 6 0 0)] {}

set_option maxRecDepth 20000 in
theorem Ex.good : Good Ex.mem := ⟨⟨by decide, by decide⟩, by decide, fun _ h => absurd h (Nat.not_lt_zero _)⟩

set_option maxRecDepth 20000 in
theorem Ex.one_machine : Ex.one.machines 0 = some { code := Ex.code, mem := noMem, pc := 0 } := by decide +kernel

theorem Ex.one_bare : Bare Ex.one :=
  refineCalls_keeps Ex.other Ex.env (fun h vm _ hb => refineCall_bare Ex.other Ex.env h vm hb) _ _ (bare_empty {} rfl)

theorem Ex.one_healthy : Healthy Ex.one := fun n i h => .inr (Ex.one_bare.none n i h)

/-! ## The calls follow the paper -/

/-- **The calls that run nothing.** `export`, `machine`, `peek`, `poke` and `expunge` return what the paper
says, from every machine state with enough gas and in every context.
Missing: `pages` (below); empty ranges at addresses of more than 32 bits (below); program blobs whose
announced table is too large to allocate (C42); and the paper's choice of the *least* unused number for
a new machine (below). -/
theorem C51_calls_partial (other : Nat → VM → HostResult) (env : REnv) (Ψ : Paper.Invocation) (nx : Paper.NextPos) (h : Nat)
    (hh : h = 7 ∨ h = 8 ∨ h = 9 ∨ h = 10 ∨ h = 13) (vm : VM) (x : RCtx) (hg : 10 ≤ vm.gas) (hm : Sound vm.mem)
    (hx : Healthy x) (hs : Sized h vm) (hn : x.machines x.nextId = none)
    (hp : h = 8 → deblob (octets vm.mem.abs (VM.n vm 7) (VM.n vm 8)) ≠ .error .panic) :
    Follows env Ψ nx vm x h (refineCall other env h vm x) := by
  rcases hh with e | e | e | e | e <;> subst e
  · exact export_follows env Ψ nx vm x hg hm hs
  · exact machine_follows env Ψ nx vm x hg hm hs hn (hp rfl)
  · exact peek_follows env Ψ nx vm x hg hm hx hs
  · exact poke_follows env Ψ nx vm x hg hm hx hs
  · exact expunge_follows env Ψ nx vm x hg

set_option maxRecDepth 20000 in
/-- Making a machine from the octets at 0, and exporting three of them. -/
example : Follows Ex.env codeRun codeNext (Ex.vm 0 6 0 0) {} 8 (refineCall Ex.other Ex.env 8 (Ex.vm 0 6 0 0) {}) ∧
    (refineCall Ex.other Ex.env 7 (Ex.vm 3 3 0 0) {}).2.exports.map (·.take 5) = [[10, 7, 1, 0, 0]] ∧
    Follows Ex.env codeRun codeNext (Ex.vm 3 3 0 0) {} 7 (refineCall Ex.other Ex.env 7 (Ex.vm 3 3 0 0) {}) := by
  have hx : Healthy {} := fun n i h => by cases h
  refine ⟨C51_calls_partial _ _ _ _ 8 (by decide) _ _ (by decide) (.inl Ex.good) hx (by unfold Sized; decide) rfl (fun _ => ?_), ?_,
    C51_calls_partial _ _ _ _ 7 (by decide) _ _ (by decide) (.inl Ex.good) hx (by unfold Sized; decide) rfl (fun h => by cases h)⟩
  · decide +kernel
  · decide +kernel

/-- **Running an inner machine.** When `invoke` returns at all, it has run the inner machine from the gas
and registers in the caller's memory, written back what is left of them, and told the caller how the
run ended, as the paper says. Missing: a host call whose number the code does not know is told as
255 (below); and when it does not return (below). -/
theorem C51_invoke_partial (other : Nat → VM → HostResult) (env : REnv) (vm : VM) (x x' : RCtx) (r : HostResult)
    (hg : 10 ≤ vm.gas) (hm : Sound vm.mem) (hx : Healthy x) (h : refineCall other env 12 vm x = (.ok r, x'))
    (hk : r.r7 = some (reg 3) → r.r8 ≠ some (reg 255)) :
    Follows env codeRun codeNext vm x 12 (refineCall other env 12 vm x) :=
  invoke_follows env vm x x' r hg hm hx h hk

/-- The machine asks for host function 7 with 49 of its 50 units of gas left, and will go on at 2. -/
def Ex.asked : Out × RCtx := refineCall Ex.other Ex.env 12 (Ex.vm 0 100 0 0) Ex.one
def Ex.askedRes : HostResult :=
  { exit := .cont, charge := BASE_GAS, r7 := some (reg 3), r8 := some (reg 7), mem := some (100, 49 :: List.replicate 111 0) }
set_option maxRecDepth 20000 in
theorem Ex.asked_is : Ex.asked.1 = .ok Ex.askedRes ∧
    (Ex.asked.2.machines 0).map (·.pc) = some 2 := by decide +kernel

theorem Ex.asked_eq : refineCall Ex.other Ex.env 12 (Ex.vm 0 100 0 0) Ex.one = (.ok Ex.askedRes, Ex.asked.2) := by
  rw [← Ex.asked_is.1, Ex.asked]

example : Follows Ex.env codeRun codeNext (Ex.vm 0 100 0 0) Ex.one 12 (refineCall Ex.other Ex.env 12 (Ex.vm 0 100 0 0) Ex.one) :=
  C51_invoke_partial Ex.other Ex.env (Ex.vm 0 100 0 0) Ex.one Ex.asked.2 Ex.askedRes (by decide) (.inl Ex.good) Ex.one_healthy
    Ex.asked_eq (fun _ => show some (reg 7) ≠ some (reg 255) by decide)

/-- **What an inner run is.** A run of an inner machine that the code finishes is a sequence of the paper's
steps from the same state, at one unit of gas each, and a last iteration that runs out of gas, finds
no instruction, or is again the paper's step and outcome. Missing: the instructions excluded by
`Ordinary` (C50), among them all that touch memory. -/
theorem C51_inner_run_partial (blob : Bytes) (p : Prog) (h : loadProgram blob = .ok p) (hc : p.code.length < 2 ^ 31) (n : Nat) (vm vm' : VM) (e : Exit)
    (hm : vm.mem = noMem) (hl : vm.regs.length = 13) (hr : runInner p n vm = (some (.ok e), vm'))
    (ho : ∀ j v d, Reaches p j vm v → IsSkip p.mask p.code.length v.pc d → Ordinary p v d) :
    ∃ k vm1, Pvm.Paper.Runs p.code p.mask p.table 65536 k vm.paper vm1.paper ∧ vm1.gas = vm.gas - k ∧
      ((vm1.gas < 1 ∧ StartsAt p.mask vm1.pc) ∨ (¬ StartsAt p.mask vm1.pc ∧ e = .panic ∧ vm' = vm1) ∨
        ∃ d out s, IsSkip p.mask p.code.length vm1.pc d ∧
          Pvm.Paper.Does (IsBlockStart p.code p.mask) p.table 65536 (vm1.pc + 1 + d) vm1.paper (Pvm.Paper.effect p.code vm1.pc d vm1.paper.reg) out s ∧
          Returns 1 out (some (.ok e)) ∧ vm'.gas = vm1.gas - 1 ∧ vm'.paper.reg = s.reg ∧ vm'.paper.mem = s.mem ∧
          ((∃ n, out = .host n) → vm'.pc = s.pc)) := by
  obtain ⟨k, vm1, hk, hd, hit⟩ := runInner_split n vm _ _ hr
  obtain ⟨r1, r2, r3⟩ := reaches_runs h hc hk hm hl ho
  refine ⟨k, vm1, r1, (reaches_run hk 0).2.1, ?_⟩
  have hload := loadProgram_loaded h
  cases hi : p.instructionAt vm1.pc with
  | none =>
    refine .inr (.inl ⟨fun hst => ?_, ?_, ?_⟩)
    · obtain ⟨ins, hi'⟩ := hload.start _ hst
      rw [hi] at hi'; cases hi'
    · unfold iter at hit; rw [hi] at hit; cases hit; rfl
    · unfold iter at hit; rw [hi] at hit; cases hit; rfl
  | some ins =>
    obtain ⟨hst, b, hb, _⟩ := hload.inst _ _ hi
    by_cases hg : vm1.gas < 1
    · exact .inl ⟨hg, hst⟩
    · refine .inr (.inr ?_)
      obtain ⟨d, hd', hsk⟩ := hload.skipAt hst
      have h0 := ho k vm1 d hk hsk
      have hm1' : vm'.mem = noMem := by
        have := iter_noMem r3 hd
        rwa [hit] at this
      obtain ⟨out, s', hdoes, hret, hgas, hreg, hmem, hpc⟩ :=
        C50_step_partial blob p h (onTiny vm1) d (show 1 ≤ vm1.gas by omega) tiny_wf r2 hc hst hsk (ordinary_tiny r3 h0)
      rw [tiny_iter p vm1 r3 (fun ins hi => ordinary_sbrk h h0 hi), hit] at hret hgas hreg hmem hpc
      rw [onTiny_paper r3] at hdoes
      simp only [onTiny_paper hm1'] at hreg hmem
      exact ⟨d, out, s', hsk, hdoes, hret, hgas, hreg, hmem, fun ho => hpc (.inr ho)⟩

/-- Put 9 into register 1, then ask for function 7. -/
def Ex.askCode : Bytes := [0, 1, 5, 51, 1, 9, 10, 7, 9]
def Ex.askProg : Prog :=
  match loadProgram Ex.askCode with
  | .ok p => p
  | .error _ => countProg
def Ex.start : VM := { regs := List.replicate 13 0, mem := noMem, pc := 0, gas := 50 }
def Ex.mid : VM := (iter Ex.askProg Ex.start).2
def Ex.fin : VM := (iter Ex.askProg Ex.mid).2

theorem Ex.ask_ordinary (v : VM) (d : Nat) (hv : v = Ex.start ∨ v = Ex.mid) (hd : IsSkip Ex.askProg.mask Ex.askProg.code.length v.pc d) :
    Ordinary Ex.askProg v d := by
  have no0 : ¬ EndsBlock Ex.askProg.code 0 := by
    rintro ⟨b, hb, h⟩
    have hb' : Ex.askProg.code[0]? = some 51 := by decide
    rw [hb'] at hb; cases hb
    exact absurd h (by decide)
  rcases hv with e | e <;> subst e
  · have s : IsSkip Ex.askProg.mask Ex.askProg.code.length Ex.start.pc 2 := ⟨by decide, by decide, fun j hj => by
      have : ∀ j : Fin 2, ¬ StartsAt Ex.askProg.mask (Ex.start.pc + 1 + j.1) := by decide
      exact this ⟨j, hj⟩, by decide⟩
    have := hd.unique s
    subst this
    refine ⟨by decide +kernel, fun o h => ?_, fun e he => absurd he no0⟩
    exact absurd h (by rw [show Pvm.Paper.inst (Pvm.Paper.oct Ex.askProg.code Ex.start.pc) = .loadImm by decide]; intro h; cases h)
  · have s : IsSkip Ex.askProg.mask Ex.askProg.code.length Ex.mid.pc 1 := ⟨by decide, by decide, fun j hj => by
      have : ∀ j : Fin 1, ¬ StartsAt Ex.askProg.mask (Ex.mid.pc + 1 + j.1) := by decide
      exact this ⟨j, hj⟩, by decide⟩
    have := hd.unique s
    subst this
    refine ⟨by decide +kernel, fun o h => ?_, fun e he => absurd he no0⟩
    exact absurd h (by rw [show Pvm.Paper.inst (Pvm.Paper.oct Ex.askProg.code Ex.mid.pc) = .ecalli by decide]; intro h; cases h)

/-- The run satisfies the hypotheses; it asks for function 7 after two units of gas, with 9 in register 1. -/
example : (runInner Ex.askProg 9 Ex.start).1 = some (.ok (.hostCall 7)) ∧ Ex.fin.r 1 = 9 ∧ Ex.fin.gas = 48 ∧
    (∀ j v d, Reaches Ex.askProg j Ex.start v → IsSkip Ex.askProg.mask Ex.askProg.code.length v.pc d → Ordinary Ex.askProg v d) := by
  refine ⟨by decide +kernel, by decide +kernel, by decide +kernel, fun j v d hr hd => Ex.ask_ordinary v d ?_ hd⟩
  cases hr with
  | done => exact .inl rfl
  | step _ h hr =>
    have h1 : iter Ex.askProg Ex.start = (none, Ex.mid) := by decide +kernel
    rw [h1] at h
    cases h
    cases hr with
    | done => exact .inr rfl
    | step _ h _ =>
      have h2 : (iter Ex.askProg Ex.mid).1 = some (.ok (.hostCall 7)) := by decide +kernel
      rw [h] at h2
      cases h2

/-! ## Sequences of calls -/

/-- **Isolation.** A call changes no inner machine but the one it names (`machine`: the new one), makes a
machine only by `machine` and removes one only by `expunge`, never changes a machine's code, adds to
the exported segments only by `export`, and changes nothing when it ends the program. -/
theorem C52_isolated (other : Nat → VM → HostResult) (env : REnv) (cs : List (Nat × VM)) (h : Nat) (vm : VM) :
    Isolated h vm (refineCalls other env cs {}) (refineCall other env h vm (refineCalls other env cs {})).1
      (refineCall other env h vm (refineCalls other env cs {})).2 :=
  refineCall_isolated other env h vm _
    (bare_next (refineCalls_keeps other env (fun h vm _ hb => refineCall_bare other env h vm hb) _ _ (bare_empty {} rfl)))

/-- Two machines; running number 0 moves its program counter and leaves number 1. -/
def Ex.two : RCtx := refineCalls Ex.other Ex.env [(8, Ex.vm 0 6 0 0), (8, Ex.vm 8 6 0 0)] {}
set_option maxRecDepth 20000 in
example : (Ex.two.machines 0).map (·.pc) = some 0 ∧ (Ex.two.machines 1).map (·.code) = some [0, 1, 2, 10, 50, 1] ∧
    ((refineCall Ex.other Ex.env 12 (Ex.vm 0 100 0 0) Ex.two).2.machines 0).map (·.pc) = some 2 ∧
    (refineCall Ex.other Ex.env 12 (Ex.vm 0 100 0 0) Ex.two).2.machines 1 = Ex.two.machines 1 := by decide +kernel

/-- `machine` made number `n`. -/
def Makes (other : Nat → VM → HostResult) (env : REnv) (vm : VM) (x : RCtx) (n : Nat) (x' : RCtx) : Prop :=
  refineCall other env 8 vm x = (.ok (ret n), x') ∧ x.machines n = none ∧ x'.machines n ≠ none

theorem nextId_mono (other : Nat → VM → HostResult) (env : REnv) (cs : List (Nat × VM)) (x : RCtx) (hb : Bare x) :
    Bare (refineCalls other env cs x) ∧ x.nextId ≤ (refineCalls other env cs x).nextId :=
  refineCalls_keeps (P := fun y => Bare y ∧ x.nextId ≤ y.nextId) other env
    (fun h vm y hy => ⟨refineCall_bare other env h vm hy.1, by
      rcases (refineCall_isolated other env h vm y (bare_next hy.1)).ids with e | ⟨_, e⟩ <;> omega⟩) cs x ⟨hb, Nat.le_refl _⟩

/-- **A number is never given twice**: along any sequence of calls, whatever is removed in between, a later
machine gets a larger number than an earlier one. -/
theorem C52_ids_fresh (other : Nat → VM → HostResult) (env : REnv) (cs cs' : List (Nat × VM)) (vm vm' : VM) (x1 x2 : RCtx) (n n' : Nat)
    (h1 : Makes other env vm (refineCalls other env cs {}) n x1)
    (h2 : Makes other env vm' (refineCalls other env cs' x1) n' x2) : n < n' := by
  have hb := (nextId_mono other env cs {} (bare_empty {} rfl)).1
  have i1 := refineCall_isolated other env 8 vm _ (bare_next hb)
  have b1 := refineCall_bare other env 8 vm hb
  rw [h1.1] at i1 b1
  obtain ⟨_, e1, e2⟩ := i1.born n h1.2.1 h1.2.2
  obtain ⟨hb2, hle⟩ := nextId_mono other env cs' x1 b1
  have i2 := refineCall_isolated other env 8 vm' _ (bare_next hb2)
  rw [h2.1] at i2
  obtain ⟨_, e3, _⟩ := i2.born n' h2.2.1 h2.2.2
  simp only [] at e2 hle
  omega

/-- Make, remove, make: numbers 0 and 1. -/
def Ex.again : RCtx := refineCalls Ex.other Ex.env [(13, Ex.vm 0 0 0 0)] Ex.one
set_option maxRecDepth 20000 in
theorem Ex.again_is : Ex.again.machines 0 = none ∧ Ex.again.machines 1 = none ∧
    (refineCall Ex.other Ex.env 8 (Ex.vm 0 6 0 0) Ex.again).1 = .ok (ret 1) ∧
    ((refineCall Ex.other Ex.env 8 (Ex.vm 0 6 0 0) Ex.again).2.machines 1).isSome = true := by decide +kernel

/-- **Not the least number.** The paper gives a new machine the least unused number; after making and
removing number 0, the code gives 1 although 0 is unused. -/
theorem C51_id_not_least : ∃ (other : Nat → VM → HostResult) (env : REnv) (cs : List (Nat × VM)) (vm : VM),
    (refineCalls other env cs {}).machines 0 = none ∧
    (refineCall other env 8 vm (refineCalls other env cs {})).1 = .ok (ret 1) ∧
    ((refineCall other env 8 vm (refineCalls other env cs {})).2.machines 0).isSome = false :=
  ⟨Ex.other, Ex.env, [(8, Ex.vm 0 6 0 0), (13, Ex.vm 0 0 0 0)], Ex.vm 0 6 0 0, by decide +kernel⟩

theorem padBlock_length {size : Nat} {bs seg : Bytes} (h : padBlock size bs = some seg) : seg.length = size := by
  unfold padBlock at h
  by_cases c : bs.length > size
  · rw [if_pos c] at h; cases h
  rw [if_neg c] at h
  dsimp only at h
  generalize bs.take (if bs = [] then size else (bs.length + size - 1) / size * size) ++
    List.replicate ((if bs = [] then size else (bs.length + size - 1) / size * size) - bs.length) 0 = q at h
  by_cases d : q.length = size
  · rw [if_neg (fun hne => hne d)] at h; cases h; exact d
  · rw [if_pos d] at h; cases h

theorem hostExport_segments (env : REnv) (vm : VM) (x : RCtx) : (hostExport env vm x).2.exports = x.exports ∨
    ∃ seg, (hostExport env vm x).2.exports = x.exports ++ [seg] ∧ seg.length = SEGMENT ∧ x.exports.length + env.exportOffset < MAX_EXPORTS := by
  unfold hostExport
  split
  · exact .inl rfl
  split
  · exact .inl rfl
  split
  · exact .inl rfl
  dsimp only
  split
  · exact .inl rfl
  rename_i hf
  split
  · exact .inl rfl
  · rename_i seg hs
    refine .inr ⟨seg, rfl, ?_, by omega⟩
    exact padBlock_length hs

/-- **Exports.** Along any sequence of calls the exported segments only grow at the end, every one is 4104
octets long, and with those exported by earlier items there are never more than 3072. -/
theorem C52_exports (other : Nat → VM → HostResult) (env : REnv) (cs cs' : List (Nat × VM)) :
    (refineCalls other env cs {}).exports <+: (refineCalls other env cs' (refineCalls other env cs {})).exports ∧
    (∀ seg ∈ (refineCalls other env cs {}).exports, seg.length = 4104) ∧
    ((refineCalls other env cs {}).exports = [] ∨ (refineCalls other env cs {}).exports.length + env.exportOffset ≤ 3072) := by
  have step : ∀ h vm x, (refineCall other env h vm x).2.exports = x.exports ∨
      ∃ seg, (refineCall other env h vm x).2.exports = x.exports ++ [seg] ∧ seg.length = SEGMENT ∧ x.exports.length + env.exportOffset < MAX_EXPORTS := by
    intro h vm x
    by_cases h7 : h = 7
    · subst h7; exact hostExport_segments env vm x
    by_cases h8 : h = 8
    · subst h8
      left
      show (hostMachine vm x).2.exports = _
      unfold hostMachine
      split
      · rfl
      split
      · rfl
      split
      · rfl
      split <;> rfl
    left
    unfold refineCall
    rw [if_neg h7, if_neg h8]
    split
    · rfl
    split
    · rw [hostPeek_same]
    split
    · rcases (hostPoke_isolated vm x).exports with e | ⟨e, _⟩
      · exact e
      · cases e
    split
    · rcases (hostPages_isolated vm x).exports with e | ⟨e, _⟩
      · exact e
      · cases e
    split
    · rcases (hostInvoke_isolated vm x).exports with e | ⟨e, _⟩
      · exact e
      · cases e
    split
    · rcases (hostExpunge_isolated vm x).exports with e | ⟨e, _⟩
      · exact e
      · cases e
    · rfl
  constructor
  · refine refineCalls_keeps (P := fun y => (refineCalls other env cs {}).exports <+: y.exports) other env (fun h vm y hy => ?_) cs' _ (List.prefix_refl _)
    rcases step h vm y with e | ⟨seg, e, _⟩ <;> rw [e]
    · exact hy
    · exact hy.trans (List.prefix_append _ _)
  · refine refineCalls_keeps (P := fun y => (∀ seg ∈ y.exports, seg.length = 4104) ∧ (y.exports = [] ∨ y.exports.length + env.exportOffset ≤ 3072))
      other env (fun h vm y hy => ?_) cs _ ⟨fun _ h => (by cases h), .inl rfl⟩
    rcases step h vm y with e | ⟨seg, e, h1, h2⟩ <;> rw [e]
    · exact hy
    · refine ⟨fun s hs => ?_, .inr ?_⟩
      · rcases List.mem_append.1 hs with h | h
        · exact hy.1 s h
        · rw [List.mem_singleton.1 h]; exact h1
      · rw [List.length_append, List.length_singleton]
        unfold MAX_EXPORTS at h2
        omega

/-- With 3070 exported before, three exports: the third is told `FULL`. -/
def Ex.exp : RCtx := refineCalls Ex.other Ex.env [(7, Ex.vm 0 2 0 0), (7, Ex.vm 0 6 0 0)] {}
set_option maxRecDepth 20000 in
example : Ex.exp.exports.length = 2 ∧ (refineCall Ex.other Ex.env 7 (Ex.vm 0 6 0 0) Ex.exp).1 = .ok (ret FULL) := by
  decide +kernel

/-! ## Inner machines have no memory -/

/-- **Inner machines never have memory.** After any sequence of calls, the memory of every inner machine is
the one it started with, `Memory::default()`: no octet is readable or writable, and none ever will be. -/
theorem C51_no_inner_memory (other : Nat → VM → HostResult) (env : REnv) (cs : List (Nat × VM)) (n : Nat) (i : Inner)
    (h : (refineCalls other env cs {}).machines n = some i) : i.mem = noMem ∧ ∀ a, i.mem.abs.perm a = .inaccessible := by
  have := (nextId_mono other env cs {} (bare_empty {} rfl)).1.none n i h
  exact ⟨this, fun a => by rw [this]; rfl⟩

example : (refineCalls Ex.other Ex.env [(8, Ex.vm 0 6 0 0), (11, Ex.vm 0 16 1 2), (12, Ex.vm 0 100 0 0)] {}).machines 0 =
    some { code := Ex.code, mem := noMem, pc := 2 } := by decide +kernel

/-- **Pages cannot be made accessible.** For every request the paper grants to a machine (at least one page
from page 16 on, below the top of memory, mode 0, 1 or 2), the code returns `HUH`, while the paper
allows only the answer 0. -/
theorem C51_pages_refused (other : Nat → VM → HostResult) (env : REnv) (cs : List (Nat × VM)) (vm : VM) (i : Inner) (Ψ : Paper.Invocation) (nx : Paper.NextPos)
    (hg : 10 ≤ vm.gas) (hi : (refineCalls other env cs {}).machines (VM.n vm 7) = some i)
    (h16 : 16 ≤ VM.n vm 8) (hc : 0 < VM.n vm 9) (ht : VM.n vm 8 + VM.n vm 9 < 2 ^ 20) (hm : VM.n vm 10 < 3) :
    (refineCall other env 11 vm (refineCalls other env cs {})).1 = .ok (ret HUH) ∧
    (∀ r c, Call env Ψ nx vm (refineCalls other env cs {}) 11 r c → r = .ret 0 none none) ∧
    ¬ Follows env Ψ nx vm (refineCalls other env cs {}) 11 (refineCall other env 11 vm (refineCalls other env cs {})) := by
  have hmem := (C51_no_inner_memory other env cs _ i hi).1
  have h1 : (refineCall other env 11 vm (refineCalls other env cs {})).1 = .ok (ret HUH) := by
    show (hostPages vm _).1 = _
    unfold hostPages
    rw [enough hg, if_neg (by decide), hi]
    dsimp only
    rw [show (VM.n vm 8 + VM.n vm 9) % U64 = VM.n vm 8 + VM.n vm 9 from Nat.mod_eq_of_lt (by unfold U64; omega)]
    rw [if_neg (by unfold U32 PAGE; omega), if_neg (by omega), if_pos (by omega)]
    rw [show VM.n vm 9 * PAGE % U64 = VM.n vm 9 * PAGE from Nat.mod_eq_of_lt (by unfold U64 PAGE; omega)]
    rw [if_neg (by unfold PAGE; omega), hmem]
    generalize VM.n vm 8 * PAGE % U64 % U32 = a
    have : ∃ e, noMem.writeBytes a (List.replicate (VM.n vm 9 * PAGE) 0) = (.error e, noMem) := by
      unfold Mem.writeBytes
      rw [if_neg (by rw [List.length_replicate]; unfold PAGE; omega)]
      unfold Mem.validate
      dsimp only
      split
      · rename_i e; split at e
        · cases e; exact ⟨_, rfl⟩
        · split at e
          · cases e; exact ⟨_, rfl⟩
          · rename_i _ hn; exact absurd (by rw [List.length_replicate]; simp [noMem, PAGE]; omega) hn
      · rename_i e; split at e
        · cases e
        · split at e
          · cases e
          · rename_i _ hn; exact absurd (by rw [List.length_replicate]; simp [noMem, PAGE]; omega) hn
    obtain ⟨e, he⟩ := this
    rw [he]
  have h2 : ∀ r c, Call env Ψ nx vm (refineCalls other env cs {}) 11 r c → r = .ret 0 none none := by
    intro r c h
    have hmach := abs_mach_some hi
    cases h with
    | pagesWho hw => rw [show φ vm 7 = VM.n vm 7 from rfl, hmach] at hw; cases hw
    | pagesHuh _ hb =>
      have a : φ vm 10 = VM.n vm 10 := rfl
      have b : φ vm 8 = VM.n vm 8 := rfl
      have c : φ vm 9 = VM.n vm 9 := rfl
      omega
    | pagesBare _ _ hb =>
      have a : φ vm 10 = VM.n vm 10 := rfl
      omega
    | pages => rfl
  refine ⟨h1, h2, ?_⟩
  rintro ⟨r, c, hcall, hr, _⟩
  rw [h2 r c hcall, h1] at hr
  have : (ret HUH).r7 = (Paper.Res.result (.ret 0 none none)).r7 := by injection hr with hr; rw [hr]
  exact absurd this (by decide)

set_option maxRecDepth 20000 in
example : (refineCall Ex.other Ex.env 11 (Ex.vm 0 16 1 2) Ex.one).1 = .ok (ret HUH) ∧
    (Ex.one.machines 0).isSome = true := by decide +kernel

/-- **The rest of `pages`.** For every other request whose end does not wrap round `2^64`, the answer is the
paper's: no such machine, a request the paper refuses, and one for no pages. Missing: the requests of
`C51_pages_refused`, `C51_pages_crash` and `C51_pages_wrap_granted`. -/
theorem C51_pages_partial (other : Nat → VM → HostResult) (env : REnv) (cs : List (Nat × VM)) (vm : VM) (Ψ : Paper.Invocation) (nx : Paper.NextPos)
    (hg : 10 ≤ vm.gas) (hw : VM.n vm 8 + VM.n vm 9 < 2 ^ 64)
    (hn : ¬ (VM.n vm 10 < 3 ∧ 0 < VM.n vm 9 ∧ 16 ≤ VM.n vm 8 ∧ VM.n vm 8 + VM.n vm 9 < 2 ^ 20)) :
    Follows env Ψ nx vm (refineCalls other env cs {}) 11 (refineCall other env 11 vm (refineCalls other env cs {})) := by
  show Follows env Ψ nx vm _ 11 (hostPages vm _)
  have h8 : φ vm 8 = VM.n vm 8 := rfl
  have h9 : φ vm 9 = VM.n vm 9 := rfl
  have h10 : φ vm 10 = VM.n vm 10 := rfl
  unfold hostPages
  rw [enough hg, if_neg (by decide)]
  cases hi : (refineCalls other env cs {}).machines (VM.n vm 7) with
  | none => exact ⟨_, _, .pagesWho (abs_mach_none hi), rfl, rfl⟩
  | some i =>
    have hmem := (C51_no_inner_memory other env cs _ i hi).1
    have hmach := abs_mach_some hi
    dsimp only
    rw [show (VM.n vm 8 + VM.n vm 9) % U64 = VM.n vm 8 + VM.n vm 9 from Nat.mod_eq_of_lt (by unfold U64; omega)]
    by_cases c1 : VM.n vm 10 > 4 ∨ VM.n vm 8 < 16 ∨ VM.n vm 8 + VM.n vm 9 ≥ U32 / PAGE
    · rw [if_pos c1]
      exact ⟨_, _, .pagesHuh hmach (by rw [h8, h9, h10]; unfold U32 PAGE at c1; omega), rfl, rfl⟩
    · rw [if_neg c1]
      have hlegal : ¬ (4 < φ vm 10 ∨ φ vm 8 < 16 ∨ 2 ^ 32 / 4096 ≤ φ vm 8 + φ vm 9) := by
        rw [h8, h9, h10]; unfold U32 PAGE at c1; omega
      rw [show VM.n vm 8 + VM.n vm 9 - VM.n vm 8 = VM.n vm 9 by omega, hmem]
      by_cases c0 : VM.n vm 9 = 0
      · rw [c0]
        rw [if_neg (c := VM.n vm 10 > 2 ∧ allPages noMem.pageReadable (VM.n vm 8) 0 = false) (fun h => by cases h.2)]
        have hset : pagesAccess (refineCalls other env cs {}) (VM.n vm 7) i noMem (VM.n vm 8) (VM.n vm 8 + 0) (VM.n vm 10) =
            (.ok (ret OK), (refineCalls other env cs {}).put (VM.n vm 7) (some { i with mem := noMem })) := by
          unfold pagesAccess Mem.setPageRange
          rw [show VM.n vm 8 + 0 - VM.n vm 8 = 0 by omega]
          rfl
        have hfin : Follows env Ψ nx vm (refineCalls other env cs {}) 11
            (.ok (ret OK), (refineCalls other env cs {}).put (VM.n vm 7) (some { i with mem := noMem })) := by
          refine ⟨_, _, .pages hmach hlegal ?_, rfl, ?_⟩
          · rintro ⟨_, hnr⟩
            apply hnr
            intro a _ ha
            rw [h9, c0] at ha
            omega
          · show ((refineCalls other env cs {}).put (VM.n vm 7) (some { i with mem := noMem })).abs = _
            rw [abs_put, ← hmem]
            have : Paper.PMem.paged i.mem.abs (φ vm 8) (φ vm 9) (φ vm 10) = i.mem.abs := by
              rw [h9, c0]
              unfold Paper.PMem.paged
              congr 1
              · funext a; rw [if_neg (by omega)]; rfl
              · funext a; rw [if_neg (by omega)]; rfl
            rw [this]
            rfl
        split
        · rw [if_neg (by decide)]
          have : ∀ a, noMem.writeBytes a (List.replicate (0 * PAGE % U64) 0) = (.ok (), noMem) := fun a => rfl
          rw [this]
          simp only []
          rw [hset]
          exact hfin
        · rw [hset]; exact hfin
      · have hm3 : 2 < VM.n vm 10 := by unfold U32 PAGE at c1; omega
        have hall : allPages noMem.pageReadable (VM.n vm 8) (VM.n vm 9) = false := by
          obtain ⟨k, hk⟩ : ∃ k, VM.n vm 9 = k + 1 := ⟨VM.n vm 9 - 1, by omega⟩
          rw [hk]
          rfl
        rw [if_pos ⟨hm3, hall⟩]
        refine ⟨_, _, .pagesBare hmach hlegal ⟨by rw [h10]; exact hm3, fun hcr => ?_⟩, rfl, rfl⟩
        have := hcr (φ vm 8 * 4096) (Nat.le_refl _) (by rw [h9]; omega)
        rw [hmem] at this
        exact this rfl

set_option maxRecDepth 20000 in
example : (refineCall Ex.other Ex.env 11 (Ex.vm 0 15 1 1) Ex.one).1 = .ok (ret HUH) ∧
    (refineCall Ex.other Ex.env 11 (Ex.vm 0 16 0 1) Ex.one).1 = .ok (ret OK) ∧
    (refineCall Ex.other Ex.env 11 (Ex.vm 5 16 1 1) Ex.one).1 = .ok (ret WHO) := by decide +kernel

/-- **Nothing can be put in or taken out.** `peek` and `poke` of at least one octet never succeed. -/
theorem C51_peek_poke_refused (other : Nat → VM → HostResult) (env : REnv) (cs : List (Nat × VM)) (h : Nat) (hh : h = 9 ∨ h = 10) (vm : VM) (r : HostResult)
    (hz : VM.n vm 10 ≠ 0) (hr : (refineCall other env h vm (refineCalls other env cs {})).1 = .ok r) :
    r = oog ∨ r = hpanic ∨ r = ret WHO ∨ r = ret OOB := by
  have hno : ∀ a, noMem.rangeReadable a (VM.n vm 10) = false ∧ noMem.rangeWritable a (VM.n vm 10) = false := by
    intro a
    unfold Mem.rangeReadable Mem.rangeWritable Mem.rangeTest
    dsimp only
    rw [if_neg hz, if_neg hz, if_pos (by simp [noMem]), if_pos (by simp [noMem])]
    exact ⟨rfl, rfl⟩
  rcases hh with e | e <;> subst e
  · change (hostPeek vm _).1 = _ at hr
    unfold hostPeek at hr
    split at hr
    · cases hr; exact .inl rfl
    split at hr
    · cases hr; exact .inr (.inl rfl)
    dsimp only at hr
    split at hr
    · cases hr; exact .inr (.inl rfl)
    split at hr
    · cases hr; exact .inr (.inr (.inl rfl))
    rename_i i hi
    split at hr
    · cases hr; exact .inr (.inr (.inr rfl))
    rename_i s _
    rw [(C51_no_inner_memory other env cs _ i hi).1, (hno s).1] at hr
    simp only [Bool.not_false, if_true] at hr
    cases hr; exact .inr (.inr (.inr rfl))
  · change (hostPoke vm _).1 = _ at hr
    unfold hostPoke at hr
    split at hr
    · cases hr; exact .inl rfl
    split at hr
    · cases hr; exact .inr (.inl rfl)
    dsimp only at hr
    split at hr
    · cases hr; exact .inr (.inl rfl)
    split at hr
    · cases hr; exact .inr (.inr (.inl rfl))
    rename_i i hi
    split at hr
    · cases hr; exact .inr (.inr (.inr rfl))
    rename_i s _
    rw [(C51_no_inner_memory other env cs _ i hi).1, (hno s).2] at hr
    simp only [Bool.not_false, if_true] at hr
    cases hr; exact .inr (.inr (.inr rfl))

set_option maxRecDepth 20000 in
example : (refineCall Ex.other Ex.env 10 (Ex.vm 0 0 65536 4) Ex.one).1 = .ok (ret OOB) := by decide +kernel

/-- **An inner memory access aborts the refinement.** If an inner machine comes to a load or store above
the zone with gas left, `invoke` does not return a page fault to its caller: it fails with an error,
which ends the whole refinement. -/
theorem C51_inner_access_aborts (x : RCtx) (n o w : Nat) (i : Inner) (rs : List Reg) (p : Prog) (k d a wd : Nat) (vm : VM)
    (hm : i.mem = noMem) (hl : loadProgram i.code = .ok p) (hw : w < 2 ^ 63)
    (hr : Reaches p k { regs := rs, mem := i.mem, pc := i.pc, gas := w } vm) (hg : 1 ≤ vm.gas) (hs : StartsAt p.mask vm.pc)
    (hd : IsSkip p.mask p.code.length vm.pc d)
    (he : (∃ r sg, Pvm.Paper.effect p.code vm.pc d vm.paper.reg = .load r a wd sg) ∨ ∃ v, Pvm.Paper.effect p.code vm.pc d vm.paper.reg = .store a wd v)
    (hz : 65536 ≤ a % 2 ^ 32) : ∃ e, invokeRun x n o i w rs = (.err e, x) := by
  obtain ⟨r1, r2, r3, _⟩ := reaches_run hr (w + 2 - k)
  have hmem := r3 hm
  have hk : k ≤ w := by
    have : ({ regs := rs, mem := i.mem, pc := i.pc, gas := (w : Int) } : VM).gas = w := rfl
    omega
  obtain ⟨⟨e, hit⟩, _⟩ := C50_past_end_error i.code p hl vm d a wd hg hs hd he (by rw [hmem]; exact hz)
    (by rw [hmem]; show 0 < _; omega)
  have hsb : divides p vm = false := by
    unfold divides
    obtain ⟨ins, hi⟩ := (loadProgram_loaded hl).start _ hs
    rw [hi]
    simp only []
    by_cases hop : ins.op = .sbrk
    · exfalso
      obtain ⟨_, b, hb, hob⟩ := (loadProgram_loaded hl).inst _ _ hi
      have hoct : Pvm.Paper.oct p.code vm.pc = b.toNat := by
        unfold Pvm.Paper.oct
        rw [List.getD_eq_getElem?_getD, hb]
        rfl
      have : Pvm.Paper.effect p.code vm.pc d vm.paper.reg = .grow := by
        unfold Pvm.Paper.effect
        rw [hoct, inst_ofByte, ← hob, hop]
        rfl
      rcases he with ⟨_, _, he⟩ | ⟨_, he⟩ <;> rw [this] at he <;> cases he
    · rw [if_neg (fun h => hop h.1)]
  have hrun : ∃ v, runInner p (w + 2) { regs := rs, mem := i.mem, pc := i.pc, gas := w } = (some (.error e), v) := by
    rw [show w + 2 = w + 2 - k + k by omega, r1, show w + 2 - k = (w + 1 - k) + 1 by omega]
    unfold runInner
    rw [hsb]
    rcases hx : iter p vm with ⟨q, v⟩
    rw [hx] at hit
    simp only [] at hit
    subst hit
    exact ⟨v, rfl⟩
  obtain ⟨v, hrun⟩ := hrun
  refine ⟨e, ?_⟩
  unfold invokeRun
  rw [if_neg (by omega), hl]
  simp only []
  rw [hrun]

/-- Load the octet at 65536 in an inner machine: the refinement is over. -/
def Ex.loadCode : Bytes := [0, 1, 5, 52, 1, 0, 0, 1, 1]
def Ex.loadProg : Prog :=
  match loadProgram Ex.loadCode with
  | .ok p => p
  | .error _ => countProg
def Ex.loader : Inner := Inner.new Ex.loadCode 0
set_option maxRecDepth 20000 in
example : ∃ e, invokeRun {} 0 100 Ex.loader 50 (List.replicate 13 0) = (.err e, {}) :=
  C51_inner_access_aborts {} 0 100 50 Ex.loader (List.replicate 13 0) Ex.loadProg 0 4 65536 1
    { regs := List.replicate 13 0, mem := noMem, pc := 0, gas := 50 } rfl (by decide) (by decide) .done (by decide) (by decide)
    ⟨by decide, by decide, fun j hj => by
      have : ∀ j : Fin 4, ¬ StartsAt Ex.loadProg.mask (0 + 1 + j.1) := by decide
      exact this ⟨j, hj⟩, by decide⟩ (.inl ⟨1, false, rfl⟩) (by decide)

/-- **Growing the heap of an inner machine crashes the node's thread.** `sbrk` by an amount that is not a
multiple of `2^32` divides by the page size, which is zero. -/
theorem C51_inner_sbrk_crashes (x : RCtx) (n o w : Nat) (i : Inner) (rs : List Reg) (p : Prog) (k : Nat) (vm : VM) (ins : Instr)
    (hm : i.mem = noMem) (hl : loadProgram i.code = .ok p) (hw : w < 2 ^ 63)
    (hr : Reaches p k { regs := rs, mem := i.mem, pc := i.pc, gas := w } vm) (hk : k ≤ w) (hi : p.instructionAt vm.pc = some ins)
    (hop : ins.op = .sbrk) (hz : (vm.r ins.rs1).toNat % 2 ^ 32 ≠ 0) : invokeRun x n o i w rs = (.crash, x) := by
  obtain ⟨r1, _, r3, _⟩ := reaches_run hr (w + 2 - k)
  have hd : divides p vm = true := by
    rw [divides_sbrk hi hop (r3 hm)]
    simpa using hz
  have hrun : runInner p (w + 2) { regs := rs, mem := i.mem, pc := i.pc, gas := w } = (none, vm) := by
    rw [show w + 2 = w + 2 - k + k by omega, r1, show w + 2 - k = (w + 1 - k) + 1 by omega]
    unfold runInner
    rw [hd]
    rfl
  unfold invokeRun
  rw [if_neg (by omega), hl]
  simp only []
  rw [hrun]

/-- `sbrk` by the content of register 1, which is 7. -/
def Ex.growCode : Bytes := [0, 1, 2, 101, 0x10, 1]
set_option maxRecDepth 20000 in
example : (invokeRun {} 0 100 (Inner.new Ex.growCode 0) 50 (List.replicate 13 7)).1 = .crash := by decide +kernel

/-! ## Other departures -/

/-- **A page count can crash the thread.** When the first page plus the count wraps round `2^64` to a small
number and the octets to clear, reduced mod `2^64`, exceed `isize::MAX`, the allocation panics. The
paper answers `HUH`. -/
theorem C51_pages_crash (other : Nat → VM → HostResult) (env : REnv) (vm : VM) (x : RCtx) (i : Inner) (Ψ : Paper.Invocation) (nx : Paper.NextPos)
    (hg : 10 ≤ vm.gas) (hi : x.machines (VM.n vm 7) = some i) (hm : VM.n vm 10 < 3) (h16 : 16 ≤ VM.n vm 8)
    (hw : (VM.n vm 8 + VM.n vm 9) % 2 ^ 64 < 2 ^ 20) (hb : 2 ^ 63 ≤ VM.n vm 9 * 4096 % 2 ^ 64) :
    (refineCall other env 11 vm x).1 = .crash ∧ Call env Ψ nx vm x 11 (.ret Paper.HUH none none) x.abs := by
  constructor
  · show (hostPages vm x).1 = _
    unfold hostPages
    rw [enough hg, if_neg (by decide), hi]
    dsimp only
    rw [if_neg (by unfold U64 U32 PAGE; omega), if_neg (by omega), if_pos hm, if_pos (by unfold U64 PAGE; omega)]
  · refine .pagesHuh (abs_mach_some hi) (.inr (.inr ?_))
    show 2 ^ 32 / 4096 ≤ VM.n vm 8 + VM.n vm 9
    have : VM.n vm 9 < 2 ^ 64 := (vm.r 9).isLt
    omega

set_option maxRecDepth 20000 in
example : (refineCall Ex.other Ex.env 11 (Ex.vm 0 16 (2 ^ 64 - 1) 1) Ex.one).1 = .crash := by decide +kernel

/-- **A page range past the top of memory is granted.** In modes 3 and 4, when first page plus count wraps
round to at most the first page, the code looks at no page and returns 0; the paper answers `HUH`. -/
theorem C51_pages_wrap_granted (other : Nat → VM → HostResult) (env : REnv) (vm : VM) (x : RCtx) (i : Inner) (Ψ : Paper.Invocation) (nx : Paper.NextPos)
    (hg : 10 ≤ vm.gas) (hi : x.machines (VM.n vm 7) = some i) (hm : VM.n vm 10 = 3 ∨ VM.n vm 10 = 4) (h16 : 16 ≤ VM.n vm 8)
    (hc : 0 < VM.n vm 9) (hw : (VM.n vm 8 + VM.n vm 9) % 2 ^ 64 ≤ VM.n vm 8) (ht : (VM.n vm 8 + VM.n vm 9) % 2 ^ 64 < 2 ^ 20) :
    (refineCall other env 11 vm x).1 = .ok (ret OK) ∧ ¬ Follows env Ψ nx vm x 11 (refineCall other env 11 vm x) := by
  have h1 : (refineCall other env 11 vm x).1 = .ok (ret OK) := by
    show (hostPages vm x).1 = _
    unfold hostPages
    rw [enough hg, if_neg (by decide), hi]
    dsimp only
    have h0 : (VM.n vm 8 + VM.n vm 9) % U64 - VM.n vm 8 = 0 := by unfold U64; omega
    rw [if_neg (by unfold U64 U32 PAGE; omega), h0, if_neg (by intro h; exact absurd h.2 (by simp [allPages])), if_neg (by omega)]
    unfold pagesAccess Mem.setPageRange
    rw [h0]
    rfl
  refine ⟨h1, ?_⟩
  rintro ⟨r, c, hcall, hr, _⟩
  rw [h1] at hr
  have h8 : φ vm 8 = VM.n vm 8 := rfl
  have h9 : φ vm 9 = VM.n vm 9 := rfl
  have hlt : VM.n vm 8 < 2 ^ 64 := (vm.r 8).isLt
  have hbig : 2 ^ 32 / 4096 ≤ φ vm 8 + φ vm 9 := by omega
  have key : ∀ v : Nat, Out.ok (ret OK) = .ok (Paper.Res.result (.ret v none none)) → (reg OK) = reg v := by
    intro v h
    injection h with h
    have : (ret OK).r7 = (Paper.Res.result (.ret v none none)).r7 := by rw [h]
    injection this
  cases hcall with
  | pagesWho hw' => rw [show φ vm 7 = VM.n vm 7 from rfl, abs_mach_some hi] at hw'; cases hw'
  | pagesHuh => exact absurd (key _ hr) (by decide)
  | pagesBare _ h _ => exact h (.inr (.inr hbig))
  | pages _ h _ => exact h (.inr (.inr hbig))

set_option maxRecDepth 20000 in
example : (refineCall Ex.other Ex.env 11 (Ex.vm 0 16 (2 ^ 64 - 1) 3) Ex.one).1 = .ok (ret OK) := by decide +kernel

/-- **The number of an inner host call is lost.** An inner machine asking for a function the code has no name
for is told to its caller as asking for 255, so the caller cannot provide functions of its own. -/
theorem C51_host_number_lost (x : RCtx) (n o w h : Nat) (i : Inner) (rs : List Reg) (p : Prog) (vm' : VM) (hw : w < 2 ^ 63)
    (hl : loadProgram i.code = .ok p) (hr : runInner p (w + 2) { regs := rs, mem := i.mem, pc := i.pc, gas := w } = (some (.ok (.hostCall h)), vm'))
    (h26 : 26 < h) (h100 : h ≠ 100) : ∃ r x', invokeRun x n o i w rs = (.ok r, x') ∧ r.r7 = some (reg 3) ∧ r.r8 = some (reg 255) := by
  unfold invokeRun
  rw [if_neg (by omega), hl]
  simp only []
  rw [hr]
  simp only [invokeEnd, invokeCodes, hostNumber]
  rw [if_neg (by omega)]
  exact ⟨_, _, rfl, rfl, rfl⟩

/-- The second program of the example asks for 50. -/
def Ex.lost : Out := (refineCall Ex.other Ex.env 12 (Ex.vm 1 100 0 0) Ex.two).1
set_option maxRecDepth 20000 in
example : Ex.lost = .ok { exit := .cont, charge := BASE_GAS, r7 := some (reg 3), r8 := some (reg 255), mem := some (100, 49 :: List.replicate 111 0) } := by
  decide +kernel

/-- **Empty ranges.** Reading no octets is always allowed by the paper; the code panics when the address
does not fit 32 bits. -/
theorem C51_empty_range_panics (other : Nat → VM → HostResult) (env : REnv) (vm : VM) (x : RCtx) (Ψ : Paper.Invocation) (nx : Paper.NextPos) (h : Nat)
    (hh : h = 7 ∨ h = 8) (hg : 10 ≤ vm.gas) (h7 : 2 ^ 32 ≤ VM.n vm 7) (h8 : VM.n vm 8 = 0) :
    (refineCall other env h vm x).1 = .ok hpanic ∧ ¬ ∃ c, Call env Ψ nx vm x h .panic c := by
  have hu : u32? vm 7 = none := by
    unfold u32? U32
    rw [if_neg (by omega)]
  rcases hh with e | e <;> subst e
  · constructor
    · show (hostExport env vm x).1 = _
      unfold hostExport
      rw [enough hg, if_neg (by decide), hu]
    · rintro ⟨c, hc⟩
      cases hc with
      | exportPanic hn =>
        apply hn
        intro a _ ha
        rw [show φ vm 8 = VM.n vm 8 from rfl, h8] at ha
        omega
  · constructor
    · show (hostMachine vm x).1 = _
      unfold hostMachine
      rw [enough hg, if_neg (by decide), hu]
    · rintro ⟨c, hc⟩
      cases hc with
      | machinePanic hn =>
        apply hn
        intro a _ ha
        rw [show φ vm 8 = VM.n vm 8 from rfl, h8] at ha
        omega

set_option maxRecDepth 20000 in
example : (refineCall Ex.other Ex.env 7 (Ex.vm (2 ^ 32) 0 0 0) {}).1 = .ok hpanic ∧
    (refineCall Ex.other Ex.env 7 (Ex.vm 256 0 0 0) {}).1 = .ok (ret 3070) := by decide +kernel

/-- **A gas limit of `2^63` or more aborts the refinement** instead of running the inner machine. -/
theorem C51_gas_limit_aborts (x : RCtx) (n o w : Nat) (i : Inner) (rs : List Reg) (hw : 2 ^ 63 ≤ w) :
    invokeRun x n o i w rs = (.err .tooLargeGas, x) := by
  unfold invokeRun
  rw [if_pos hw]

/-- **Running out of gas hands back `2^64 - 1` units.** An inner machine given no gas is stopped at its first
instruction with the counter at minus one; what the caller reads back as left is `2^64 - 1`. -/
theorem C51_out_of_gas_wraps (x : RCtx) (n o : Nat) (i : Inner) (rs : List Reg) (p : Prog) (ins : Instr)
    (hl : loadProgram i.code = .ok p) (hi : p.instructionAt i.pc = some ins) (hop : ins.op = .fallthrough) :
    ∃ r x', invokeRun x n o i 0 rs = (.ok r, x') ∧ r.r7 = some (reg 4) ∧ ∃ bs, r.mem = some (o, bs) ∧ Paper.num bs 0 = 2 ^ 64 - 1 := by
  have hit : iter p { regs := rs, mem := i.mem, pc := i.pc, gas := 0 } = (some (.ok .outOfGas), { regs := rs, mem := i.mem, pc := i.pc, gas := -1 }) := by
    unfold iter
    rw [hi]
    simp only []
    unfold singleStep
    rw [hop]
    rfl
  have hd : divides p { regs := rs, mem := i.mem, pc := i.pc, gas := 0 } = false := by
    unfold divides
    rw [hi]
    simp only []
    rw [if_neg (by rw [hop]; intro h; cases h.1)]
  have hrun : runInner p (0 + 2) { regs := rs, mem := i.mem, pc := i.pc, gas := (0 : Nat) } = (some (.ok .outOfGas), { regs := rs, mem := i.mem, pc := i.pc, gas := -1 }) := by
    unfold runInner
    rw [show ((0 : Nat) : Int) = 0 from rfl, hd, hit]
    rfl
  unfold invokeRun
  rw [if_neg (by decide), hl]
  simp only []
  rw [hrun]
  refine ⟨_, _, rfl, rfl, _, rfl, ?_⟩
  have := handBack_gas { regs := rs, mem := i.mem, pc := i.pc, gas := -1 }
  have h2 : ((-1 : Int) % 2 ^ 64) = 2 ^ 64 - 1 := by decide
  simp only [h2] at this
  omega

set_option maxRecDepth 20000 in
example : ((invokeRun {} 0 100 (Inner.new [0, 1, 1, 1, 1] 0) 0 (List.replicate 13 0)).1) =
    .ok { exit := .cont, charge := BASE_GAS, r7 := some (reg 4), mem := some (100, List.replicate 8 255 ++ List.replicate 104 0) } := by
  decide +kernel

/-! ## Historical lookup -/

/-- The account register 7 names: all ones for the refined service itself, if it exists. -/
inductive Names (env : REnv) (v : Nat) : Nat → Prop
  | self (h : v = 2 ^ 64 - 1) (he : env.state.metas env.self ≠ none) : Names env v env.self
  | other (h : v < 2 ^ 32) (he : env.state.metas v ≠ none) : Names env v v

/-- **Historical lookups** are answered from the state at the lookup anchor: the hash at register 8 must be
readable; the answer is a window of the octets the named account had available at the anchor's slot, or
`NONE` if there are none. -/
theorem C51_historical (env : REnv) (vm : VM) (now : Nat) (hg : 10 ≤ vm.gas) (C : env.state.SlotsOk now) :
    (readHash vm 8 = none ∧ hostHistorical env vm = .ok hpanic) ∨
    ∃ k, readHash vm 8 = some k ∧
      ((∃ s d ts, Names env (VM.n vm 7) s ∧ env.state.preimages s k = some d ∧ env.state.lookups s (k, d.length % U32) = some ts ∧
          Available ts env.anchor ∧ hostHistorical env vm = .ok (serve vm d 9 10 11)) ∨
       ((¬ ∃ s d ts, Names env (VM.n vm 7) s ∧ env.state.preimages s k = some d ∧ env.state.lookups s (k, d.length % U32) = some ts ∧
          Available ts env.anchor) ∧ hostHistorical env vm = .ok (ret NONE))) := by
  unfold hostHistorical
  rw [enough hg, if_neg (by decide)]
  cases hk : readHash vm 8 with
  | none => exact .inl ⟨rfl, rfl⟩
  | some k =>
    refine .inr ⟨k, rfl, ?_⟩
    simp only []
    have htar : ∀ s, histTarget env vm = some s ↔ Names env (VM.n vm 7) s := by
      intro s
      have hex : ∀ t, accountExists env.state t = true ↔ env.state.metas t ≠ none := by
        intro t; unfold accountExists; cases env.state.metas t <;> simp
      unfold histTarget
      by_cases c : VM.n vm 7 = U64 - 1 ∧ accountExists env.state env.self = true
      · rw [if_pos c]
        constructor
        · intro h; cases h; exact .self c.1 ((hex _).1 c.2)
        · intro h
          cases h with
          | self => rfl
          | other h => have := c.1; unfold U64 at this; omega
      · rw [if_neg c]
        unfold u32?
        by_cases d : VM.n vm 7 < U32
        · rw [if_pos d]
          simp only []
          by_cases e : accountExists env.state (VM.n vm 7) = true
          · rw [if_pos e]
            constructor
            · intro h; cases h; exact .other d ((hex _).1 e)
            · intro h
              cases h with
              | self h => unfold U32 at d; omega
              | other => rfl
          · rw [if_neg e]
            constructor
            · intro h; cases h
            · intro h
              cases h with
              | self h => unfold U32 at d; omega
              | other _ he => exact absurd ((hex _).2 he) e
        · rw [if_neg d]
          constructor
          · intro h; cases h
          · intro h
            cases h with
            | self h he => exact absurd ⟨h, (hex _).2 he⟩ c
            | other h => exact absurd h d
    cases ht : histTarget env vm with
    | none =>
      refine .inr ⟨?_, rfl⟩
      rintro ⟨s, d, ts, hn, _⟩
      rw [← htar] at hn
      rw [ht] at hn; cases hn
    | some s =>
      simp only []
      cases hl : lookupHist env.state s env.anchor k with
      | none =>
        refine .inr ⟨?_, rfl⟩
        rintro ⟨s', d, ts, hn, h1, h2, h3⟩
        rw [← htar, ht] at hn
        cases hn
        rw [(C18_answer_is_availability C s env.anchor k d).2 ⟨h1, ts, h2, h3⟩] at hl
        cases hl
      | some d =>
        obtain ⟨h1, ts, h2, h3⟩ := (C18_answer_is_availability C s env.anchor k d).1 hl
        exact .inl ⟨s, d, ts, (htar s).1 ht, h1, h2, h3, rfl⟩

/-- The refined service's own preimage of the zero hash: `[1, 2, 3]`, written to address 200. -/
def Ex.hvm : VM := { Ex.vm (2 ^ 64 - 1) 110 200 1 with regs := List.replicate 7 0 ++ [reg (2 ^ 64 - 1), reg 110, reg 200, reg 1, reg 9, 0] }
set_option maxRecDepth 20000 in
example : hostHistorical Ex.env Ex.hvm = .ok { exit := .cont, charge := BASE_GAS, r7 := some (reg 3), mem := some (200, [2, 3]) } := by
  decide +kernel

end Fastroll.Refine
