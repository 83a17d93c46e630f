import Verif.Delta.SpecAcct
import Verif.Pvm.MemLemmas2

/-!
# Specification: what a program can do that aborts the accumulation of a block

An error value inside an accumulation is handed up by `?` through `accumulate_single_service`,
`accumulate_parallel` and `accumulate_outer` (`/repo/pvm/pvm-invocation/src/accumulate/pipeline.rs`), so the
block is refused. The Gray Paper has no such outcome: a program that misbehaves ends in a panic, a fault or out
of gas, and its block goes on.
-/
namespace Fastroll.Abort
open Fastroll.Pvm Fastroll.Svc

/-- The first address and the number of octets a load or store uses. -/
inductive Touches (vm : VM) (ins : Instr) : Nat → Nat → Prop
  | load (k : LoadK) : ins.op = .load k → Touches vm ins (ins.imm1.toNat % 2 ^ 32) k.size
  | loadInd (k : LoadK) : ins.op = .loadInd k → Touches vm ins ((vm.r ins.rs2 + ins.imm1).toNat % 2 ^ 32) k.size
  | store (w : Nat) : ins.op = .store w → Touches vm ins (ins.imm1.toNat % 2 ^ 32) w
  | storeInd (w : Nat) : ins.op = .storeInd w → Touches vm ins ((vm.r ins.rs2 + ins.imm1).toNat % 2 ^ 32) w
  | storeImm (w : Nat) : ins.op = .storeImm w → Touches vm ins (ins.imm1.toNat % 2 ^ 32) w
  | storeImmInd (w : Nat) : ins.op = .storeImmInd w → Touches vm ins ((vm.r ins.rs1 + ins.imm1).toNat % 2 ^ 32) w

/-- The configurations a program goes through: instructions and answered host calls. -/
inductive Visits {σ : Type} (p : Prog) (host : Host σ) : VM → σ → VM → σ → Prop
  | here (vm : VM) (s : σ) : Visits p host vm s vm s
  | step {vm vm1 vm2 : VM} {s t : σ} : Pvm.iter p vm = (none, vm1) → Visits p host vm1 s vm2 t → Visits p host vm s vm2 t
  | call {vm vm1 vm2 vm3 : VM} {s s1 t : σ} {h : Nat} {res : HostResult} {post : Int} :
      Pvm.iter p vm = (some (.ok (.hostCall h)), vm1) → host h vm1 s = (.ok res, s1) → res.exit = .cont →
      vm1.applyHost res = (.ok post, vm2) → 0 ≤ post → Visits p host { vm2 with pc := p.nextPc vm2.pc } s1 vm3 t →
      Visits p host vm s vm3 t

/-- No public identifier is free but the one kept for the next new account. -/
def LastId (x : Ctx Global) : Prop := ∀ id, Public id → id ≠ x.nextId → x.p.boxes.metas id ≠ none

/-- The six things. In the configuration `vm`, `x` the program
* loads or stores past the end of memory,
* asks for more heap than there is below the stack,
* has less than `-2^63` units of gas after the next instruction,
* offers `2^63 - 10` units of gas or more with a transfer,
* makes an account when no identifier is left for the one after it, or
* ends with a register 7 that is no address. -/
inductive Offends (p : Prog) (vm : VM) (x : Ctx Global) : Prop
  | past (ins : Instr) (a w : Nat) : p.instructionAt vm.pc = some ins → Touches vm ins a w → vm.mem.data.length < a + w → Offends p vm x
  | heap (ins : Instr) : p.instructionAt vm.pc = some ins → ins.op = .sbrk → vm.mem.stackStart ≤ vm.mem.heapEnd + (vm.r ins.rs1).toNat → Offends p vm x
  | debt : vm.gas ≤ -2 ^ 63 → Offends p vm x
  | gift (vm' : VM) : Pvm.iter p vm = (some (.ok (.hostCall 20)), vm') → 2 ^ 63 ≤ 10 + (vm'.r 9).toNat → Offends p vm x
  | last (vm' : VM) : Pvm.iter p vm = (some (.ok (.hostCall 18)), vm') → LastId x → Offends p vm x
  | exit (vm' : VM) : Pvm.iter p vm = (some (.ok .halt), vm') → 2 ^ 32 ≤ (vm'.r 7).toNat → Offends p vm x

/-- Memory as the loader lays it out: no address below the zone is accessible and the heap lies above it. -/
structure Laid (m : Mem) : Prop where
  heap : m.HeapInv
  zone : ∀ x, x < m.zone → m.acc[x / m.pageSize]? = some .inaccessible
  above : m.zone ≤ m.heapStart
  aligned : m.pageSize ∣ m.zone
  size : m.data.length ≤ 2 ^ 32

/-- The core lists of a partial state have one entry for each core. -/
structure Sized {β : Type} (cores : Nat) (p : PState β) : Prop where
  confirmed : p.assign.confirmed.length = cores
  bless : ∀ l, p.assign.byBless = some l → l.length = cores
  own : ∀ e ∈ p.assign.bySelf, e.1 < cores

/-- A context of an accumulation in which no host call can fail: the service exists, the requests have at most
three slots, fewer than `2^64` tokens exist, the next identifier is free and the core lists are complete. -/
structure Ready (env : Env) (x : Ctx Global) : Prop where
  alive : (x.p.boxes.metas x.host).isSome
  slots : x.p.boxes.SlotsOk env.slot
  tokens : ∃ n, Tokens x n ∧ n < U64
  next : NextFree x
  sized : Sized env.par.cores x.p

/-- Why the accumulation of a service fails: its code does not decode or does not load, no identifier is left to
offer it, or its program offends in a configuration it visits on the plain accounts. -/
inductive Blame (g : Global) (env : Env) (mach : Machine) (p : PState Boxes) (a : AccArgs) : Prop
  | decode (m : Meta) (blob : Bytes) : (view g p.boxes).metas a.host = some m → (view g p.boxes).preimages a.host m.codeHash = some blob →
      mach.decode blob = none → Blame g env mach p a
  | load (m : Meta) (blob code : Bytes) : (view g p.boxes).metas a.host = some m → (view g p.boxes).preimages a.host m.codeHash = some blob →
      mach.decode blob = some code → mach.load code = none → Blame g env mach p a
  | crowded : (∀ id, Public id → (view g p.boxes).metas id ≠ none) → Blame g env mach p a
  | program (m : Meta) (blob code : Bytes) (prog : Prog) (vm vm' : VM) (q : Pair Boxes) (cs : List (Nat × VM)) (s : Pair Global) :
      (view g p.boxes).metas a.host = some m → (view g p.boxes).preimages a.host m.codeHash = some blob →
      mach.decode blob = some code → mach.load code = some (prog, some vm) → Delta.opening g env mach p a = some (q, cs) →
      Visits prog (accHost mapStore env) { vm with pc := 5, gas := asI64 a.gasLimit } (q.view g) vm' s → Offends prog vm' s.x →
      Blame g env mach p a

/-- The machine lays out memory in order. -/
def LaidOut (mach : Machine) : Prop := ∀ code p vm, mach.load code = some (p, some vm) → Laid vm.mem

/-- The code the account of `s` stores cannot be run: it does not decode, or is no program. -/
def Broken (g : Global) (mach : Machine) (s : Nat) : Prop := ∃ m blob, g.metas s = some m ∧ g.preimages s m.codeHash = some blob ∧
  (mach.decode blob = none ∨ ∃ code, mach.decode blob = some code ∧ code.length ≤ 4000000 ∧ mach.load code = none)

/-! ## Blocks -/

/-- What the accumulation of the service `s` is given in the round. -/
def args (W : Delta.World) (R : Delta.Round) (s : Nat) : AccArgs :=
  { host := s, gasLimit := R.limit s, incoming := R.delivered.filter fun t => t.dst == s, seed := W.seed s }

/-- The rounds follow each other from the state `u` and the transfers `ts` to the state `v` and the transfers `us`. -/
def Leads : PState Boxes → List Transfer → List Delta.Round → PState Boxes → List Transfer → Prop
  | u, ts, [], v, us => u = v ∧ ts = us
  | u, ts, R :: Rs, v, us => R.start = u ∧ R.delivered = ts ∧ Leads R.finish R.sent Rs v us

/-- After the rounds `Rs` of the block comes the round `R`: it starts from the state they leave, delivers the
transfers sent in the last of them, takes reports that follow theirs, and the always-accumulate services if it is
the first. -/
structure Upcoming (χ : Delta.Chi) (queues : List (List Bytes)) (reports : List Acc.Report) (Rs : List Delta.Round) (R : Delta.Round) : Prop where
  leads : Leads (Delta.start χ queues) [] Rs R.start R.delivered
  reports : Rs.flatMap (·.reports) ++ R.reports <+: reports
  always : R.always = if Rs.isEmpty then χ.always else []

/-- The service is due in the round: it has something to do or a privilege, and it exists. -/
def Due (W : Delta.World) (R : Delta.Round) (s : Nat) : Prop := (R.Called s ∨ R.Privileged s) ∧ Delta.Alive W.g R.start.boxes s

/-- No program that is due in the block fills an account beyond what the counters hold, takes the identifier of
a committed account for a new one, or ejects an account in `D`, and `D` has all services due. -/
def Tame (W : Delta.World) (D : Nat → Prop) (χ : Delta.Chi) (queues : List (List Bytes)) (reports : List Acc.Report) : Prop :=
  ∀ Rs R, (∀ R' ∈ Rs, R'.Faithful W) → Upcoming χ queues reports Rs R → ∀ s, Due W R s → D s ∧ ∀ q cs,
    Delta.opening W.g (W.env s R.delivered R.reports) W.mach R.start (args W R s) = some (q, cs) →
    Throughout (accHost mapStore (W.env s R.delivered R.reports)) (fun p => p.x.p.boxes.InRange) cs (q.view W.g) ∧
    BeforeEach (accHost mapStore (W.env s R.delivered R.reports)) (CallOk W.g D) cs (q.view W.g)

/-- Why the round `R` fails with an error.
* The gas of the always-accumulate services is beyond what the budget allows for.
* A service that is due is to blame.
* Two services that are due, both run to their ends, create or eject the same account. -/
inductive Cause (W : Delta.World) (R : Delta.Round) : Delta.Err → Prop
  | gas : R.always ≠ [] → Cause W R .gas
  | service (s : Nat) (e : VmErr) : Due W R s → Blame W.g (W.env s R.delivered R.reports) W.mach R.start (args W R s) → Cause W R (.service e)
  | clash (r r' : AccResult) (s : Nat) : Due W R r.host → Due W R r'.host → r.host ≠ r'.host →
      accumulate W.g (W.env r.host R.delivered R.reports) W.mach R.start (args W R r.host) = .ok (some r) →
      accumulate W.g (W.env r'.host R.delivered R.reports) W.mach R.start (args W R r'.host) = .ok (some r') →
      Flips (view W.g R.start.boxes) r s → Flips (view W.g R.start.boxes) r' s → Cause W R .merge

/-- What a block is given that the accumulation can rely on: consistent accounts with fewer than `2^64` tokens and
requests in order, one assigner for each core, one slot, and a gas total that fits. -/
structure Given (W : Delta.World) (K : Delta.Consts) (χ : Delta.Chi) : Prop where
  healthy : Delta.Healthy W.g
  laid : LaidOut W.mach
  tokens : ∃ n, Held W.g n ∧ n < U64
  slots : W.g.SlotsOk W.base.slot
  slot : ∀ s ts rs, (W.env s ts rs).slot = W.base.slot
  cores : ∀ s ts rs, (W.env s ts rs).par.cores = χ.assign.length
  total : K.total < 2 ^ 64

end Fastroll.Abort
