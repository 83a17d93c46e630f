import Verif.Entry.Props
/-!
# C61: refinement, authorization, and where invocations depart from the paper
-/
namespace Fastroll.Entry
open Fastroll.Codec Fastroll.Pvm Fastroll.Svc
open Fastroll.Wire (WorkPackage WorkItem WorkResult accountCodeDec)
open Fastroll.Wr (Out RefineRes)

/-! ## Failures of `Ψ_M` -/

/-- A blob that is not the layout of a program ends the invocation with an error. The paper's result is a panic
using no gas. -/
theorem C61_malformed {σ : Type} (H : Bytes → Bytes) (c : Cache) (blob : Bytes) (kind : Kind)
    (fns : Nat → VM → σ → Refine.Out × σ) (pc gas : Nat) (args : Bytes) (x : σ)
    (h : ¬ ∃ p : Paper.Parts, p.Ok ∧ blob = p.layout) (hc : (cachedLoad H c blob).1 = loadStd blob) :
    (psiM H c blob kind fns pc gas args x).1 = .err := by
  have hn : fromStandard blob = none := by
    cases e : fromStandard blob with
    | none => rfl
    | some s =>
      obtain ⟨p, h1, h2, _⟩ := (fromStandard_iff _ _).mp e
      exact absurd ⟨p, h1, h2⟩ h
  unfold loadStd at hc
  rw [hn] at hc
  unfold psiM
  rcases e : cachedLoad H c blob with ⟨r, c'⟩
  rw [e] at hc
  simp only [] at hc
  subst hc
  rfl

example : (psiM id [] [1, 2, 3] .refine (fun _ _ (x : Nat) => (.ok (ret WHAT), x)) 0 10 [] 0).1 = .err := by
  refine C61_malformed id [] [1, 2, 3] .refine _ 0 10 [] 0 ?_ (id_cache _)
  rintro ⟨p, hp, e⟩
  have := (fromStandard_iff [1, 2, 3] (stdOf p)).mpr ⟨p, hp, e, rfl⟩
  have h2 : (fromStandard [1, 2, 3]).isNone = true := by decide +kernel
  rw [this] at h2
  cases h2

/-- Arguments longer than 2^24 octets: a panic that uses no gas, as in the paper. -/
theorem C61_long_args {σ : Type} (H : Bytes → Bytes) (c : Cache) (kind : Kind) (fns : Nat → VM → σ → Refine.Out × σ)
    (pc gas : Nat) (args : Bytes) (x : σ) (p : Paper.Parts) (hp : p.Ok) (prog : Prog) (hl : loadProgram p.code = .ok prog)
    (hc : (cachedLoad H c p.layout).1 = loadStd p.layout) (ha : 2 ^ 24 < args.length) :
    (psiM H c p.layout kind fns pc gas args x).1 = .ok (.panic, 0) := by
  rw [load_layout hp hl] at hc
  rw [psiM_eq hc]
  have e : initVM { std := stdOf p, prog := prog } args = none := by
    unfold initVM initMemory
    rw [if_pos (show args.length > INPUT from ha)]
  rw [e]
  rfl

example : (psiM id [] exParts.layout .refine (fun _ _ (x : Nat) => (.ok (ret WHAT), x)) 0 10 (List.replicate (2 ^ 24 + 1) 0) 0).1 =
    .ok (.panic, 0) :=
  C61_long_args id [] .refine _ 0 10 _ 0 exParts exParts_ok exProg exProg_load (id_cache _)
    (by rw [List.length_replicate]; decide)

/-- A program that halts with 2^32 or more in register 7 makes the invocation fail with an error, whatever its gas.
The paper's result is the empty octet string, since no such address is readable. -/
theorem C61_halt_high {σ : Type} (H : Bytes → Bytes) (c : Cache) (kind : Kind) (fns : Nat → VM → σ → Refine.Out × σ)
    (pc gas : Nat) (args : Bytes) (x : σ) (p : Paper.Parts) (hp : p.Ok) (prog : Prog) (hl : loadProgram p.code = .ok prog)
    (hc : (cachedLoad H c p.layout).1 = loadStd p.layout) (hg : gas < 2 ^ 63) (vm vm' : VM) (x' : σ × Bool)
    (hi : initVM { std := stdOf p, prog := prog } args = some vm)
    (hr : extRun prog (hostOf (execute kind fns)) (gas + 1) (gas + 1) { vm with pc := pc, gas := (gas : Int) } (x, false) =
      (.done (.ok .halt), vm', x')) (h7 : 2 ^ 32 ≤ (vm'.r 7).toNat) (o : Output × Nat) :
    (psiM H c p.layout kind fns pc gas args x).1 ≠ .ok o := by
  rw [load_layout hp hl] at hc
  rw [psiM_eq hc]
  dsimp only
  rw [hi, invoke_ending hg hr]
  unfold ending
  rw [if_neg (by decide), if_pos rfl, if_pos h7]
  obtain ⟨y, b⟩ := x'
  cases b <;> exact nofun

/-- Register 7 is set to the sign-extended immediate -1 before the jump that halts. -/
def exHigh : Paper.Parts := { ro := [], rw := [], pages := 0, stack := 0, code := [0, 0, 5, 51, 7, 255, 50, 0, 9] }

theorem exHigh_ok : exHigh.Ok := ⟨by decide, by decide, by decide, by decide, by decide⟩

def exHighProg : Prog := match loadProgram exHigh.code with | .ok p => p | .error _ => ⟨[], [], [], [], [], [], []⟩

theorem exHigh_load : loadProgram exHigh.code = .ok exHighProg := rfl

theorem exHigh_run {σ : Type} (host : Host σ) (m : Mem) (s : σ) (n : Nat) :
    extRun exHighProg host 11 11 { regs := (List.range 13).map fun i => BitVec.ofNat 64 (initReg n i), mem := m, pc := 0, gas := 10 } s =
      (.done (.ok .halt), { regs := ((List.range 13).map fun i => BitVec.ofNat 64 (initReg n i)).set 7 (BitVec.ofNat 64 (2 ^ 64 - 1)), mem := m, pc := 3, gas := 8 }, s) := by
  rfl

example : (psiM id [] exHigh.layout .refine (fun _ _ (x : Nat) => (.ok (ret WHAT), x)) 0 10 [] 0).1 ≠ .ok (.bytes [], 2) := by
  obtain ⟨vm, hi, _⟩ := init_starts exHigh exHigh_ok exHighProg [] (by decide) 0 10
  have hi' := hi
  unfold initVM at hi'
  split at hi'
  · cases hi'
  · rename_i m hm
    injection hi' with hi'
    subst hi'
    exact C61_halt_high id [] .refine _ 0 10 [] 0 exHigh exHigh_ok exHighProg exHigh_load (id_cache _) (by decide) _ _ _ hi
      (exHigh_run _ m _ 0) (show 2 ^ 32 ≤ (BitVec.ofNat 64 (2 ^ 64 - 1)).toNat by decide) _

/-- Host functions that note in their context whether one of them crashed. -/
def noting {σ : Type} (fns : Nat → VM → σ → Refine.Out × σ) (h : Nat) (vm : VM) (s : σ × Bool) : Refine.Out × (σ × Bool) :=
  match fns h vm s.1 with
  | (.crash, x) => (.crash, (x, true))
  | (o, x) => (o, (x, s.2))

/-- From a context without crash, an answer leaves it so, and a failure leaves note and flag alike. -/
theorem noting_host {σ : Type} (kind : Kind) (fns : Nat → VM → σ → Refine.Out × σ) (h : Nat) (vm : VM) (x : σ) :
    (∃ r x', hostOf (execute kind (noting fns)) h vm ((x, false), false) = (.ok r, ((x', false), false))) ∨
    (∃ e x' b, hostOf (execute kind (noting fns)) h vm ((x, false), false) = (.error e, ((x', b), b))) := by
  unfold hostOf execute
  by_cases ha : allowed kind (Refine.hostNumber h) = true
  · simp only [ha, if_true, noting]
    rcases e : fns (Refine.hostNumber h) vm x with ⟨o, x'⟩
    cases o with
    | ok r => exact .inl ⟨r, x', rfl⟩
    | err v => exact .inr ⟨v, x', false, rfl⟩
    | crash => exact .inr ⟨.host, x', true, rfl⟩
  · simp only [ha]
    exact .inl ⟨_, x, rfl⟩

theorem noting_run {σ : Type} (p : Prog) (kind : Kind) (fns : Nat → VM → σ → Refine.Out × σ) (fuel : Nat) :
    ∀ (n : Nat) (vm : VM) (x : σ),
      (∃ r vm' x', extRun p (hostOf (execute kind (noting fns))) fuel n vm ((x, false), false) = (r, vm', ((x', false), false))) ∨
      (∃ e vm' x' b, extRun p (hostOf (execute kind (noting fns))) fuel n vm ((x, false), false) =
        (.done (.error e), vm', ((x', b), b))) := by
  intro n
  induction n with
  | zero => intro vm x; exact .inl ⟨_, _, _, rfl⟩
  | succ n ih =>
    intro vm x
    have key : (∃ vm' x', extIter p (hostOf (execute kind (noting fns))) fuel vm ((x, false), false) = (.continue, vm', ((x', false), false))) ∨
        (∃ r vm' x', extIter p (hostOf (execute kind (noting fns))) fuel vm ((x, false), false) = (r, vm', ((x', false), false)) ∧ r ≠ .continue) ∨
        (∃ e vm' x' b, extIter p (hostOf (execute kind (noting fns))) fuel vm ((x, false), false) = (.done (.error e), vm', ((x', b), b))) := by
      unfold extIter
      split
      · exact .inr (.inl ⟨_, _, x, rfl, nofun⟩)
      · exact .inr (.inl ⟨_, _, x, rfl, nofun⟩)
      · rename_i h vm1 _
        rcases noting_host kind fns h vm1 x with ⟨r, x', e⟩ | ⟨er, x', b, e⟩
        · rw [e]
          dsimp only
          split
          · split
            · exact .inr (.inl ⟨_, _, x', rfl, nofun⟩)
            · split
              · exact .inr (.inl ⟨_, _, x', rfl, nofun⟩)
              · exact .inl ⟨_, x', rfl⟩
          · split
            · split
              · exact .inr (.inl ⟨_, _, x', rfl, nofun⟩)
              · exact .inr (.inl ⟨_, _, x', rfl, nofun⟩)
            · exact .inr (.inl ⟨_, _, x', rfl, nofun⟩)
        · rw [e]
          exact .inr (.inr ⟨er, _, x', b, rfl⟩)
      · exact .inr (.inl ⟨_, _, x, rfl, nofun⟩)
    rcases key with ⟨vm', x', e⟩ | ⟨r, vm', x', e, hne⟩ | ⟨er, vm', x', b, e⟩
    · unfold extRun; rw [e]; exact ih vm' x'
    · unfold extRun; rw [e]
      cases r with
      | «continue» => exact absurd rfl hne
      | done r => exact .inl ⟨_, _, _, rfl⟩
      | stuck => exact .inl ⟨_, _, _, rfl⟩
    · unfold extRun; rw [e]; exact .inr ⟨_, _, _, _, rfl⟩

/-- **C61**: an invocation of a program that could be loaded brings the process down exactly when a host function that it called
did; whatever else goes wrong, in the program, in the machine or in a host function, is a result or an error. -/
theorem C61_crash {σ : Type} (H : Bytes → Bytes) (c : Cache) (blob : Bytes) (l : Loaded) (kind : Kind)
    (fns : Nat → VM → σ → Refine.Out × σ) (pc gas : Nat) (args : Bytes) (x : σ) (hc : (cachedLoad H c blob).1 = .ok l) :
    (psiM H c blob kind (noting fns) pc gas args (x, false)).1 = .panic ↔
      (psiM H c blob kind (noting fns) pc gas args (x, false)).2.1.2 = true := by
  rw [psiM_eq hc]
  dsimp only
  unfold invokeWithArgs
  cases initVM l args with
  | none => simp [finish]
  | some vm =>
    dsimp only
    rcases noting_run l.prog kind fns ((asI64 gas).toNat + 1) ((asI64 gas).toNat + 1) { vm with pc := pc, gas := asI64 gas } x
      with ⟨r, vm', x', e⟩ | ⟨er, vm', x', b, e⟩
    · rw [e]
      cases r with
      | «continue» => simp [finish]
      | stuck => simp [finish]
      | done r =>
        cases r with
        | error er => simp [finish]
        | ok ex =>
          dsimp only
          repeat' split
          all_goals simp [finish]
    · rw [e]
      cases b <;> simp [finish]

/-- A program that makes host call 0; the host function crashes. -/
def exCall : Paper.Parts := { ro := [], rw := [], pages := 0, stack := 0, code := [0, 0, 2, 10, 0, 1] }

theorem exCall_ok : exCall.Ok := ⟨by decide, by decide, by decide, by decide, by decide⟩

def exCallProg : Prog := match loadProgram exCall.code with | .ok p => p | .error _ => ⟨[], [], [], [], [], [], []⟩

theorem exCall_load : loadProgram exCall.code = .ok exCallProg := rfl

theorem exCall_run (m : Mem) (n : Nat) (x : Nat) :
    extRun exCallProg (hostOf (execute .refine (noting fun _ _ (x : Nat) => (.crash, x + 1)))) 11 11
      { regs := (List.range 13).map fun i => BitVec.ofNat 64 (initReg n i), mem := m, pc := 0, gas := 10 } ((x, false), false) =
      (.done (.error .host), { regs := (List.range 13).map fun i => BitVec.ofNat 64 (initReg n i), mem := m, pc := 0, gas := 9 },
        ((x + 1, true), true)) := by
  rfl

example : (psiM id [] exCall.layout .refine (noting fun _ _ (x : Nat) => (.crash, x + 1)) 0 10 [] (0, false)).1 = .panic := by
  have hc : (cachedLoad id [] exCall.layout).1 = .ok { std := stdOf exCall, prog := exCallProg } :=
    (id_cache _).trans (load_layout exCall_ok exCall_load)
  obtain ⟨vm, hi, _⟩ := init_starts exCall exCall_ok exCallProg [] (by decide) 0 10
  obtain ⟨m, hm⟩ : ∃ m, vm = { regs := (List.range 13).map fun i => BitVec.ofNat 64 (initReg 0 i), mem := m, pc := 0, gas := 0 } := by
    have hi' := hi
    unfold initVM at hi'
    split at hi'
    · cases hi'
    · rename_i m hm
      exact ⟨m, (Option.some.inj hi').symm⟩
  have ht := (C61_crash id [] _ _ .refine (fun _ _ (x : Nat) => (.crash, x + 1)) 0 10 [] 0 hc).2
  refine ht ?_
  rw [psiM_eq hc]
  dsimp only
  rw [hi, hm]
  unfold invokeWithArgs
  dsimp only
  rw [show asI64 10 = 10 from rfl, show (10 : Int).toNat + 1 = 11 from rfl, exCall_run m 0 0]
  rfl

/-! ## The two general host calls of both invocations -/

/-- `gas`: register 7 gets what is left after the charge; with less than ten units the program is out of gas. -/
theorem C61_gas_call (k : Fetch.Consts) (a : Fetch.RefineArgs) (env : Refine.REnv) (x : Refine.RCtx) (p : WorkPackage) (vm : VM) :
    (10 ≤ vm.gas → ∀ n : Nat, vm.gas = ((n + 10 : Nat) : Int) →
      let r : Refine.Out := .ok { exit := .cont, charge := 10, r7 := some (BitVec.ofNat 64 n) }
      execute .refine (refineFns k a env) 0 vm x = (r, x) ∧ execute .authorize (authFns k p) 0 vm () = (r, ())) ∧
    (vm.gas < 10 →
      let r : Refine.Out := .ok { exit := .outOfGas, charge := 10 }
      execute .refine (refineFns k a env) 0 vm x = (r, x) ∧ execute .authorize (authFns k p) 0 vm () = (r, ())) := by
  rw [(C61_table .refine _ 0 (by decide) vm x).1 (by decide), (C61_table .authorize _ 0 (by decide) vm ()).1 (by decide)]
  have key : (10 ≤ vm.gas → ∀ n : Nat, vm.gas = ((n + 10 : Nat) : Int) →
      gasCall vm = { exit := .cont, charge := 10, r7 := some (BitVec.ofNat 64 n) }) ∧
      (vm.gas < 10 → gasCall vm = { exit := .outOfGas, charge := 10 }) := by
    unfold gasCall noGas
    refine ⟨fun h n e => ?_, fun h => ?_⟩
    · have : ¬ vm.gas < ((BASE_GAS : Nat) : Int) := by show ¬ vm.gas < ((10 : Nat) : Int); omega
      rw [decide_eq_false this, if_neg (by decide), e]
      show ret (n + 10 - 10) = _
      rw [Nat.add_sub_cancel]
      rfl
    · have : vm.gas < ((BASE_GAS : Nat) : Int) := by show vm.gas < ((10 : Nat) : Int); omega
      rw [decide_eq_true this, if_pos rfl]
      rfl
  refine ⟨fun h n e => ?_, fun h => ?_⟩
  · have := key.1 h n e
    exact ⟨by show (Refine.Out.ok (gasCall vm), x) = _; rw [this], by show (Refine.Out.ok (gasCall vm), ()) = _; rw [this]⟩
  · have := key.2 h
    exact ⟨by show (Refine.Out.ok (gasCall vm), x) = _; rw [this], by show (Refine.Out.ok (gasCall vm), ()) = _; rw [this]⟩

example : execute .authorize (authFns Fetch.exConsts Wire.exPackage) 0 ⟨[], Mem.new 0 1 0, 0, 25⟩ () =
    (.ok { exit := .cont, charge := 10, r7 := some 15 }, ()) :=
  ((C61_gas_call Fetch.exConsts Fetch.exArgs ⟨⟨fun _ => none, fun _ _ => none, fun _ _ => none, fun _ _ => none⟩, 0, 0, 0⟩ {}
    Wire.exPackage ⟨[], Mem.new 0 1 0, 0, 25⟩).1 (by decide) 15 rfl).2

/-- The answer when there is such a datum, and when there is none. -/
def served (vm : VM) : Option Bytes → Refine.Out
  | some b => .ok (serve vm b 7 8 9)
  | none => .ok (ret NONE)

/-- **C61**, but for the list of item summaries (C59): `fetch` serves what the paper's selector in register 10, with
the indices in registers 11 and 12, names, into the window of registers 7, 8 and 9 (C41); or `NONE`. -/
theorem C61_fetch_call_partial (P : Wire.Params) (k : Fetch.Consts) (hk : Fetch.Paper.ConstsOk k) (a : Fetch.RefineArgs)
    (ha : Fetch.Paper.CtxOk P (.refine a)) (p : WorkPackage) (hp : Fetch.Paper.CtxOk P (.auth p)) (env : Refine.REnv)
    (x : Refine.RCtx) (vm : VM) (hg : 10 ≤ vm.gas) (h11 : (vm.r 10).toNat ≠ 11) :
    execute .refine (refineFns k a env) 1 vm x =
      (served vm (Fetch.Paper.fetch k (Fetch.Paper.argsOf (.refine a)) (vm.r 10).toNat (vm.r 11).toNat (vm.r 12).toNat), x) ∧
    execute .authorize (authFns k p) 1 vm () =
      (served vm (Fetch.Paper.fetch k (Fetch.Paper.argsOf (.auth p)) (vm.r 10).toNat (vm.r 11).toNat (vm.r 12).toNat), ()) := by
  rw [(C61_table .refine _ 1 (by decide) vm x).1 (by decide), (C61_table .authorize _ 1 (by decide) vm ()).1 (by decide)]
  have hn : noGas vm = false := by
    unfold noGas
    exact decide_eq_false (by show ¬ vm.gas < ((10 : Nat) : Int); omega)
  have key : ∀ ctx, Fetch.Paper.CtxOk P ctx → fetchCall k ctx vm =
      served vm (Fetch.Paper.fetch k (Fetch.Paper.argsOf ctx) (vm.r 10).toNat (vm.r 11).toNat (vm.r 12).toNat) := by
    intro ctx h
    unfold fetchCall VM.n
    rw [hn, if_neg (by decide), Fetch.C59_fetch_partial P k hk ctx h _ _ _ h11]
    cases Fetch.Paper.fetch k (Fetch.Paper.argsOf ctx) (vm.r 10).toNat (vm.r 11).toNat (vm.r 12).toNat <;> rfl
  exact ⟨by show (fetchCall k (.refine a) vm, x) = _; rw [key _ ha], by show (fetchCall k (.auth p) vm, ()) = _; rw [key _ hp]⟩

/-- Selector 6 (an own import) with index 1. -/
def exFetchVM : VM := ⟨[0, 0, 0, 0, 0, 0, 0, 0, 0, 8, 6, 1, 0], Mem.new 0 1 0, 0, 25⟩

example (env : Refine.REnv) (x : Refine.RCtx) :
    execute .refine (refineFns Fetch.exConsts Fetch.exArgs env) 1 exFetchVM x = (.ok (serve exFetchVM [2, 3] 7 8 9), x) :=
  (C61_fetch_call_partial Wire.exP Fetch.exConsts Fetch.exConsts_ok Fetch.exArgs Fetch.exArgs_ok Wire.exPackage
    Fetch.exArgs_ok.package env x exFetchVM (by decide) (by decide)).1

/-! ## Refinement -/

/-- **C61.** An item that is not in the package, a service that does not exist, or code not available at the lookup
anchor: the result is `BAD`, no gas is used and nothing is exported. -/
theorem C61_refine_bad (H : Bytes → Bytes) (k : Fetch.Consts) (g : Global) (a : RArgs) (c : Cache)
    (h : ∀ w, a.fetch.package.items[a.fetch.item]? = some w →
      g.metas w.service = none ∨ lookupHist g w.service a.fetch.package.ctx.lookupSlot w.codeHash = none) :
    refine H k g a c = (.ok { gas := 0, output := .error .bad, exports := [] }, c) := by
  unfold refine
  cases e : a.fetch.package.items[a.fetch.item]? with
  | none => rfl
  | some w =>
    dsimp only
    rcases h w e with h | h
    · unfold Refine.accountExists
      rw [h]; rfl
    · unfold codeByLookup
      rw [h]
      split <;> rfl

def exNone : Global := ⟨fun _ => none, fun _ _ => none, fun _ _ => none, fun _ _ => none⟩

example : refine id Fetch.exConsts exNone ⟨3, Fetch.exArgs, 0⟩ [] = (.ok { gas := 0, output := .error .bad, exports := [] }, []) :=
  C61_refine_bad id _ _ _ _ (fun _ _ => .inl rfl)

/-- **C61**, for code whose metadata have no octet above 127 (C49): code of more than 4 000 000 octets gives `BIG`,
the metadata not counted. -/
theorem C61_refine_big_partial (H : Bytes → Bytes) (k : Fetch.Consts) (g : Global) (a : RArgs) (c : Cache) (w : WorkItem)
    (hw : a.fetch.package.items[a.fetch.item]? = some w) (hs : (g.metas w.service).isSome) (m code : Bytes)
    (hm : m.length < 2 ^ 63) (hsmall : ∀ b ∈ m, b.toNat < 128)
    (hl : lookupHist g w.service a.fetch.package.ctx.lookupSlot w.codeHash = some (Wire.Spec.serviceCode m code))
    (hb : 4000000 < code.length) :
    refine H k g a c = (.ok { gas := 0, output := .error .big, exports := [] }, c) := by
  unfold refine codeByLookup Refine.accountExists
  rw [hw]
  dsimp only
  rw [hs, hl]
  dsimp only
  rw [Wire.C49_service_code_partial m code hm hsmall]
  dsimp only
  rw [if_neg (by decide), if_pos (show code.length > MAX_CODE from hb)]
  rfl

/-- The arguments of refinement are the paper's exactly when no octet of the payload is above 127. -/
theorem C61_refine_args (core item service : Nat) (payload hash : Bytes) (h1 : core < 2 ^ 64) (h2 : item < 2 ^ 64)
    (h3 : service < 2 ^ 64) (h4 : payload.length < 2 ^ 63) :
    refineArgsEnc core item service payload hash = .ok (Paper.refineArgs core item service payload hash) ↔
      ∀ b ∈ payload, b.toNat < 128 := by
  have n1 := (Wire.nat_codes 64 (by decide) core h1).1
  have n2 := (Wire.nat_codes 64 (by decide) item h2).1
  have n3 := (Wire.nat_codes 64 (by decide) service h3).1
  rw [← Wire.vecU8Enc_iff payload h4]
  unfold refineArgsEnc Paper.refineArgs Wire.arrEnc
  rw [n1, n2, n3]
  cases e : Wire.vecU8Enc payload with
  | error er => exact ⟨nofun, nofun⟩
  | ok bs =>
    simp [Wire.cat]

example : refineArgsEnc 3 0 7 [5, 127] [9] = .ok (Paper.refineArgs 3 0 7 [5, 127] [9]) :=
  (C61_refine_args 3 0 7 [5, 127] [9] (by decide) (by decide) (by decide) (by decide)).mpr (by decide)
example : refineArgsEnc 3 0 7 [128] [9] ≠ .ok (Paper.refineArgs 3 0 7 [128] [9]) := fun h =>
  absurd ((C61_refine_args 3 0 7 [128] [9] (by decide) (by decide) (by decide) (by decide)).mp h) (by decide)

/-- **C61**, for packages within the format's limits, code of at most 4 000 000 octets, and metadata and payload with
no octet above 127: refinement invokes the code at entry 0 with the item's gas limit and the paper's arguments; the
result and exports are those of `Ψ_R` from those of `Ψ_M`. Missing: other payloads, for which the arguments differ. -/
theorem C61_refine_partial (H : Bytes → Bytes) (k : Fetch.Consts) (g : Global) (a : RArgs) (c c' : Cache) (w : WorkItem)
    (P : Wire.Params) (hpk : Wire.Spec.PackageOk P a.fetch.package) (hcore : a.core < 2 ^ 16) (hitem : a.fetch.item < 2 ^ 64)
    (hw : a.fetch.package.items[a.fetch.item]? = some w) (hs : (g.metas w.service).isSome) (m code : Bytes)
    (hm : m.length < 2 ^ 63) (hsmall : ∀ b ∈ m, b.toNat < 128) (hpay : ∀ b ∈ w.payload, b.toNat < 128)
    (hl : lookupHist g w.service a.fetch.package.ctx.lookupSlot w.codeHash = some (Wire.Spec.serviceCode m code))
    (hb : code.length ≤ 4000000) (o : Output) (u : Nat) (x : Refine.RCtx)
    (hr : psiM H c code .refine (refineFns k a.fetch ⟨g, a.fetch.package.ctx.lookupSlot, w.service, a.offset⟩) 0 w.refineGas
      (Paper.refineArgs a.core a.fetch.item w.service w.payload (H (Wire.Spec.package a.fetch.package))) {} = (.ok (o, u), x, c')) :
    refine H k g a c = (.ok (Paper.refined u (resOf o) x.exports), c') := by
  have hok := hpk.items w (List.mem_of_getElem? hw)
  have hargs := (C61_refine_args a.core a.fetch.item w.service w.payload (H (Wire.Spec.package a.fetch.package))
    (by omega) hitem (by have := hok.service; omega) hok.payload).mpr hpay
  unfold refine codeByLookup Refine.accountExists
  rw [hw]
  dsimp only
  rw [hs, hl]
  dsimp only
  rw [Wire.C49_service_code_partial m code hm hsmall]
  dsimp only
  rw [if_neg (by decide), if_neg (show ¬ code.length > MAX_CODE from Nat.not_lt.mpr hb)]
  unfold refineRun
  rw [(Wire.package_codes P a.fetch.package hpk).1]
  dsimp only
  rw [hargs]
  dsimp only
  rw [hr]
  cases o <;> rfl

/-! ## Authorization -/

/-- **C61.** An authorizer whose code is not available at the lookup anchor: `BAD`. -/
theorem C61_authorize_bad (H : Bytes → Bytes) (k : Fetch.Consts) (g : Global) (p : WorkPackage) (core : Nat) (c : Cache)
    (h : lookupHist g p.authService p.ctx.lookupSlot p.authCode = none) :
    authorize H k g p core c = (.ok (0, .error .bad), c) := by
  unfold authorize codeByLookup
  rw [h]

/-- **C61**, for authorizer code whose metadata have no octet above 127: code of more than 64 000 octets gives `BIG`;
other code is invoked at entry 0 with 50 000 000 units of gas and the core's number in two octets, and the result is
that of `Ψ_M`. -/
theorem C61_authorize_partial (H : Bytes → Bytes) (k : Fetch.Consts) (g : Global) (p : WorkPackage) (core : Nat) (c : Cache)
    (hcore : core < 2 ^ 16) (m code : Bytes) (hm : m.length < 2 ^ 63) (hsmall : ∀ b ∈ m, b.toNat < 128)
    (hl : lookupHist g p.authService p.ctx.lookupSlot p.authCode = some (Wire.Spec.serviceCode m code)) :
    (64000 < code.length → authorize H k g p core c = (.ok (0, .error .big), c)) ∧
    (code.length ≤ 64000 → ∀ o u c', psiM H c code .authorize (authFns k p) 0 50000000 (paperFixed 2 core) () = (.ok (o, u), (), c') →
      authorize H k g p core c = (.ok (u, (Paper.refined u (resOf o) []).output), c')) := by
  unfold authorize codeByLookup
  rw [hl]
  dsimp only
  rw [Wire.C49_service_code_partial m code hm hsmall]
  dsimp only
  refine ⟨fun hb => by rw [if_pos (show code.length > AUTH_CODE from hb)], fun hb o u c' hr => ?_⟩
  rw [if_neg (show ¬ code.length > AUTH_CODE from Nat.not_lt.mpr hb)]
  unfold authRun
  rw [(Wire.fixed_codes 16 2 (by decide) (by decide) core hcore).1]
  dsimp only
  rw [show AUTH_GAS = 50000000 from rfl, hr]
  cases o <;> rfl

/-! ## The two run on an example -/

def exItem : WorkItem := { Wire.exItem with payload := [5, 6] }
def exPackage : WorkPackage := { Wire.exPackage with items := [exItem], authService := 7, authCode := Wire.ex32 1 }

theorem exPackage_ok : Wire.Spec.PackageOk Wire.exP exPackage := by
  have h := Wire.exPackage_ok
  have hi := h.items Wire.exItem (List.mem_cons_self ..)
  refine { h with authService := by decide, authCode := by decide, itemCount := by decide, itemSize := by decide, items := ?_ }
  intro w hw
  rcases List.mem_cons.mp hw with rfl | hw
  · exact { hi with payload := by decide }
  · cases hw

def exCode : Bytes := Wire.Spec.serviceCode [1, 2] exParts.layout

def exG : Global :=
  { metas := fun s => if s = 7 then some { codeHash := [], balance := 0, octets := 0, items := 0 } else none,
    storage := fun _ _ => none,
    preimages := fun s h => if s = 7 ∧ h = Wire.ex32 1 then some exCode else none,
    lookups := fun s _ => if s = 7 then some [0] else none }

theorem exG_lookup : lookupHist exG 7 exPackage.ctx.lookupSlot (Wire.ex32 1) = some exCode := by decide +kernel

def exRArgs : RArgs := { core := 3, fetch := { Fetch.exArgs with package := exPackage }, offset := 0 }

/-- Refining the example returns its arguments for one unit of gas. -/
example : ∃ c', refine id Fetch.exConsts exG exRArgs [] =
    (.ok { gas := 1, output := .output (Paper.refineArgs 3 0 7 [5, 6] (Wire.Spec.package exPackage)), exports := [] }, c') := by
  have hlen : (Paper.refineArgs 3 0 7 [5, 6] (Wire.Spec.package exPackage)).length ≤ 2 ^ 24 := by decide +kernel
  obtain ⟨o, h1, h2⟩ := exProg_returns .refine _ hlen
    (refineFns Fetch.exConsts exRArgs.fetch ⟨exG, exPackage.ctx.lookupSlot, 7, 0⟩) 4999 (by decide) ({} : Refine.RCtx)
  have := C61_refine_partial id Fetch.exConsts exG exRArgs [] _ exItem Wire.exP exPackage_ok (by decide) (by decide) rfl rfl
    [1, 2] exParts.layout (by decide) (by decide) (by decide) exG_lookup (by decide) o 1 {} h1
  rw [h2] at this
  exact ⟨_, this⟩

/-- Authorizing it on core 3 returns the core's number. -/
example : ∃ c', authorize id Fetch.exConsts exG exPackage 3 [] = (.ok (1, .output [3, 0]), c') := by
  obtain ⟨o, h1, h2⟩ := exProg_returns .authorize [3, 0] (by decide) (authFns Fetch.exConsts exPackage) 49999999 (by decide) ()
  have := (C61_authorize_partial id Fetch.exConsts exG exPackage 3 [] (by decide) [1, 2] exParts.layout (by decide) (by decide)
    exG_lookup).2 (by decide) o 1 _ h1
  rw [h2] at this
  exact ⟨_, this⟩

example : authorize id Fetch.exConsts exNone exPackage 3 [] = (.ok (0, .error .bad), []) := C61_authorize_bad _ _ _ _ _ _ rfl

/-- Code longer than the limit. -/
def exBig : Global :=
  { exG with preimages := fun s h => if s = 7 ∧ h = Wire.ex32 1 then some (Wire.Spec.serviceCode [1, 2] (List.replicate 4000001 0)) else none }

example : refine id Fetch.exConsts exBig exRArgs [] = (.ok { gas := 0, output := .error .big, exports := [] }, []) :=
  C61_refine_big_partial id _ exBig exRArgs [] exItem rfl rfl [1, 2] (List.replicate 4000001 0) (by decide) (by decide) rfl
    (by rw [List.length_replicate]; decide)

/-! ## Undecodable code -/

/-- Code whose metadata cannot be decoded ends refinement and authorization with an error, or, when the length it
announces is 2^63 or more, with a panic of the thread. In the paper the result is `BAD`. -/
theorem C61_undecodable (H : Bytes → Bytes) (k : Fetch.Consts) (g : Global) (a : RArgs) (c : Cache) (w : WorkItem) (core : Nat)
    (hw : a.fetch.package.items[a.fetch.item]? = some w) (hs : (g.metas w.service).isSome) (b : Bytes)
    (hl : lookupHist g w.service a.fetch.package.ctx.lookupSlot w.codeHash = some b)
    (ha : lookupHist g a.fetch.package.authService a.fetch.package.ctx.lookupSlot a.fetch.package.authCode = some b) :
    (b = [] → refine H k g a c = (.err, c) ∧ authorize H k g a.fetch.package core c = (.err, c)) ∧
    (∀ (n : Nat) (rest : Bytes), n < 2 ^ 64 → 2 ^ 63 ≤ n → b = Wire.Spec.nat n ++ rest →
      refine H k g a c = (.panic, c) ∧ authorize H k g a.fetch.package core c = (.panic, c)) := by
  unfold refine authorize codeByLookup Refine.accountExists
  rw [hw]
  dsimp only
  rw [hs, hl, ha]
  constructor
  · intro e
    subst e
    exact ⟨rfl, rfl⟩
  · intro n rest h1 h2 e
    subst e
    dsimp only
    rw [Wire.C48_service_code_panics n h1 h2 rest]
    exact ⟨rfl, rfl⟩

example : refine id Fetch.exConsts { exG with preimages := fun _ _ => some [] } exRArgs [] = (.err, []) :=
  ((C61_undecodable id _ { exG with preimages := fun _ _ => some [] } exRArgs [] exItem 3 rfl rfl [] (by decide +kernel)
    (by decide +kernel)).1 rfl).1

end Fastroll.Entry
