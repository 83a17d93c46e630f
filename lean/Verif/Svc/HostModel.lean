import Verif.Pvm.InterpModel
import Verif.Svc.SandboxModel

/-!
# Model of the host functions available to `accumulate`

Transcribes `/repo/pvm/pvm-host/src/host_functions/accumulate/mod.rs` (lines 42-1260),
`general/mod.rs` (lines 34-140, 239-588), `context/mod.rs` (lines 230-490) and the dispatch of
`/repo/pvm/pvm-interface/src/invoke.rs` (lines 113-165, 327-510).

Every function takes the virtual machine (gas, registers, memory) and the context, and returns
the machine change and the new context. `Except` errors are the `?` paths that abort the whole
accumulation.

Simplifications.
* `service_id` (the running service) and `accumulate_host` are always the same value, passed by
  `accumulate`; one field `host` stands for both.
* The data served by `fetch` is a parameter (it is read-only input).
* A memory area holding a list of keys or hashes is kept as the list of its chunks.
* `Hash32::decode` of 32 bytes never fails; hashing is a parameter.
* Sums of a recorded slot and the expiry period are `u32` and wrap without overflow checks.
-/
namespace Fastroll.Svc
open Fastroll.Pvm

/-- Chain constants, `/repo/common/src/constants/mod.rs`. -/
structure Params where
  cores : Nat
  validators : Nat
  expiry : Nat
  authQueue : Nat := 80
  keySize : Nat := 336
  memo : Nat := 128

/-- What an invocation reads but never changes. -/
structure Env where
  par : Params
  slot : Nat
  hash : Bytes → Bytes
  fetch : VM → Option Bytes

/-- `DeferredTransfer`. -/
structure Transfer where
  src : Nat
  dst : Nat
  amount : Nat
  memo : Bytes
  gas : Nat
deriving DecidableEq, Repr

/-- `AssignServicesPartialState`, partial_state.rs lines 1084-1095. -/
structure Assigns where
  confirmed : List Nat
  byBless : Option (List Nat) := none
  bySelf : List (Nat × Nat) := []
deriving DecidableEq, Repr

/-- `DesignateServicePartialState`, `RegistrarServicePartialState`, lines 1129-1139, 1168-1178. -/
structure Role where
  confirmed : Nat
  byBless : Option Nat := none
  bySelf : Option Nat := none
deriving DecidableEq, Repr

/-- `AccumulatePartialState`, partial_state.rs lines 1211-1228. -/
structure PState (β : Type) where
  boxes : β
  staging : Option (List Bytes)
  authQueue : List (List Bytes)
  manager : Nat
  assign : Assigns
  designate : Role
  registrar : Role
  always : List (Nat × Nat)

/-- `AccumulateHostContext`, context/mod.rs lines 176-197. -/
structure Ctx (β : Type) where
  host : Nat
  p : PState β
  nextId : Nat
  transfers : List Transfer
  yielded : Option Bytes
  provided : List (Nat × Bytes)

/-- `AccumulateHostContextPair`. -/
structure Pair (β : Type) where
  x : Ctx β
  y : Ctx β

/-! ## Result codes, host_functions/mod.rs lines 16-37 -/

def NONE : Nat := 2 ^ 64 - 1
def WHAT : Nat := 2 ^ 64 - 2
def OOB : Nat := 2 ^ 64 - 3
def WHO : Nat := 2 ^ 64 - 4
def FULL : Nat := 2 ^ 64 - 5
def CORE : Nat := 2 ^ 64 - 6
def CASH : Nat := 2 ^ 64 - 7
def LOW : Nat := 2 ^ 64 - 8
def HUH : Nat := 2 ^ 64 - 9
def OK : Nat := 0

/-- `HOSTCALL_BASE_GAS_CHARGE`, pvm-types/src/constants.rs line 12. -/
def BASE_GAS : Nat := 10

def reg (n : Nat) : Reg := BitVec.ofNat 64 n

/-- `continue_with_return_code` / `continue_with_vm_change` with `r7`. -/
def ret (code : Nat) : HostResult := { exit := .cont, charge := BASE_GAS, r7 := some (reg code) }
/-- `HostCallResult::panic`. -/
def hpanic : HostResult := { exit := .panic, charge := BASE_GAS }
/-- `HostCallResult::out_of_gas`. -/
def oog : HostResult := { exit := .outOfGas, charge := BASE_GAS }

/-- `check_out_of_gas!(gas_counter)`, utils.rs lines 272-277. -/
def noGas (vm : VM) : Bool := vm.gas < (BASE_GAS : Int)

def VM.n (vm : VM) (i : Nat) : Nat := (vm.r i).toNat

/-- `read_reg_as_mem_address`, `read_reg_as_u32`, `read_reg_as_service_id`, vm_state.rs lines
50-75. -/
def u32? (vm : VM) (i : Nat) : Option Nat := if VM.n vm i < U32 then some (VM.n vm i) else none

/-- `is_address_range_readable` followed by `read_bytes`; `none` is `host_call_panic!`. -/
def readMem (vm : VM) (addr len : Nat) : Option Bytes :=
  if vm.mem.rangeReadable addr len then
    match vm.mem.readBytes addr len with
    | .ok bs => some bs
    | .error _ => none
  else none

/-- The hash at the address in register `i`. -/
def readHash (vm : VM) (i : Nat) : Option Bytes :=
  match u32? vm i with
  | none => none
  | some a => readMem vm a 32

/-- A memory area cut into `n` chunks of `size` octets. -/
def chunks (size : Nat) : Nat → Bytes → List Bytes
  | 0, _ => []
  | n + 1, bs => bs.take size :: chunks size n (bs.drop size)

def fromLE (bs : Bytes) : Nat := bs.foldr (fun b acc => b.toNat + 256 * acc) 0

/-- Insertion into a map kept as an association list. -/
def assocSet {ν : Type} : List (Nat × ν) → Nat → ν → List (Nat × ν)
  | [], k, v => [(k, v)]
  | (k', v') :: l, k, v => if k' = k then (k, v) :: l else (k', v') :: assocSet l k v

def assocGet {ν : Type} : List (Nat × ν) → Nat → Option ν
  | [], _ => none
  | (k', v) :: l, k => if k' = k then some v else assocGet l k

/-- `BTreeMap::insert` for service ids. -/
def sortedSet {ν : Type} : List (Nat × ν) → Nat → ν → List (Nat × ν)
  | [], k, v => [(k, v)]
  | (k', v') :: l, k, v =>
    if k < k' then (k, v) :: (k', v') :: l
    else if k = k' then (k, v) :: l
    else (k', v') :: sortedSet l k v

/-- The operations on accounts that the host functions use: the methods of `AccountsSandboxMap`
(partial_state.rs lines 259-1081). `boxStore` is the code's implementation; the specification
gives a second one, on plain maps, to compare with. -/
structure Store (β : Type) where
  info : β → Nat → Option Meta × β
  modify : β → Nat → (Meta → Meta) → Option β
  footprints : β → Nat → Delta → Delta → Option β
  existsEff : β → Nat → Bool
  existsAct : β → Nat → Bool × β
  create : β → Nat → Meta → β
  getS : β → Nat → Bytes → Option Bytes × β
  getP : β → Nat → Bytes → Option Bytes × β
  getL : β → Nat → LKey → Option (List Nat) × β
  insS : β → Nat → Bytes → Bytes → Option β
  insL : β → Nat → LKey → List Nat → Option β
  remS : β → Nat → Bytes → β
  remP : β → Nat → Bytes → β
  remL : β → Nat → LKey → β
  eject : β → Nat → LKey → Option β

/-- The sandbox of a fresh account, `add_new_account_internal`, context/mod.rs lines 421-445. -/
def newBox (m : Meta) : Box :=
  { info := .newAdded m, storage := fun _ => none, preimages := fun _ => none, lookups := fun _ => none }

/-- The implementation: the sandbox over the global state `g`. -/
def boxStore (g : Global) : Store Boxes where
  info := getMeta g
  modify := modifyMeta g
  footprints := updateFootprints g
  existsEff := existsEffective g
  existsAct := existsActive g
  create := fun bs s m => boxSet bs s (newBox m)
  getS := getStorage g
  getP := getPreimage g
  getL := getLookup g
  insS := insertStorage g
  insL := insertLookup g
  remS := removeStorage g
  remP := removePreimage g
  remL := removeLookup g
  eject := ejectAccount g

/-- `push_timeslot_to_account_lookups_entry`, lines 952-975 (`try_push` on a `LimitedVec` of
capacity 3). `none`: the entry is missing or full; both make the caller fail. -/
def Store.push {β : Type} (S : Store β) (bs : β) (s : Nat) (k : LKey) (t : Nat) : Option β :=
  match S.getL bs s k with
  | (none, _) => none
  | (some ts, bs) => if ts.length < 3 then S.insL bs s k (ts ++ [t]) else none

/-- `drain_account_lookups_entry_timeslots`, lines 1003-1019. -/
def Store.drain {β : Type} (S : Store β) (bs : β) (s : Nat) (k : LKey) : Option β :=
  match S.getL bs s k with
  | (none, bs) => some bs
  | (some _, bs) => S.insL bs s k []

/-- `extend_timeslots_to_account_lookups_entry`, lines 979-1001. -/
def Store.extend {β : Type} (S : Store β) (bs : β) (s : Nat) (k : LKey) (ts : List Nat) : Option β :=
  match S.getL bs s k with
  | (none, _) => none
  | (some old, bs) => if old.length + ts.length ≤ 3 then S.insL bs s k (old ++ ts) else none

/-- A host function: the machine change or an aborting error, and the context. -/
abbrev HostFn (β : Type) := Env → VM → Ctx β → Except VmErr HostResult × Ctx β

def Ctx.setBoxes {β : Type} (x : Ctx β) (bs : β) : Ctx β := { x with p := { x.p with boxes := bs } }

/-! ## Privileges -/

/-- `assign_new_privileged_services`, context/mod.rs lines 300-343. -/
def Ctx.blessed {β : Type} (x : Ctx β) (m : Nat) (a : List Nat) (v r : Nat) (z : List (Nat × Nat)) : Ctx β :=
  let own := (x.p.assign.confirmed.zip a).zipIdx.foldl
    (fun acc q => if x.host = q.1.1 then assocSet acc q.2 q.1.2 else acc) x.p.assign.bySelf
  { x with p := { x.p with
      manager := m,
      assign := { x.p.assign with byBless := some a, bySelf := own },
      designate := { x.p.designate with
        byBless := some v, bySelf := if x.host = x.p.designate.confirmed then some v else x.p.designate.bySelf },
      registrar := { x.p.registrar with
        byBless := some r, bySelf := if x.host = x.p.registrar.confirmed then some r else x.p.registrar.bySelf },
      always := z } }

/-- The always-accumulate map read from memory, accumulate/mod.rs lines 106-118. -/
def readAlways : List Bytes → List (Nat × Nat) → List (Nat × Nat)
  | [], acc => acc
  | c :: cs, acc => readAlways cs (sortedSet acc (fromLE (c.take 4)) (fromLE (c.drop 4)))

/-- `host_bless`, accumulate/mod.rs lines 42-138. -/
def hostBless {β : Type} : HostFn β := fun env vm x =>
  if noGas vm then (.ok oog, x) else
  match u32? vm 8, u32? vm 11 with
  | some ao, some zo =>
    let n := VM.n vm 12
    match readMem vm ao (4 * env.par.cores) with
    | none => (.ok hpanic, x)
    | some abytes =>
      if n * 12 ≥ U64 then (.ok hpanic, x) else
      match readMem vm zo (n * 12) with
      | none => (.ok hpanic, x)
      | some zbytes =>
        match u32? vm 7, u32? vm 9, u32? vm 10 with
        | some m, some v, some r =>
          (.ok (ret OK), x.blessed m ((chunks 4 env.par.cores abytes).map fromLE) v r
            (readAlways (chunks 12 n zbytes) []))
        | _, _, _ => (.ok (ret WHO), x)
  | _, _ => (.ok hpanic, x)

/-- The assigner of a core as `host_assign` sees it, lines 183-209. -/
def Assigns.current (a : Assigns) (core : Nat) : Option Nat :=
  match a.byBless with
  | some l => l[core]?
  | none =>
    match assocGet a.bySelf core with
    | some s => some s
    | none => a.confirmed[core]?

/-- A single-service role as `host_designate` (lines 262-282) and `host_new` (lines 375-394)
see it. -/
def Role.current (r : Role) : Nat :=
  match r.byBless with
  | some s => s
  | none =>
    match r.bySelf with
    | some s => s
    | none => r.confirmed

/-- `assign_core_auth_queue` and `assign_new_core_assign_service`, context/mod.rs lines 346-362. -/
def Ctx.assigned {β : Type} (x : Ctx β) (core : Nat) (q : List Bytes) (s : Nat) : Ctx β :=
  { x with p := { x.p with
      authQueue := x.p.authQueue.set core q,
      assign := { x.p.assign with
        bySelf := assocSet x.p.assign.bySelf core s,
        byBless := x.p.assign.byBless.map (fun l => l.set core s) } } }

/-- `host_assign`, accumulate/mod.rs lines 142-224. The core lists always have `CORE_COUNT`
entries; an index outside would panic and is the `host` error. -/
def hostAssign {β : Type} : HostFn β := fun env vm x =>
  if noGas vm then (.ok oog, x) else
  match u32? vm 8 with
  | none => (.ok hpanic, x)
  | some a =>
    match readMem vm a (32 * env.par.authQueue) with
    | none => (.ok hpanic, x)
    | some bs =>
      let core := VM.n vm 7
      if core ≥ env.par.cores then (.ok (ret CORE), x) else
      match x.p.assign.current core with
      | none => (.error .host, x)
      | some s =>
        if x.host ≠ s then (.ok (ret HUH), x) else
        match u32? vm 9 with
        | none => (.ok (ret WHO), x)
        | some s' => (.ok (ret OK), x.assigned core (chunks 32 env.par.authQueue bs) s')

/-- `host_designate`, accumulate/mod.rs lines 227-289. -/
def hostDesignate {β : Type} : HostFn β := fun env vm x =>
  if noGas vm then (.ok oog, x) else
  match u32? vm 7 with
  | none => (.ok hpanic, x)
  | some a =>
    match readMem vm a (env.par.keySize * env.par.validators) with
    | none => (.ok hpanic, x)
    | some bs =>
      if x.host ≠ x.p.designate.current then (.ok (ret HUH), x) else
      (.ok (ret OK), { x with p := { x.p with staging := some (chunks env.par.keySize env.par.validators bs) } })

/-! ## New services -/

/-- `MIN_PUBLIC_SERVICE_ID` and the size of the ring of public identifiers. -/
def MIN_ID : Nat := 2 ^ 16
def RING : Nat := 2 ^ 32 - 2 ^ 8 - MIN_ID

/-- `check`, partial_state.rs lines 1320-1337: `none` after `fuel` identifiers in use. -/
def checkLoop {β : Type} (S : Store β) (bs : β) : Nat → Nat → Option Nat
  | 0, _ => none
  | fuel + 1, id =>
    if !S.existsEff bs id then some id
    else checkLoop S bs fuel ((id - MIN_ID + 1) % RING + MIN_ID)

/-- `check`; `none` is the endless loop when every public identifier is in use. -/
def checkId {β : Type} (S : Store β) (bs : β) (id : Nat) : Option Nat := checkLoop S bs RING id

/-- `initialize_new_service_id`, context/mod.rs lines 240-263, from the first four octets of the
hash. -/
def initialId {β : Type} (S : Store β) (bs : β) (seed : Nat) : Option Nat := checkId S bs (seed % RING + MIN_ID)

/-- `rotate_new_account_id`, context/mod.rs lines 279-293. -/
def rotateId {β : Type} (S : Store β) (bs : β) (id : Nat) : Option Nat :=
  checkId S bs ((id - MIN_ID + 42) % RING + MIN_ID)

/-- The metadata of a fresh account, `add_new_account_internal`, context/mod.rs lines 422-435. -/
def newMeta (hash : Bytes) (balance g m gratis len slot parent : Nat) : Meta :=
  { codeHash := hash, balance, gasAcc := g, gasXfer := m, octets := 81 + len, gratis, items := 2, created := slot, lastAcc := 0, parent }

/-- `add_new_account_internal`, context/mod.rs lines 415-463. -/
def addAccount {β : Type} (S : Store β) (bs : β) (id : Nat) (m : Meta) (key : LKey) : Option β :=
  S.insL (S.create bs id m) id key []

/-- `subtract_account_balance`, partial_state.rs lines 1339-1362: `none` on underflow. -/
def subBalance {β : Type} (S : Store β) (bs : β) (s amount : Nat) : Option β :=
  match S.info bs s with
  | (none, _) => none
  | (some m, bs) =>
    if amount ≤ m.balance then S.modify bs s (fun m => { m with balance := m.balance - amount })
    else none

/-- `add_account_balance`, partial_state.rs lines 1364-1386: `none` on overflow. -/
def addBalance {β : Type} (S : Store β) (bs : β) (s amount : Nat) : Option β :=
  match S.info bs s with
  | (none, _) => none
  | (some m, bs) =>
    if m.balance + amount < U64 then S.modify bs s (fun m => { m with balance := m.balance + amount })
    else none

/-- `host_new`, accumulate/mod.rs lines 325-458. -/
def hostNew {β : Type} (S : Store β) : HostFn β := fun env vm x =>
  if noGas vm then (.ok oog, x) else
  match u32? vm 7, u32? vm 8 with
  | some a, some len =>
    match readMem vm a 32 with
    | none => (.ok hpanic, x)
    | some hash =>
      let gratis := VM.n vm 11
      if gratis ≠ 0 ∧ x.host ≠ x.p.manager then (.ok (ret HUH), x) else
      let t := initialThreshold len gratis
      match S.info x.p.boxes x.host with
      | (none, bs) => (.error .host, x.setBoxes bs)
      | (some am, bs) =>
        if am.balance - am.threshold < t then (.ok (ret CASH), x.setBoxes bs) else
        let small := (u32? vm 12).getD (U32 - 1)
        let hasSmall := small < MIN_ID ∧ x.host = x.p.registrar.current
        match S.existsAct bs small with
        | (taken, bs) =>
          if hasSmall ∧ taken = true then (.ok (ret FULL), x.setBoxes bs) else
          match subBalance S bs x.host t with
          | none => (.error .host, x.setBoxes bs)
          | some bs =>
            let b := newMeta hash t (VM.n vm 9) (VM.n vm 10) gratis len env.slot x.host
            let id := if hasSmall then small else x.nextId
            match addAccount S bs id b (hash, len) with
            | none => (.error .host, x.setBoxes bs)
            | some bs =>
              if hasSmall then (.ok (ret id), x.setBoxes bs) else
              match rotateId S bs x.nextId with
              | none => (.error .host, x.setBoxes bs)
              | some next => (.ok (ret id), { x.setBoxes bs with nextId := next })
  | _, _ => (.ok hpanic, x)

/-- `host_upgrade`, accumulate/mod.rs lines 462-496. -/
def hostUpgrade {β : Type} (S : Store β) : HostFn β := fun env vm x =>
  if noGas vm then (.ok oog, x) else
  match readHash vm 7 with
  | none => (.ok hpanic, x)
  | some hash =>
    match S.modify x.p.boxes x.host
        (fun m => { m with codeHash := hash, gasAcc := VM.n vm 8, gasXfer := VM.n vm 9 }) with
    | none => (.error .host, x)
    | some bs => (.ok (ret OK), x.setBoxes bs)

/-- `host_transfer`, accumulate/mod.rs lines 499-587. The second gas check compares with
`gas_charge` saturated into `i64`. -/
def hostTransfer {β : Type} (S : Store β) : HostFn β := fun env vm x =>
  if noGas vm then (.ok oog, x) else
  let limit := VM.n vm 9
  match u32? vm 10 with
  | none => (.ok hpanic, x)
  | some a =>
    match readMem vm a env.par.memo with
    | none => (.ok hpanic, x)
    | some memo =>
      match u32? vm 7 with
      | none => (.ok (ret WHO), x)
      | some dest =>
        match S.info x.p.boxes dest with
        | (none, bs) => (.ok (ret WHO), x.setBoxes bs)
        | (some dm, bs) =>
          match S.info bs x.host with
          | (none, bs) => (.error .host, x.setBoxes bs)
          | (some am, bs) =>
            if limit < dm.gasXfer then (.ok (ret LOW), x.setBoxes bs) else
            let amount := VM.n vm 8
            if am.balance < amount ∨ am.balance - amount < am.threshold then (.ok (ret CASH), x.setBoxes bs) else
            let charge := min (BASE_GAS + limit) (U64 - 1)
            if vm.gas < (min charge (2 ^ 63 - 1) : Nat) then
              (.ok { exit := .outOfGas, charge }, x.setBoxes bs)
            else
              match subBalance S bs x.host amount with
              | none => (.error .host, x.setBoxes bs)
              | some bs =>
                (.ok { exit := .cont, charge, r7 := some (reg OK) },
                  { x.setBoxes bs with
                    transfers := x.transfers ++ [{ src := x.host, dst := dest, amount, memo, gas := limit }] })

/-- The code hash that lets `host` eject a service: its identifier in 4 octets, padded,
accumulate/mod.rs lines 627-632. -/
def hostAsHash (host : Nat) : Bytes := Codec.leBytes 4 host ++ List.replicate 28 0

/-- `slot + PREIMAGE_EXPIRATION_PERIOD` in `u32`. -/
def expiresAt (env : Env) (y : Nat) : Nat := (y + env.par.expiry) % U32

/-- `host_eject`, accumulate/mod.rs lines 590-680. -/
def hostEject {β : Type} (S : Store β) : HostFn β := fun env vm x =>
  if noGas vm then (.ok oog, x) else
  match readHash vm 8 with
  | none => (.ok hpanic, x)
  | some hash =>
    match u32? vm 7 with
    | none => (.ok (ret WHO), x)
    | some e =>
      if e = x.host then (.ok (ret WHO), x) else
      match S.info x.p.boxes e with
      | (none, bs) => (.ok (ret WHO), x.setBoxes bs)
      | (some em, bs) =>
        if em.codeHash ≠ hostAsHash x.host then (.ok (ret WHO), x.setBoxes bs) else
        let size := max 81 em.octets - 81
        if size ≥ U32 then (.ok (ret HUH), x.setBoxes bs) else
        if em.items ≠ 2 then (.ok (ret HUH), x.setBoxes bs) else
        match S.getL bs e (hash, size) with
        | (none, bs) => (.ok (ret HUH), x.setBoxes bs)
        | (some ts, bs) =>
          if ts.length ≠ 2 ∨ expiresAt env (ts.getD 1 0) ≥ env.slot then (.ok (ret HUH), x.setBoxes bs) else
          match addBalance S bs x.host em.balance with
          | none => (.error .host, x.setBoxes bs)
          | some bs =>
            match S.eject bs e (hash, size) with
            | none => (.error .host, x.setBoxes bs)
            | some bs => (.ok (ret OK), x.setBoxes bs)

/-! ## Preimage requests -/

/-- `host_query`, accumulate/mod.rs lines 683-771. More than three slots panics. -/
def hostQuery {β : Type} (S : Store β) : HostFn β := fun env vm x =>
  if noGas vm then (.ok oog, x) else
  match readHash vm 7 with
  | none => (.ok hpanic, x)
  | some hash =>
    let none' : HostResult := { exit := .cont, charge := BASE_GAS, r7 := some (reg NONE), r8 := some (reg 0) }
    match u32? vm 8 with
    | none => (.ok none', x)
    | some len =>
      match S.getL x.p.boxes x.host (hash, len) with
      | (none, bs) => (.ok none', x.setBoxes bs)
      | (some ts, bs) =>
        let out (a b : Nat) : Except VmErr HostResult :=
          .ok { exit := .cont, charge := BASE_GAS, r7 := some (reg a), r8 := some (reg b) }
        match ts with
        | [] => (out 0 0, x.setBoxes bs)
        | [a] => (out (1 + a * 2 ^ 32) 0, x.setBoxes bs)
        | [a, b] => (out (2 + a * 2 ^ 32) b, x.setBoxes bs)
        | [a, b, c] => (out (3 + a * 2 ^ 32) (b + c * 2 ^ 32), x.setBoxes bs)
        | _ => (.error .host, x.setBoxes bs)

/-- `host_solicit`, accumulate/mod.rs lines 779-900. -/
def hostSolicit {β : Type} (S : Store β) : HostFn β := fun env vm x =>
  if noGas vm then (.ok oog, x) else
  match readHash vm 7 with
  | none => (.ok hpanic, x)
  | some hash =>
    match u32? vm 8 with
    | none => (.ok (ret FULL), x)
    | some len =>
      match S.getL x.p.boxes x.host (hash, len) with
      | (some ts, bs) =>
        if ts.length ≠ 2 then (.ok (ret HUH), x.setBoxes bs) else
        match S.insL bs x.host (hash, len) (ts ++ [env.slot]) with
        | none => (.error .host, x.setBoxes bs)
        | some bs => (.ok (ret OK), x.setBoxes bs)
      | (none, bs) =>
        let d := usageDelta none (some len)
        match S.info bs x.host with
        | (none, bs) => (.error .host, x.setBoxes bs)
        | (some m, bs) =>
          if m.simulate {} d > m.balance then (.ok (ret FULL), x.setBoxes bs) else
          match S.insL bs x.host (hash, len) [] with
          | none => (.error .host, x.setBoxes bs)
          | some bs =>
            match S.footprints bs x.host {} d with
            | none => (.error .host, x.setBoxes bs)
            | some bs => (.ok (ret OK), x.setBoxes bs)

/-- Lines 945-978 and 1027-1062 of `host_forget`: drop the request and the preimage. -/
def dropRequest {β : Type} (S : Store β) (x : Ctx β) (bs : β) (hash : Bytes) (len : Nat) : Except VmErr HostResult × Ctx β :=
  let bs := S.remP bs x.host hash
  let bs := S.remL bs x.host (hash, len)
  match S.footprints bs x.host {} (usageDelta (some len) none) with
  | none => (.error .host, x.setBoxes bs)
  | some bs => (.ok (ret OK), x.setBoxes bs)

/-- `host_forget`, accumulate/mod.rs lines 908-1143. -/
def hostForget {β : Type} (S : Store β) : HostFn β := fun env vm x =>
  if noGas vm then (.ok oog, x) else
  match readHash vm 7 with
  | none => (.ok hpanic, x)
  | some hash =>
    match u32? vm 8 with
    | none => (.ok (ret HUH), x)
    | some len =>
      match S.getL x.p.boxes x.host (hash, len) with
      | (none, bs) => (.ok (ret HUH), x.setBoxes bs)
      | (some ts, bs) =>
        match ts with
        | [] => dropRequest S x bs hash len
        | [_] =>
          match S.push bs x.host (hash, len) env.slot with
          | none => (.error .host, x.setBoxes bs)
          | some bs => (.ok (ret OK), x.setBoxes bs)
        | [_, b] =>
          if expiresAt env b < env.slot then dropRequest S x bs hash len
          else (.ok (ret HUH), x.setBoxes bs)
        | [_, b, c] =>
          if expiresAt env b < env.slot then
            match S.drain bs x.host (hash, len) with
            | none => (.error .host, x.setBoxes bs)
            | some bs =>
              match S.extend bs x.host (hash, len) [c, env.slot] with
              | none => (.error .host, x.setBoxes bs)
              | some bs => (.ok (ret OK), x.setBoxes bs)
          else (.ok (ret HUH), x.setBoxes bs)
        | _ => (.ok (ret HUH), x.setBoxes bs)

/-- `host_yield`, accumulate/mod.rs lines 1146-1173. -/
def hostYield {β : Type} : HostFn β := fun _ vm x =>
  if noGas vm then (.ok oog, x) else
  match readHash vm 7 with
  | none => (.ok hpanic, x)
  | some hash => (.ok (ret OK), { x with yielded := some hash })

/-- The service named by register 7 (`u64::MAX` is the running service). -/
def target {β : Type} (vm : VM) (x : Ctx β) : Option Nat := if VM.n vm 7 = U64 - 1 then some x.host else u32? vm 7

/-- `host_provide`, accumulate/mod.rs lines 1176-1260. -/
def hostProvide {β : Type} (S : Store β) : HostFn β := fun env vm x =>
  if noGas vm then (.ok oog, x) else
  match u32? vm 8 with
  | none => (.ok hpanic, x)
  | some a =>
    match readMem vm a (VM.n vm 9) with
    | none => (.ok hpanic, x)
    | some data =>
      match target vm x with
      | none => (.ok (ret WHO), x)
      | some s =>
        match S.info x.p.boxes s with
        | (none, bs) => (.ok (ret WHO), x.setBoxes bs)
        | (some _, bs) =>
          match S.getL bs s (env.hash data, VM.n vm 9 % U32) with
          | (none, bs) => (.ok (ret HUH), x.setBoxes bs)
          | (some ts, bs) =>
            if ts.length ≠ 0 then (.ok (ret HUH), x.setBoxes bs) else
            if (s, data) ∈ x.provided then (.ok (ret HUH), x.setBoxes bs) else
            (.ok (ret OK), { x.setBoxes bs with provided := x.provided ++ [(s, data)] })

/-! ## General functions -/

/-- `host_gas`, general/mod.rs lines 34-41. -/
def hostGas {β : Type} : HostFn β := fun _ vm x =>
  if noGas vm then (.ok oog, x) else (.ok (ret (vm.gas.toNat - BASE_GAS)), x)

/-- The clamped window of `data` written to memory, as in `host_fetch` lines 112-139, `host_lookup`
284-309, `host_read` 359-386 and `host_info` 555-587. Register `off` holds the offset into the
data, `len` the length, `buf` the destination. -/
def serve (vm : VM) (data : Bytes) (buf off len : Nat) : HostResult :=
  let o := min (VM.n vm off) data.length
  let l := min (VM.n vm len) (data.length - o)
  match u32? vm buf with
  | none => hpanic
  | some a =>
    if !vm.mem.rangeWritable a l then hpanic
    else { exit := .cont, charge := BASE_GAS, r7 := some (reg data.length), mem := some (a, (data.drop o).take l) }

/-- `host_fetch`, general/mod.rs lines 44-140. -/
def hostFetch {β : Type} : HostFn β := fun env vm x =>
  if noGas vm then (.ok oog, x) else
  match env.fetch vm with
  | none => (.ok (ret NONE), x)
  | some data => (.ok (serve vm data 7 8 9), x)

/-- `host_lookup`, general/mod.rs lines 239-310. -/
def hostLookup {β : Type} (S : Store β) : HostFn β := fun env vm x =>
  if noGas vm then (.ok oog, x) else
  match readHash vm 8 with
  | none => (.ok hpanic, x)
  | some hash =>
    match target vm x with
    | none => (.ok (ret NONE), x)
    | some s =>
      match S.getP x.p.boxes s hash with
      | (none, bs) => (.ok (ret NONE), x.setBoxes bs)
      | (some data, bs) => (.ok (serve vm data 9 10 11), x.setBoxes bs)

/-- `host_read`, general/mod.rs lines 314-387. -/
def hostRead {β : Type} (S : Store β) : HostFn β := fun env vm x =>
  if noGas vm then (.ok oog, x) else
  match u32? vm 8 with
  | none => (.ok hpanic, x)
  | some a =>
    match readMem vm a (VM.n vm 9) with
    | none => (.ok hpanic, x)
    | some key =>
      match target vm x with
      | none => (.ok (ret NONE), x)
      | some s =>
        match S.getS x.p.boxes s key with
        | (none, bs) => (.ok (ret NONE), x.setBoxes bs)
        | (some data, bs) => (.ok (serve vm data 10 11 12), x.setBoxes bs)

/-- Lines 432-448 of `host_write`: the value to store; the outer `none` is a panic, the inner one
removes the entry. -/
def writeValue (vm : VM) (addr : Nat) : Option (Option Bytes) :=
  if VM.n vm 10 = 0 then some none
  else match readMem vm addr (VM.n vm 10) with
    | none => none
    | some v => some (some v)

/-- Lines 480-501 of `host_write`. -/
def storeValue {β : Type} (S : Store β) (bs : β) (s : Nat) (k : Bytes) : Option Bytes → Option β
  | some v => S.insS bs s k v
  | none => some (S.remS bs s k)

/-- Lines 511-517 of `host_write`. -/
def lenOrNone : Option Bytes → Nat
  | some v => v.length
  | none => NONE

/-- Lines 459-473 of `host_write`: whether the balance covers the new threshold. -/
def affordable {β : Type} (S : Store β) (bs : β) (s : Nat) (d : Delta) : Option Bool × β :=
  if d.isZero then (some true, bs)
  else
    match S.info bs s with
    | (none, bs) => (none, bs)
    | (some m, bs) => (some (m.simulate d {} ≤ m.balance), bs)

/-- `host_write`, general/mod.rs lines 393-524. -/
def hostWrite {β : Type} (S : Store β) : HostFn β := fun env vm x =>
  if noGas vm then (.ok oog, x) else
  match u32? vm 7, u32? vm 9 with
  | some ka, some va =>
    match readMem vm ka (VM.n vm 8), writeValue vm va with
    | some key, some value =>
      match S.getS x.p.boxes x.host key with
      | (prev, bs) =>
        let d := usageDelta (prev.map (storOctets key)) (value.map (storOctets key))
        match affordable S bs x.host d with
        | (none, bs) => (.error .host, x.setBoxes bs)
        | (some false, bs) => (.ok (ret FULL), x.setBoxes bs)
        | (some true, bs) =>
          match storeValue S bs x.host key value with
          | none => (.error .host, x.setBoxes bs)
          | some bs =>
            match S.footprints bs x.host d {} with
            | none => (.error .host, x.setBoxes bs)
            | some bs => (.ok (ret (lenOrNone prev)), x.setBoxes bs)
    | _, _ => (.ok hpanic, x)
  | _, _ => (.ok hpanic, x)

/-- `encode_for_info_hostcall`, services.rs lines 351-367. -/
def Meta.infoBytes (m : Meta) : Bytes :=
  m.codeHash ++ Codec.leBytes 8 m.balance ++ Codec.leBytes 8 m.threshold ++ Codec.leBytes 8 m.gasAcc ++
  Codec.leBytes 8 m.gasXfer ++ Codec.leBytes 8 m.octets ++ Codec.leBytes 4 m.items ++
  Codec.leBytes 8 m.gratis ++ Codec.leBytes 4 m.created ++ Codec.leBytes 4 m.lastAcc ++ Codec.leBytes 4 m.parent

/-- `host_info`, general/mod.rs lines 527-588. -/
def hostInfo {β : Type} (S : Store β) : HostFn β := fun env vm x =>
  if noGas vm then (.ok oog, x) else
  match target vm x with
  | none => (.ok (ret NONE), x)
  | some s =>
    match S.info x.p.boxes s with
    | (none, bs) => (.ok (ret NONE), x.setBoxes bs)
    | (some m, bs) => (.ok (serve vm m.infoBytes 8 9 10), x.setBoxes bs)

/-- `host_checkpoint`, accumulate/mod.rs lines 293-316. -/
def hostCheckpoint {β : Type} (vm : VM) (q : Pair β) : Except VmErr HostResult × Pair β :=
  if noGas vm then (.ok oog, q)
  else (.ok (ret (vm.gas.toNat - BASE_GAS)), { q with y := q.x })

/-- The host functions acting on the regular context, by number; `none` is a number that is not
valid for `accumulate` (pvm-types/src/hostcall.rs lines 5-75, invoke.rs lines 113-165). `log` (100)
reads memory for a message and always answers `WHAT`. -/
def accFn {β : Type} (S : Store β) (h : Nat) : Option (HostFn β) :=
  if h = 0 then some hostGas
  else if h = 1 then some hostFetch
  else if h = 2 then some (hostLookup S)
  else if h = 3 then some (hostRead S)
  else if h = 4 then some (hostWrite S)
  else if h = 5 then some (hostInfo S)
  else if h = 14 then some hostBless
  else if h = 15 then some hostAssign
  else if h = 16 then some hostDesignate
  else if h = 18 then some (hostNew S)
  else if h = 19 then some (hostUpgrade S)
  else if h = 20 then some (hostTransfer S)
  else if h = 21 then some (hostEject S)
  else if h = 22 then some (hostQuery S)
  else if h = 23 then some (hostSolicit S)
  else if h = 24 then some (hostForget S)
  else if h = 25 then some hostYield
  else if h = 26 then some (hostProvide S)
  else none

/-- `execute_host_function` for `accumulate`, invoke.rs lines 327-510: the table the interpreter
model takes. -/
def accHost {β : Type} (S : Store β) (env : Env) : Host (Pair β) := fun h vm q =>
  if h = 17 then hostCheckpoint vm q
  else
    match accFn S h with
    | none => (.ok (ret WHAT), q)
    | some f =>
      match f env vm q.x with
      | (r, x) => (r, { q with x := x })

end Fastroll.Svc
