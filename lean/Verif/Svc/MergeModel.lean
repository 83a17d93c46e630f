import Verif.Svc.HostModel

/-!
# Model of one accumulation and of the merge of parallel accumulations

Transcribes `/repo/pvm/pvm-invocation/src/accumulate/mod.rs` lines 69-243 (one service),
`/repo/pvm/pvm-invocation/src/accumulate/pipeline.rs` lines 182-638 (merging the results of a round)
and `/repo/transition/src/state/services.rs` lines 433-503 (preimages of the block).

Simplifications.
* Decoding the account's code and loading the program are parameters (`Machine`); the loader itself is
  modelled in `Pvm.LoadModel`.
* Iteration over a hash map visits every key once; here in the order of the association list.
* The parallel tasks each work on a clone of the partial state, so running them is calling
  `accumulate` on the same state; results are merged in increasing order of service.
-/
namespace Fastroll.Svc
open Fastroll.Pvm

/-- `AccumulateResult`, accumulate/mod.rs lines 29-46. -/
structure AccResult where
  host : Nat
  p : PState Boxes
  transfers : List Transfer := []
  hash : Option Bytes := none
  gas : Nat := 0
  provided : List (Nat × Bytes) := []

/-- The parts of the machine that turn stored octets into a program: decoding `AccountCode`
(services.rs lines 89-99; `none` is a codec error) and loading (`none` is a load error). -/
structure Machine where
  decode : Bytes → Option Bytes
  load : Bytes → Option (Prog × Option VM)

/-- `AccumulateInvokeArgs`, with the transfers addressed to the service and the number that seeds
the next identifier. -/
structure AccArgs where
  host : Nat
  gasLimit : Nat
  incoming : List Transfer
  seed : Nat

/-- `deferred_transfers_amount`, invoke_args.rs line 103: a wrapping `u64` sum. -/
def received (ts : List Transfer) : Nat := (ts.map Transfer.amount).sum % U64

/-- Lines 113-125: the received amount is added to the account, if there is any. -/
def receive (g : Global) (bs : Boxes) (s amount : Nat) : Option Boxes :=
  if amount > 0 then addBalance (boxStore g) bs s amount else some bs

/-- `get_account_code`, partial_state.rs lines 440-463. -/
def accountCode (g : Global) (mach : Machine) (bs : Boxes) (s : Nat) : Except VmErr (Option Bytes) × Boxes :=
  match getMeta g bs s with
  | (none, bs) => (.ok none, bs)
  | (some m, bs) =>
    match getPreimage g bs s m.codeHash with
    | (none, bs) => (.ok none, bs)
    | (some blob, bs) =>
      match mach.decode blob with
      | none => (.error .host, bs)
      | some code => (.ok (some code), bs)

/-- `accounts_sandbox.retain(|id, _| id == host)`, lines 139-141, 154-156. -/
def boxOnly (bs : Boxes) (s : Nat) : Boxes := bs.filter fun e => e.1 == s

def MAX_CODE : Nat := 4000000

/-- Lines 204-241: which of the two contexts is the result. -/
def select (out : Output) (used : Nat) (q : Pair Boxes) : AccResult :=
  match out with
  | .bytes bs =>
    { host := q.x.host, p := q.x.p, transfers := q.x.transfers, gas := used, provided := q.x.provided,
      hash := if bs.length = 32 then some bs else q.x.yielded }
  | .unavailable =>
    { host := q.x.host, p := q.x.p, transfers := q.x.transfers, gas := used, provided := q.x.provided,
      hash := q.x.yielded }
  | .outOfGas =>
    { host := q.x.host, p := q.y.p, transfers := q.y.transfers, gas := used, provided := q.y.provided,
      hash := q.y.yielded }
  | .panic =>
    { host := q.x.host, p := q.y.p, transfers := q.y.transfers, gas := used, provided := q.y.provided,
      hash := q.y.yielded }

/-- `AccumulateHostContext::new`, context/mod.rs lines 213-238. -/
def freshCtx (host : Nat) (p : PState Boxes) (id : Nat) : Ctx Boxes :=
  { host, p, nextId := id, transfers := [], yielded := none, provided := [] }

/-- `accumulate`, accumulate/mod.rs lines 93-243. `ok none`: the service does not exist. -/
def accumulate (g : Global) (env : Env) (mach : Machine) (p : PState Boxes) (a : AccArgs) :
    Except VmErr (Option AccResult) :=
  match existsActive g p.boxes a.host with
  | (false, _) => .ok none
  | (true, bs) =>
    match receive g bs a.host (received a.incoming) with
    | none => .error .host
    | some bs =>
      match accountCode g mach bs a.host with
      | (.error e, _) => .error e
      | (.ok none, bs) => .ok (some { host := a.host, p := { p with boxes := boxOnly bs a.host } })
      | (.ok (some code), bs) =>
        if code.length > MAX_CODE then
          .ok (some { host := a.host, p := { p with boxes := boxOnly bs a.host } })
        else
          match initialId (boxStore g) bs a.seed, mach.load code with
          | some id, some (prog, init) =>
            let x := freshCtx a.host { p with boxes := bs } id
            match invokeWithArgs prog (accHost (boxStore g) env) init 5 a.gasLimit { x := x, y := x } with
            | (.error e, _) => .error e
            | (.ok (out, used), q) => .ok (some (select out used q))
          | _, _ => .error .host

/-! ## The merge -/

/-- The privileges at the start of a round and the accounts then, pipeline.rs lines 439-465. -/
structure Base where
  manager : Nat
  assign : List Nat
  designate : Nat
  registrar : Nat
  boxes : Boxes

def Base.of (u : PState Boxes) : Base :=
  { manager := u.manager, assign := u.assign.confirmed, designate := u.designate.confirmed,
    registrar := u.registrar.confirmed, boxes := u.boxes }

/-- The union and the identifiers created and removed so far in the round. -/
structure Round where
  u : PState Boxes
  created : List Nat := []
  removed : List Nat := []

/-- Lines 218-229, 231-238: the assigner changes of a result that count. -/
def filterAssigns (b : Base) (host : Nat) (a : Assigns) : Assigns :=
  { a with
    byBless := if host = b.manager then a.byBless else none,
    bySelf := a.bySelf.filter fun e => b.assign[e.1]? == some host }

/-- Lines 218-229 and 240-249: the changes of a single-service role that count. -/
def filterRole (manager holder host : Nat) (r : Role) : Role :=
  { r with
    byBless := if host = manager then r.byBless else none,
    bySelf := if host = holder then r.bySelf else none }

/-- `AssignServicesPartialState::merge_changes_from`, partial_state.rs lines 1106-1126. -/
def mergeSelf (confirmed : List Nat) : List (Nat × Nat) → List (Nat × Nat) → Option (List (Nat × Nat))
  | [], acc => some acc
  | (c, s) :: l, acc =>
    match confirmed[c]? with
    | none => none
    | some o => mergeSelf confirmed l (if s ≠ o then assocSet acc c s else acc)

def Assigns.merge (self other : Assigns) : Option Assigns :=
  match other.byBless with
  | some l => some { self with byBless := some l }
  | none =>
    match mergeSelf other.confirmed other.bySelf self.bySelf with
    | none => none
    | some l => some { self with bySelf := l }

/-- The second half of `merge_changes_from`, lines 1158-1162, 1197-1201. -/
def Role.mergeOwn (self other : Role) : Role :=
  match other.bySelf with
  | some s => if s ≠ other.confirmed then { self with bySelf := some s } else self
  | none => self

/-- `DesignateServicePartialState::merge_changes_from` and the registrar's, lines 1149-1163,
1188-1202. -/
def Role.merge (self other : Role) : Role :=
  match other.byBless with
  | some s => if s ≠ other.confirmed then { self with byBless := some s } else self.mergeOwn other
  | none => self.mergeOwn other

/-- Lines 262-275: the authorizer queues of the cores whose assigner is the host. -/
def mergeQueues (host : Nat) (assigners : List Nat) (source union : List (List Bytes)) : List (List Bytes) :=
  (union.zipIdx).map fun e =>
    match assigners[e.2]?, source[e.2]? with
    | some a, some q => if a = host then q else e.1
    | _, _ => e.1

/-- Lines 253-299: everything but the accounts. -/
def mergePrivileges (b : Base) (host : Nat) (u r : PState Boxes) : Option (PState Boxes) :=
  let a := filterAssigns b host r.assign
  let bless := host = b.manager ∧ a.byBless.isSome
  match u.assign.merge a with
  | none => none
  | some assign =>
    some { u with
      staging := if host = u.designate.confirmed ∧ r.staging.isSome then r.staging else u.staging
      authQueue := mergeQueues host r.assign.confirmed r.authQueue u.authQueue
      manager := if bless then r.manager else u.manager
      always := if bless then r.always else u.always
      assign := assign
      designate := u.designate.merge (filterRole b.manager b.designate host r.designate)
      registrar := u.registrar.merge (filterRole b.manager b.registrar host r.registrar) }

/-- Whether the identifier was in use at the start of the round, lines 321-327: ids in
`base_removed_service_ids` are not, ids in `base_present_service_ids` are, others are looked up. -/
def baseExists (g : Global) (b : Base) (s : Nat) : Bool := existsEffective g b.boxes s

/-- Whether a sandbox is a creation or an ejection that counts, lines 329-336, 348-353. -/
def counts (g : Global) (b : Base) (s : Nat) (bx : Box) : Bool :=
  (bx.info.status == .added && !baseExists g b s) || (bx.info.status == .removed && baseExists g b s)

/-- Lines 312-367: one account other than the host's. `none` is
`DuplicateServiceIdWithinAccumulateRound`. -/
def mergeAccount (g : Global) (b : Base) (s : Nat) (bx : Box) (st : Round) : Option Round :=
  if counts g b s bx then
    if s ∈ st.created ∨ s ∈ st.removed then none
    else
      let u := { st.u with boxes := boxSet st.u.boxes s bx }
      if bx.info.status = .added then some { st with u := u, created := s :: st.created }
      else some { st with u := u, removed := s :: st.removed }
  else some st

/-- The keys of a sandbox map, each once. -/
def boxKeys (bs : Boxes) : List Nat := (bs.map (·.1)).eraseDups

/-- The loop of lines 312-367 over the keys `ks` of the result's sandboxes `bs`. -/
def mergeAccounts (g : Global) (b : Base) (host : Nat) (bs : Boxes) : List Nat → Round → Option Round
  | [], st => some st
  | s :: ks, st =>
    if s = host then mergeAccounts g b host bs ks st
    else
      match boxGet bs s with
      | none => mergeAccounts g b host bs ks st
      | some bx =>
        match mergeAccount g b s bx st with
        | none => none
        | some st => mergeAccounts g b host bs ks st

/-- `merge_partial_state_change`, pipeline.rs lines 182-370. -/
def mergeOne (g : Global) (b : Base) (st : Round) (r : AccResult) : Option Round :=
  let ubs := ensure g st.u.boxes r.host
  match boxGet ubs r.host with
  | none => none
  | some hb =>
    if hb.info.status = .removed then some { st with u := { st.u with boxes := ubs } }
    else
      match mergePrivileges b r.host st.u r.p with
      | none => none
      | some u =>
        let rbs := ensure g r.p.boxes r.host
        match boxGet rbs r.host with
        | none => none
        | some bx =>
          mergeAccounts g b r.host rbs (boxKeys rbs)
            { st with u := { u with boxes := boxSet ubs r.host bx } }

/-- One preimage of `add_provided_preimages`, pipeline.rs lines 379-424, or of the block's
extrinsic: skipped when the account or the open request is missing. -/
def provideOne (g : Global) (env : Env) (bs : Boxes) (e : Nat × Bytes) : Option Boxes :=
  match existsActive g bs e.1 with
  | (false, bs) => some bs
  | (true, bs) =>
    let k : LKey := (env.hash e.2, e.2.length % U32)
    match getLookup g bs e.1 k with
    | (none, bs) => some bs
    | (some ts, bs) =>
      if ts.length ≠ 0 then some bs
      else
        match insertPreimage g bs e.1 k.1 e.2 with
        | none => none
        | some bs => (boxStore g).push bs e.1 k env.slot

/-- `add_provided_preimages`, pipeline.rs lines 373-426. -/
def provideAll (g : Global) (env : Env) : List (Nat × Bytes) → Boxes → Option Boxes
  | [], bs => some bs
  | e :: es, bs =>
    match provideOne g env bs e with
    | none => none
    | some bs => provideAll g env es bs

/-- What the loop of lines 520-575 has produced so far. -/
structure Merged where
  st : Round
  gas : List (Nat × Nat) := []
  hashes : List (Nat × Bytes) := []
  transfers : List Transfer := []

/-- One result, lines 524-574. -/
def mergeResult (g : Global) (env : Env) (b : Base) (metered : Nat → Bool) (m : Merged) (r : AccResult) : Option Merged :=
  match mergeOne g b m.st r with
  | none => none
  | some st =>
    if metered r.host then
      match provideAll g env r.provided st.u.boxes with
      | none => none
      | some bs =>
        some { st := { st with u := { st.u with boxes := bs } }, gas := m.gas ++ [(r.host, r.gas)],
               hashes := m.hashes ++ (r.hash.map fun h => (r.host, h)).toList, transfers := m.transfers ++ r.transfers }
    else some { m with st := st }

def mergeResults (g : Global) (env : Env) (b : Base) (metered : Nat → Bool) : List AccResult → Merged → Option Merged
  | [], m => some m
  | r :: rs, m =>
    match mergeResult g env b metered m r with
    | none => none
    | some m => mergeResults g env b metered rs m

/-- Lines 592-606. -/
def Assigns.confirm (a : Assigns) : Assigns :=
  match a.byBless with
  | some l => { confirmed := l }
  | none => { confirmed := a.bySelf.foldl (fun l e => l.set e.1 e.2) a.confirmed }

/-- Lines 609-629. -/
def Role.confirm (r : Role) : Role :=
  match r.byBless with
  | some s => { confirmed := s }
  | none =>
    match r.bySelf with
    | some s => { confirmed := s }
    | none => { confirmed := r.confirmed }

/-- Lines 588-632: conflicts resolved and changes cleared. -/
def PState.confirm (u : PState Boxes) : PState Boxes :=
  { u with assign := u.assign.confirm, designate := u.designate.confirm, registrar := u.registrar.confirm }

/-- The second half of `accumulate_parallel`, pipeline.rs lines 520-638: the results of a round
merged into the state they all started from. -/
def mergeRound (g : Global) (env : Env) (metered : Nat → Bool) (u : PState Boxes) (rs : List AccResult) : Option Merged :=
  match mergeResults g env (Base.of u) metered rs { st := { u := u } } with
  | none => none
  | some m => some { m with st := { m.st with u := m.st.u.confirm } }

/-! ## Preimages of the block -/

/-- One entry of the extrinsic in `transition_services_integrate_preimages`, services.rs lines
445-500, on the accounts after accumulation. -/
def integrateOne (env : Env) (a : Global) (e : Nat × Bytes) : Global :=
  let k : LKey := (env.hash e.2, e.2.length % U32)
  if (a.preimages e.1 k.1).isSome then a
  else
    match a.lookups e.1 k with
    | some [] =>
      { a with
        lookups := fun s => if s = e.1 then upd (a.lookups s) k (some [env.slot]) else a.lookups s
        preimages := fun s => if s = e.1 then upd (a.preimages s) k.1 (some e.2) else a.preimages s }
    | _ => a

/-- The loop over the extrinsic, services.rs lines 445-502. -/
def integrate (env : Env) (es : List (Nat × Bytes)) (a : Global) : Global := es.foldl (integrateOne env) a

/-- The validity test of `lookup_historical_preimage`, manager.rs lines 714-723. -/
def validAt (ts : List Nat) (t : Nat) : Bool :=
  match ts with
  | [] => false
  | [a] => a ≤ t
  | [a, b] => a ≤ t && t < b
  | [a, b, c] => (a ≤ t && t < b) || c ≤ t
  | _ => false

/-- `lookup_historical_preimage`, manager.rs lines 693-731. -/
def lookupHist (a : Global) (s t : Nat) (h : Bytes) : Option Bytes :=
  match a.preimages s h with
  | none => none
  | some data =>
    match a.lookups s (h, data.length % U32) with
    | none => none
    | some ts => if validAt ts t then some data else none

end Fastroll.Svc
