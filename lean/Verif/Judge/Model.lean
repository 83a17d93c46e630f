/-!
# Model of disputes

Transcribes
* `/repo/extrinsics/src/validation/disputes.rs` lines 51-342,
* `/repo/block/src/types/extrinsics/disputes.rs` lines 65-118, 183-198 and the orderings,
* `/repo/state/src/types/disputes.rs` lines 55-86,
* `/repo/transition/src/state/disputes.rs` lines 17-39.

Simplifications.
* Hashes and keys are numbers, ordered like their octets; a signed message is a value of `Msg` (the
  three domains `X_1`, `X_0`, `X_G` prefixed to a hash of 32 octets give messages of different length).
* Signature verification is a function `Ver`.
* `Judgments` is a `FixedVec` of `VALIDATORS_SUPER_MAJORITY` elements (C05): a list here, its length
  stated where it is used.
* The staging set hash updated at the end of the transition belongs to the ring cache.
-/
namespace Fastroll.Judge

/-- What is signed. -/
inductive Msg
  | valid (report : Nat)
  | invalid (report : Nat)
  | guarantee (report : Nat)
deriving DecidableEq

structure Judgment (σ : Type) where
  vote : Bool
  voter : Nat
  sig : σ

structure Verdict (σ : Type) where
  report : Nat
  epoch : Nat
  js : List (Judgment σ)

structure Culprit (σ : Type) where
  report : Nat
  key : Nat
  sig : σ

structure Fault (σ : Type) where
  report : Nat
  vote : Bool
  key : Nat
  sig : σ

structure Xt (σ : Type) where
  verdicts : List (Verdict σ)
  culprits : List (Culprit σ)
  faults : List (Fault σ)

/-- `VALIDATORS_SUPER_MAJORITY`, `FLOOR_ONE_THIRDS_VALIDATOR_COUNT`. -/
def super (V : Nat) : Nat := V * 2 / 3 + 1
def third (V : Nat) : Nat := V / 3

inductive Eval
  | good | bad | wonky | invalid
deriving DecidableEq

variable {σ : Type}

/-- `evaluate_verdict`, block disputes.rs lines 185-197. -/
def Verdict.eval (V : Nat) (v : Verdict σ) : Eval :=
  let n := v.js.countP Judgment.vote
  if n = super V then .good else if n = 0 then .bad else if n = third V then .wonky else .invalid

/-- `is_sorted`. -/
def sortedBy {α : Type} (f : α → Nat) : List α → Bool
  | a :: b :: l => decide (f a ≤ f b) && sortedBy f (b :: l)
  | _ => true

/-- `iter().all(|e| set.insert(e))`. -/
def noDup : List Nat → List Nat → Bool
  | [], _ => true
  | x :: l, seen => !seen.contains x && noDup l (x :: seen)

inductive Err
  | verdictsOrder | culpritsOrder | faultsOrder | dupVerdict | age | votes | fewFaults | fewCulprits | exists | judgmentsOrder | dupJudgment
  | index | judgmentSig | dupCulprit | dupFault | punished | noVerdict | notOffender | notValidator | offenderSig
deriving DecidableEq, Repr

/-- `DisputesState`. -/
structure Disputes where
  good : List Nat
  bad : List Nat
  wonky : List Nat
  punish : List Nat
deriving DecidableEq

/-- What validation reads: verification, number of validators, the Ed25519 keys of the active and past
set before the block, the epoch of the parent. -/
structure Env (σ : Type) where
  ver : Nat → Msg → σ → Bool
  V : Nat
  active : List Nat
  past : List Nat
  epoch : Nat

def voteMsg (report : Nat) (vote : Bool) : Msg := if vote then .valid report else .invalid report

/-- The signatures of a verdict, disputes.rs lines 233-248. -/
def checkSigs (E : Env σ) (set : List Nat) (report : Nat) : List (Judgment σ) → Except Err Unit
  | [] => .ok ()
  | j :: js =>
    match set[j.voter]? with
    | none => .error .index
    | some key => if E.ver key (voteMsg report j.vote) j.sig then checkSigs E set report js else .error .judgmentSig

/-- `validate_verdicts_entry`, lines 162-250. `epoch_index + 1` is taken modulo 2^32 (it panics in a debug
build). -/
def checkVerdict (E : Env σ) (d : Disputes) (xt : Xt σ) (v : Verdict σ) : Except Err Unit :=
  if (v.epoch + 1) % 2 ^ 32 < E.epoch then .error .age
  else if v.eval E.V = .invalid then .error .votes
  else if v.eval E.V = .good ∧ (xt.faults.countP fun f => f.report == v.report) < 1 then .error .fewFaults
  else if v.eval E.V = .bad ∧ (xt.culprits.countP fun c => c.report == v.report) < 2 then .error .fewCulprits
  else if (d.good ++ d.bad ++ d.wonky).contains v.report then .error .exists
  else if !sortedBy Judgment.voter v.js then .error .judgmentsOrder
  else if !noDup (v.js.map Judgment.voter) [] then .error .dupJudgment
  else checkSigs E (if v.epoch = E.epoch then E.active else E.past) v.report v.js

def checkVerdicts (E : Env σ) (d : Disputes) (xt : Xt σ) : List (Verdict σ) → Except Err Unit
  | [] => .ok ()
  | v :: vs =>
    match checkVerdict E d xt v with
    | .error e => .error e
    | .ok () => checkVerdicts E d xt vs

/-- `union_active_and_past_exclude_punish`, lines 144-160: membership. -/
def inValidSet (E : Env σ) (d : Disputes) (key : Nat) : Bool := (E.active.contains key || E.past.contains key) && !d.punish.contains key

/-- `validate_culprits_entry`, lines 253-292. -/
def checkCulprit (E : Env σ) (d : Disputes) (xt : Xt σ) (c : Culprit σ) : Except Err Unit :=
  if d.punish.contains c.key then .error .punished
  else
    match xt.verdicts.find? fun v => v.report == c.report with
    | none => .error .noVerdict
    | some v =>
      if v.eval E.V ≠ .bad then .error .notOffender
      else if !inValidSet E d c.key then .error .notValidator
      else if !E.ver c.key (.guarantee c.report) c.sig then .error .offenderSig
      else .ok ()

def checkCulprits (E : Env σ) (d : Disputes) (xt : Xt σ) : List (Culprit σ) → Except Err Unit
  | [] => .ok ()
  | c :: cs =>
    match checkCulprit E d xt c with
    | .error e => .error e
    | .ok () => checkCulprits E d xt cs

/-- `is_fault`, lines 312-316. -/
def isFault (e : Eval) (vote : Bool) : Bool :=
  match e with
  | .good => !vote
  | .bad => vote
  | _ => false

/-- `validate_faults_entry`, lines 295-341. -/
def checkFault (E : Env σ) (d : Disputes) (xt : Xt σ) (f : Fault σ) : Except Err Unit :=
  if d.punish.contains f.key then .error .punished
  else
    match xt.verdicts.find? fun v => v.report == f.report with
    | none => .error .noVerdict
    | some v =>
      if !isFault (v.eval E.V) f.vote then .error .notOffender
      else if !inValidSet E d f.key then .error .notValidator
      else if !E.ver f.key (voteMsg f.report f.vote) f.sig then .error .offenderSig
      else .ok ()

def checkFaults (E : Env σ) (d : Disputes) (xt : Xt σ) : List (Fault σ) → Except Err Unit
  | [] => .ok ()
  | f :: fs =>
    match checkFault E d xt f with
    | .error e => .error e
    | .ok () => checkFaults E d xt fs

/-- `DisputesXtValidator::validate`, lines 51-142. -/
def validate (E : Env σ) (d : Disputes) (xt : Xt σ) : Except Err Unit :=
  if xt.verdicts.isEmpty && xt.culprits.isEmpty && xt.faults.isEmpty then .ok ()
  else if !sortedBy Verdict.report xt.verdicts then .error .verdictsOrder
  else if !sortedBy Culprit.key xt.culprits then .error .culpritsOrder
  else if !sortedBy Fault.key xt.faults then .error .faultsOrder
  else if !noDup (xt.verdicts.map Verdict.report) [] then .error .dupVerdict
  else
    match checkVerdicts E d xt xt.verdicts with
    | .error e => .error e
    | .ok () =>
      if xt.culprits.isEmpty && xt.faults.isEmpty then .ok ()
      else if !noDup (xt.culprits.map Culprit.key) [] then .error .dupCulprit
      else
        match checkCulprits E d xt xt.culprits with
        | .error e => .error e
        | .ok () =>
          if !noDup (xt.faults.map Fault.key) [] then .error .dupFault
          else checkFaults E d xt xt.faults

/-- `sort`. -/
def insertNat (x : Nat) : List Nat → List Nat
  | [] => [x]
  | y :: l => if x ≤ y then x :: y :: l else y :: insertNat x l

def sortNat (l : List Nat) : List Nat := l.foldr insertNat []

/-- `split_report_set`, block disputes.rs lines 86-107. -/
def split (V : Nat) (e : Eval) (vs : List (Verdict σ)) : List Nat := (vs.filter fun v => decide (v.eval V = e)).map Verdict.report

/-- `collect_offender_keys`, lines 109-118. -/
def offenders (xt : Xt σ) : List Nat := xt.culprits.map Culprit.key ++ xt.faults.map Fault.key

/-- `transition_disputes`, lines 17-39, with `sort_extend_*`. -/
def transition (E : Env σ) (d : Disputes) (xt : Xt σ) : Except Err Disputes :=
  match validate E d xt with
  | .error e => .error e
  | .ok () => .ok { good := sortNat (d.good ++ split E.V .good xt.verdicts), bad := sortNat (d.bad ++ split E.V .bad xt.verdicts),
                    wonky := sortNat (d.wonky ++ split E.V .wonky xt.verdicts), punish := sortNat (d.punish ++ offenders xt) }

/-- Blocks with their dispute extrinsics; validator sets and epoch may change freely in between. -/
def history : List (Env σ × Xt σ) → Disputes → Except Err Disputes
  | [], d => .ok d
  | b :: bs, d =>
    match transition b.1 d b.2 with
    | .error e => .error e
    | .ok d => history bs d

end Fastroll.Judge
