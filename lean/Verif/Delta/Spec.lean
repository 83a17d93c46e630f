import Verif.Delta.Model
import Verif.Svc.SpecMerge

/-!
# Specification of the accumulation of a block, as a sequence of rounds
-/
namespace Fastroll.Delta
open Fastroll.Pvm Fastroll.Svc

/-- What happened in one round: the state before and after, the transfers delivered, the reports and
the always-accumulate services it took, the results of the services and the transfers they sent. -/
structure Round where
  start : PState Boxes
  finish : PState Boxes
  delivered : List Transfer
  reports : List Acc.Report
  always : List (Nat × Nat)
  results : List AccResult
  sent : List Transfer

/-- The round has something for the service `s`: a work item, a transfer or an entry among the
always-accumulate services. -/
def Round.Called (R : Round) (s : Nat) : Prop :=
  (∃ r ∈ R.reports, ∃ d ∈ r.digests, d.svc = s) ∨ (∃ t ∈ R.delivered, t.dst = s) ∨ ∃ e ∈ R.always, e.1 = s

instance (R : Round) (s : Nat) : Decidable (R.Called s) := by unfold Round.Called; infer_instance

/-- The service `s` has a privilege when the round starts. -/
def Round.Privileged (R : Round) (s : Nat) : Prop :=
  s ∈ R.start.assign.confirmed ∨ s = R.start.registrar.confirmed ∨ s = R.start.designate.confirmed ∨ s = R.start.manager

/-- The account exists: it is committed or was created in the block, and has not been ejected. -/
def Alive (g : Global) (bs : Boxes) (s : Nat) : Prop :=
  match boxGet bs s with
  | some b => b.info.status ≠ .removed
  | none => (g.metas s).isSome

/-- The gas a service is given in a round. -/
def Round.limit (R : Round) (s : Nat) : Nat :=
  ((R.always.find? fun e => e.1 == s).map (·.2)).getD 0 +
  (((R.reports.flatMap (·.digests)).filter fun d => d.svc == s).map (·.gas)).sum +
  ((R.delivered.filter fun t => t.dst == s).map Transfer.gas).sum

/-- The results of the services that were called; the others, run only for their privilege, are not
accounted. -/
def Round.counted (R : Round) : List AccResult := R.results.filter fun r => decide (R.Called r.host)

/-- The round is what it should be: exactly the services called or privileged that exist have run, each
once, on the same state, with all that is meant for them; their results are merged in order of
identifier; what the called ones sent is on its way. -/
structure Round.Faithful (W : World) (R : Round) : Prop where
  order : (R.results.map AccResult.host).Pairwise (· < ·)
  who : ∀ s, s ∈ R.results.map AccResult.host ↔ (R.Called s ∨ R.Privileged s) ∧ Alive W.g R.start.boxes s
  run : ∀ r ∈ R.results, R.limit r.host < 2 ^ 64 ∧
    accumulate W.g (W.env r.host R.delivered R.reports) W.mach R.start
      { host := r.host, gasLimit := R.limit r.host, incoming := R.delivered.filter fun t => t.dst == r.host, seed := W.seed r.host } = .ok (some r)
  merged : (mergeRound W.g W.base (fun s => decide (R.Called s)) R.start R.results).map (fun m => m.st.u) = some R.finish
  sent : R.sent = R.counted.flatMap AccResult.transfers

/-- The rounds follow each other from the state `u` and the transfers `ts` to the state `v` with no
transfer left. -/
def Chain : PState Boxes → List Transfer → List Round → PState Boxes → Prop
  | u, ts, [], v => u = v ∧ ts = []
  | u, ts, R :: Rs, v => R.start = u ∧ R.delivered = ts ∧ Chain R.finish R.sent Rs v

/-- The outputs of the called services. -/
def Round.outputs (R : Round) : List (Nat × Bytes) := R.counted.flatMap fun r => (r.hash.map fun h => (r.host, h)).toList

/-- The order of the outputs: by service, then by octets. -/
def OutLt (a b : Nat × Bytes) : Prop := a.1 < b.1 ∨ (a.1 = b.1 ∧ a.2 < b.2)

/-- The gas the called services used. -/
def Round.used (R : Round) : Nat := (R.counted.map AccResult.gas).sum

/-- The gas that came with the transfers delivered. -/
def Round.brought (R : Round) : Nat := (R.delivered.map Transfer.gas).sum

/-- The pace of the rounds: with `left` gas, each round takes the longest prefix of the reports to do
that fits, whatever it leaves is left for the next together with the gas the transfers brought; at the
end not even the first of the reports not done fits. -/
def Paced : Nat → List Acc.Report → List Round → List Acc.Report → Prop
  | left, todo, [], rest => todo = rest ∧ ∀ r ∈ todo.head?, left < Acc.totalGas [r]
  | left, todo, R :: Rs, rest =>
    ∃ after, todo = R.reports ++ after ∧ Acc.IsMaxPrefix todo left R.reports.length ∧
      R.used ≤ left + R.brought ∧ Paced (left + R.brought - R.used) after Rs rest

/-- The always-accumulate services run in the first round only. -/
def AlwaysFirst (always : List (Nat × Nat)) : List Round → Prop
  | [] => always = []
  | R :: Rs => R.always = always ∧ ∀ R' ∈ Rs, R'.always = []

/-- The tokens of transfers whose receiver does not exist when they are delivered. -/
def Round.lost (R : Round) : Nat := inFlight (R.delivered.filter fun t => decide (t.dst ∉ R.results.map AccResult.host))

/-- In the round each service, on its own, neither makes nor destroys tokens and touches no account but
its own and those it creates or ejects; the accounts are consistent. -/
structure Round.Clean (W : World) (R : Round) : Prop where
  ok : ∃ D, RoundOk W.g D R.start R.results
  alone : ∀ r ∈ R.results, ∀ s, s ≠ r.host → ¬ Flips (view W.g R.start.boxes) r s →
    (Alone (view W.g R.start.boxes) r).metas s = (view W.g R.start.boxes).metas s
  conserves : ∀ r ∈ R.results, ∃ n0 n, Held (view W.g R.start.boxes) n0 ∧ Held (Alone (view W.g R.start.boxes) r) n ∧
    n + inFlight r.transfers = n0 + inFlight (R.delivered.filter fun t => t.dst == r.host)

end Fastroll.Delta
