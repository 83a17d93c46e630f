import Verif.Acc.Model
/-!
# What scheduling should achieve
-/
namespace Fastroll.Acc

/-- The packages a report waits for. -/
def Report.deps (r : Report) : List Nat := r.prereqs ++ r.lookup

/-- Every report comes after its dependencies, or they are among `done`. -/
def Ordered (done : List Nat) (rs : List Report) : Prop :=
  ∀ pre r post, rs = pre ++ r :: post → ∀ d ∈ r.deps, d ∈ done ∨ ∃ r' ∈ pre, r'.pkg = d

/-- A set of packages closed under "all dependencies are in it". -/
def Closed (q : List Entry) (S : Nat → Prop) : Prop := ∀ e ∈ q, (∀ d ∈ e.2, S d) → S e.1.pkg

/-- The packages that can be scheduled at all: the least closed set. Members of a dependency cycle,
and whatever waits for a missing package, are not in it. -/
def Schedulable (q : List Entry) (p : Nat) : Prop := ∀ S, Closed q S → S p

/-- One block's input to accumulation: what became available, its slot, how many reports fit. -/
structure Block where
  available : List Report
  slot : Nat
  n : Nat

/-- The chain of accumulations: final state and all reports accumulated, in order. -/
def runBlocks : St → List Block → Option (St × List Report)
  | s, [] => some (s, [])
  | s, b :: bs =>
    match blockStep s b.available b.slot b.n with
    | none => none
    | some (s', done) =>
      match runBlocks s' bs with
      | none => none
      | some (s'', rest) => some (s'', done ++ rest)

/-- The state at genesis, for epochs of `E` slots. -/
def genesis (E : Nat) : St := { slot := 0, queue := List.replicate E [], history := List.replicate E [] }

/-- Slots strictly increase. -/
def Increasing : Nat → List Block → Prop
  | _, [] => True
  | s, b :: bs => s < b.slot ∧ Increasing b.slot bs

/-- A ring buffer holds the entries of the `E` slots up to `now`; slots before genesis are negative. -/
def Window (ring : List (List Entry)) (W : Int → List Entry) (now : Nat) : Prop :=
  ∀ s : Int, (now : Int) - ring.length < s → s ≤ now → ring[(s % (ring.length : Int)).toNat]? = some (W s)

/-- What is left of waiting entries once the packages `A` have accumulated. -/
def Remaining (A : List Nat) (old new : List Entry) : Prop :=
  new.map (·.1) = (old.map (·.1)).filter (fun r => decide (r.pkg ∉ A)) ∧
  ∀ e ∈ new, ∃ e0 ∈ old, e.1 = e0.1 ∧ ∀ d, d ∈ e.2 ↔ d ∈ e0.2 ∧ d ∉ A

/-- Total accumulation gas of a list of reports. -/
def totalGas (rs : List Report) : Nat := (rs.map fun r => (r.digests.map (·.gas)).sum).sum

/-- `i` is the length of the longest prefix that fits into `budget`. -/
def IsMaxPrefix (rs : List Report) (budget i : Nat) : Prop :=
  i ≤ rs.length ∧ totalGas (rs.take i) ≤ budget ∧
    ∀ j, j ≤ rs.length → totalGas (rs.take j) ≤ budget → j ≤ i

end Fastroll.Acc
