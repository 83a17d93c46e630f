import Verif.Judge.Model
/-!
# What disputes should do

Stated on the blocks of a chain: what was said about a report, and what a key signed.
-/
namespace Fastroll.Judge.Spec
variable {σ : Type}

/-- A verdict was pronounced in the chain. -/
def Said (bs : List (Env σ × Xt σ)) (E : Env σ) (v : Verdict σ) : Prop := ∃ x, (E, x) ∈ bs ∧ v ∈ x.verdicts

/-- The statement signed by a vote. -/
def statement (report : Nat) : Bool → Msg
  | true => .valid report
  | false => .invalid report

/-- The holder of `key` signed that the report is valid (`true`) or not (`false`). -/
def Voted (ver : Nat → Msg → σ → Bool) (key report : Nat) (vote : Bool) : Prop :=
  ∃ s, ver key (statement report vote) s = true

/-- The holder of `key` guaranteed the report. -/
def Guaranteed (ver : Nat → Msg → σ → Bool) (key report : Nat) : Prop := ∃ s, ver key (.guarantee report) s = true

/-- The number of votes for and against. -/
def ayes (v : Verdict σ) : Nat := (v.js.filter fun j => j.vote = true).length

/-- Increasing order. -/
def Sorted (l : List Nat) : Prop := l.Pairwise (· ≤ ·)

/-- All the reports judged in a chain, in order. -/
def judged (bs : List (Env σ × Xt σ)) : List Nat := bs.flatMap fun b => b.2.verdicts.map Verdict.report

/-- The reports recorded in a state. -/
def recorded (d : Disputes) : List Nat := d.good ++ d.bad ++ d.wonky

/-- Strictly increasing: in order and without repetition. -/
def Increasing (l : List Nat) : Prop := l.Pairwise (· < ·)

/-- A verdict that may be pronounced: one of three tallies, with the offenders it implies, on a report not
judged before, signed by distinct validators of the set it names. -/
structure VerdictOk (E : Env σ) (d : Disputes) (xt : Xt σ) (v : Verdict σ) : Prop where
  age : E.epoch ≤ v.epoch + 1
  tally : ayes v = 2 * E.V / 3 + 1 ∨ ayes v = 0 ∨ ayes v = E.V / 3
  faults : ayes v = 2 * E.V / 3 + 1 → ∃ f ∈ xt.faults, f.report = v.report
  culprits : ayes v = 0 → 2 ≤ (xt.culprits.filter fun c => c.report = v.report).length
  fresh : v.report ∉ recorded d
  voters : Increasing (v.js.map Judgment.voter)
  signed : ∀ j ∈ v.js, ∃ key, (if v.epoch = E.epoch then E.active else E.past)[j.voter]? = some key ∧
    E.ver key (statement v.report j.vote) j.sig = true

/-- A key that may be punished now. -/
def Punishable (E : Env σ) (d : Disputes) (key : Nat) : Prop := (key ∈ E.active ∨ key ∈ E.past) ∧ key ∉ d.punish

/-- An extrinsic that may be included. -/
structure Proper (E : Env σ) (d : Disputes) (xt : Xt σ) : Prop where
  verdictsUp : Increasing (xt.verdicts.map Verdict.report)
  culpritsUp : Increasing (xt.culprits.map Culprit.key)
  faultsUp : Increasing (xt.faults.map Fault.key)
  verdicts : ∀ v ∈ xt.verdicts, VerdictOk E d xt v
  culprits : ∀ c ∈ xt.culprits, Punishable E d c.key ∧ (∃ v ∈ xt.verdicts, v.report = c.report ∧ ayes v = 0) ∧
    E.ver c.key (.guarantee c.report) c.sig = true
  faults : ∀ f ∈ xt.faults, Punishable E d f.key ∧
    (∃ v ∈ xt.verdicts, v.report = f.report ∧ (f.vote = false ∧ ayes v = 2 * E.V / 3 + 1 ∨ f.vote = true ∧ ayes v = 0)) ∧
    E.ver f.key (statement f.report f.vote) f.sig = true

end Fastroll.Judge.Spec
