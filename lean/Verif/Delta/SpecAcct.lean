import Verif.Delta.Spec
import Verif.Svc.Spec
import Verif.Svc.SpecAcc
import Verif.Svc.ApplyModel

/-!
# Specification of the accounts a block leaves
-/
namespace Fastroll.Delta
open Fastroll.Pvm Fastroll.Svc

/-- The contexts an accumulation starts its program with, and the host calls the program then makes;
`none` if it runs no program. -/
def opening (g : Global) (env : Env) (mach : Machine) (p : PState Boxes) (a : AccArgs) : Option (Pair Boxes × List (Nat × VM)) :=
  (receive g (existsActive g p.boxes a.host).2 a.host (received a.incoming)).bind fun bs1 =>
    match accountCode g mach bs1 a.host with
    | (.ok (some code), bs) =>
      if code.length > 4000000 then none
      else
        match initialId (boxStore g) bs a.seed, mach.load code with
        | some id, some (prog, init) =>
          let x := freshCtx a.host { p with boxes := bs } id
          some ({ x := x, y := x },
            match init with
            | none => []
            | some vm => extTrace prog (accHost (boxStore g) env) ((asI64 a.gasLimit).toNat + 1) ((asI64 a.gasLimit).toNat + 1)
                { vm with pc := 5, gas := asI64 a.gasLimit } { x := x, y := x })
        | _, _ => none
    | _ => none

/-- Services whose accounts must not be ejected: those that run in the block, and those that the
block creates. -/
def Busy (g : Global) (Rs : List Round) (s : Nat) : Prop := g.metas s = none ∨ ∃ R ∈ Rs, s ∈ R.results.map AccResult.host

/-- No program of the round fills an account beyond what the counters hold, takes the identifier of a
committed account for a new one, or ejects an account in `D`. -/
def Round.Careful (W : World) (D : Nat → Prop) (R : Round) : Prop :=
  ∀ r ∈ R.results, ∀ q cs,
    opening W.g (W.env r.host R.delivered R.reports) W.mach R.start
      { host := r.host, gasLimit := R.limit r.host, incoming := R.delivered.filter fun t => t.dst == r.host, seed := W.seed r.host } = some (q, cs) →
    Throughout (accHost mapStore (W.env r.host R.delivered R.reports)) (fun p => p.x.p.boxes.InRange) cs (q.view W.g) ∧
    BeforeEach (accHost mapStore (W.env r.host R.delivered R.reports)) (CallOk W.g D) cs (q.view W.g)

/-- Consistent accounts: footprints are exact and fit the counters, every account holds its deposit. -/
structure Healthy (a : Global) : Prop where
  sound : a.Sound
  range : a.InRange
  solvent : Solvent a

/-- The sandboxes `bs` written back to `g` give the accounts `a`. -/
def WrittenBack (g : Global) (bs : Boxes) (a : Global) : Prop :=
  (∀ s, applyMeta g bs s = some (a.metas s)) ∧ (∀ s k, applyStorage g bs s k = some (a.storage s k)) ∧
  (∀ s k, applyPreimages g bs s k = some (a.preimages s k)) ∧ (∀ s k, applyLookups g bs s k = some (a.lookups s k))

/-- The host calls that change what an account stores or which accounts there are: `write`, `new`, `eject`,
`solicit` and `forget`. -/
def Filling : List Nat := [4, 18, 21, 23, 24]

/-- A program none of whose instructions makes one of these calls. -/
def Modest (p : Prog) : Prop := ∀ pc ins, p.instructionAt pc = some ins → ins.op = .ecalli → ins.imm1.toNat % 256 ∉ Filling

/-- The accounts after each block of a history, starting from `g`, with the tokens lost so far. Each block
consists of careful rounds over the accounts before it, the writing back, the stamps of the services
accumulated and the preimages of the block; everything else about it is arbitrary. -/
inductive Lives (g : Global) : Nat → Global → Prop
  | start : Lives g 0 g
  | block {n : Nat} {a b : Global} {W : World} {χ : Chi} {queues : List (List Bytes)} {Rs : List Round} {v : PState Boxes} {slot : Nat} {ids : List Nat}
      {env : Env} {es : List (Nat × Bytes)} : Lives g n a → W.g = a → (∀ R ∈ Rs, R.Faithful W) → Chain (Delta.start χ queues) [] Rs v →
      (∀ R ∈ Rs, R.Careful W (Busy W.g Rs)) → WrittenBack a v.boxes b →
      Lives g (n + (Rs.map Round.lost).sum) (integrate env es (stamp slot ids b))

end Fastroll.Delta
