import Verif.StateCache.Model
/-
The transactions the state cache is meant to provide, without any cache: a committed map,
the writes made since, and the maps that staged blocks would make committed.
-/
namespace Fastroll.StateCache.Spec
open Fastroll.StateCache

/-- A write that is not committed. -/
inductive Pend (V : Type)
  | added (v : V) | updated (v : V) | removed
  deriving DecidableEq, Repr

/-- Abstract state.  `touched`: some write is pending.  `clash`: a committed key was removed
and added again since the last commit. -/
structure Abs (K V : Type) where
  committed : K → Option V
  pend : K → Option (Pend V)
  touched : Bool
  clash : Bool
  staged : List (K → Option V)

variable {K V : Type} [DecidableEq K]

/-- What a pending write makes of a key. -/
def Pend.see : Pend V → Option V
  | .added v => some v
  | .updated v => some v
  | .removed => none

/-- What a read sees. -/
def visible (a : Abs K V) (k : K) : Option V :=
  match a.pend k with
  | some p => p.see
  | none => a.committed k

/-- The key was added since the last commit. -/
def isAdded (a : Abs K V) (k : K) : Bool :=
  match a.pend k with
  | some (.added _) => true
  | _ => false

/-- An overwritten key: added keys stay added. -/
def overwrite (a : Abs K V) (k : K) (v : V) : Pend V :=
  if isAdded a k then .added v else .updated v

/-- Forget all pending writes. -/
def reset (a : Abs K V) : Abs K V := { a with pend := fun _ => none, touched := false, clash := false }

/-- One operation on the abstract state. -/
def step (a : Abs K V) : Op K V → Out V × Abs K V
  | .get k => (.value (visible a k), a)
  | .getClean k => (.value (a.committed k), a)
  | .add k v =>
    if (visible a k).isSome then (.err .exists, a)
    else (.done, { a with pend := upd a.pend k (some (.added v)), touched := true, clash := a.clash || (a.committed k).isSome })
  | .update k f =>
    match visible a k with
    | none => (.err .notInitialized, a)
    | some v =>
      match f v with
      | none => (.err .closure, a)
      | some v' => (.done, { a with pend := upd a.pend k (some (overwrite a k v')), touched := true })
  | .remove k =>
    match visible a k with
    | none => (.err .notInitialized, a)
    | some _ => (.done, { a with pend := upd a.pend k (some .removed), touched := true })
  | .commit io =>
    if a.touched = false then (.done, a)
    else if a.clash then (.err .panic, a)
    else if io then (.done, { reset a with committed := visible a })
    else (.err .commit, a)
  | .stage =>
    if a.touched = false then (.done, a)
    else if a.clash then (.err .panic, a)
    else (.done, { reset a with staged := visible a :: a.staged })
  | .finalize i =>
    match a.staged[i]? with
    | none => (.err .commit, a)
    | some m => (.done, { a with committed := m, staged := [] })
  | .rollback => (.done, reset a)
  | .evict _ => (.done, a)

/-- A history and the answers it should give. -/
def run (a : Abs K V) : List (Op K V) → List (Out V) × Abs K V
  | [] => ([], a)
  | o :: os => ((step a o).1 :: (run (step a o).2 os).1, (run (step a o).2 os).2)

/-- Nothing pending, nothing staged. -/
def opened (db : K → Option V) : Abs K V :=
  { committed := db, pend := fun _ => none, touched := false, clash := false, staged := [] }

/-- The operations a caller may use in a state: pre-state reads and removals are not made on a
key added since the last commit, a direct commit is not made while blocks are staged, and a
staged block is finalised only between blocks. -/
def allowed (a : Abs K V) : Op K V → Bool
  | .getClean k => !isAdded a k
  | .remove k => !isAdded a k
  | .commit _ => a.staged.isEmpty
  | .finalize _ => !a.touched
  | _ => true

/-- Every operation of the history is allowed where it is made. -/
def legal (a : Abs K V) : List (Op K V) → Bool
  | [] => true
  | o :: os => allowed a o && legal (step a o).2 os

end Fastroll.StateCache.Spec
