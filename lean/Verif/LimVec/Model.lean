/-!
# Model of `LimitedVec` and `FixedVec`

Transcribes `/repo/common/limited-vec/src/lib.rs`. A vector is its element list;
the bound is the const generic parameter `max`.
-/
namespace Fastroll.LimVec

/-- `LimitedVecError`, lines 4-10, plus an explicit value for a Rust panic. -/
inductive Err where
  | full | invalidSize | panic
deriving DecidableEq, Repr

variable {α : Type}

/-- `try_push`, lines 54-60. -/
def tryPush (max : Nat) (v : List α) (x : α) : Except Err (List α) :=
  if v.length ≥ max then .error .full else .ok (v ++ [x])

/-- `try_extend`, lines 62-73; `checked_add` on `usize` fails at `2^64`. -/
def tryExtend (max : Nat) (v xs : List α) : Except Err (List α) :=
  if v.length + xs.length ≥ 2 ^ 64 then .error .invalidSize
  else if v.length + xs.length > max then .error .full
  else .ok (v ++ xs)

/-- `shift_push`, lines 75-84. `Vec::remove(0)` panics on an empty vector, which
happens exactly when `max = 0`. Returns the vector and the evicted element. -/
def shiftPush (max : Nat) (v : List α) (x : α) : Except Err (List α × Option α) :=
  if v.length = max then
    match v with
    | [] => .error .panic
    | o :: r => .ok (r ++ [x], some o)
  else .ok (v ++ [x], none)

/-- `remove`, lines 86-88; panics out of range. -/
def remove (v : List α) (i : Nat) : Except Err (List α × α) :=
  match v[i]? with
  | none => .error .panic
  | some x => .ok (v.eraseIdx i, x)

/-- `TryFrom<Vec>`, lines 91-100. -/
def tryFrom (max : Nat) (v : List α) : Except Err (List α) :=
  if v.length > max then .error .invalidSize else .ok v

/-- Operations a caller can apply. -/
inductive Op (α : Type) where
  | push (x : α) | extend (xs : List α) | shift (x : α) | remove (i : Nat)
  | replace (xs : List α)

/-- One operation: the new vector and whether it succeeded; a failing operation
returns `Err` before mutating. -/
def step (max : Nat) (v : List α) : Op α → List α × Option Err
  | .push x => match tryPush max v x with | .ok w => (w, none) | .error e => (v, some e)
  | .extend xs => match tryExtend max v xs with | .ok w => (w, none) | .error e => (v, some e)
  | .shift x => match shiftPush max v x with | .ok w => (w.1, none) | .error e => (v, some e)
  | .remove i => match LimVec.remove v i with | .ok w => (w.1, none) | .error e => (v, some e)
  | .replace xs => match tryFrom max xs with | .ok w => (w, none) | .error e => (v, some e)

def run (max : Nat) (v : List α) (ops : List (Op α)) : List α :=
  ops.foldl (fun v o => (step max v o).1) v

/-- `FixedVec::try_from`, lines 215-227. -/
def fixedTryFrom (size : Nat) (v : List α) : Except Err (List α) :=
  if v.length ≠ size then .error .invalidSize else .ok v

/-- `FixedVec::from_iter`, lines 256-265: no size check. -/
def fixedFromIter (_size : Nat) (v : List α) : List α := v

/-- `FixedVec::new`, lines 182-186: an empty vector. -/
def fixedNew (_size : Nat) : List α := []

end Fastroll.LimVec
