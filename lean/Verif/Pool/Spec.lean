import Verif.Pool.Model

/-
What a pool of extrinsics is: a log of the additions it accepted.  Nothing here uses the maps of
the model.
-/
namespace Fastroll.Pool

/-- An accepted addition. -/
abbrev Log := List (Entry × Nat)

/-- The entry last accepted under a hash. -/
def latest (l : Log) (h : Nat) : Option Entry :=
  (l.reverse.find? fun a => a.1.hash = h).map (·.1)

/-- How many different hashes were accepted. -/
def distinct (l : Log) : Nat := ((l.map (·.1.hash)).eraseDups).length

/-- The answer to a query: for each accepted addition of the type and slot, in order, the entry
its hash stands for now. -/
def lookup (l : Log) (ty slot : Nat) : List Entry :=
  (l.filter fun a => a.1.ty = ty ∧ a.2 = slot).filterMap fun a => latest l a.1.hash

/-- A call on a log. -/
def answer (max : Nat) (l : Log) : Op → Log × Ans
  | .add e slot => if max ≤ distinct l then (l, .full) else (l ++ [(e, slot)], .added)
  | .query ty slot => (l, .entries (lookup l ty slot))

/-- Calls on a log one after another. -/
def answers (max : Nat) : Log → List Op → Log × List Ans
  | l, [] => (l, [])
  | l, o :: os => ((answers max (answer max l o).1 os).1,
      (answer max l o).2 :: (answers max (answer max l o).1 os).2)

/-- The additions a log accepts. -/
def accepted (max : Nat) (os : List Op) : Log := (answers max [] os).1

/-- A concurrent run is explained by an order of its calls: `lin` lists the threads whose calls
have taken effect; everybody who has returned is listed, nobody who has not begun is, and who has
returned got the answer of its place in that order; when nobody is inside a call, the pool answers
every further sequence of calls as the log does. -/
structure Explains (max : Nat) (op : Nat → Op) (s : St) (lin : List Nat) : Prop where
  nodup : lin.Nodup
  returned : ∀ t a, s.pc t = .done a → t ∈ lin
  begun : ∀ t, t ∈ lin → s.pc t ≠ .start
  answer : ∀ (i t : Nat) a, lin[i]? = some t → s.pc t = .done a →
    (answers max [] (lin.map op)).2[i]? = some a
  quiet : (∀ t, s.pc t = .start ∨ ∃ a, s.pc t = .done a) → ∀ os,
    (calls max s.data os).2 = (answers max (accepted max (lin.map op)) os).2

end Fastroll.Pool
