/-!
# Model of the ancestor set

Transcribes `/repo/block/src/ancestors.rs` lines 12-95.

Simplifications.
* A header hash is a number, ordered like its octets.
* `BinaryHeap` of the standard library is any `Heap` with its contract: `peek`, and what `pop` removes, is a
  least element (the entries are wrapped in `Reverse`).  The heap's elements are a list.
* The `HashSet` is a list without regard to order.
-/
namespace Fastroll.Ancestors

/-- `AncestorEntry`: line 7.  The timeslot and the header hash. -/
abbrev Entry := Nat × Nat

/-- The order of tuples. -/
def lt (a b : Entry) : Bool := decide (a.1 < b.1) || (decide (a.1 = b.1) && decide (a.2 < b.2))

/-- `BinaryHeap<Reverse<AncestorEntry>>::peek`. -/
structure Heap where
  peek : List Entry → Option Entry
  mem : ∀ h e, peek h = some e → e ∈ h
  least : ∀ h e x, peek h = some e → x ∈ h → lt x e = false
  empty : ∀ h, peek h = none → h = []

/-- `AncestorSet`: 13-19. -/
structure Set' where
  capacity : Nat
  heap : List Entry
  set : List Entry
deriving DecidableEq

/-- `with_capacity`: 37-43, and `default`: 21-29. -/
def new (capacity : Nat) : Set' := ⟨capacity, [], []⟩

/-- `is_full`: 53-55. -/
def Set'.isFull (s : Set') : Bool := decide (s.heap.length = s.capacity)

/-- `contains`: 57-59. -/
def Set'.contains (s : Set') (e : Entry) : Bool := s.set.elem e

/-- `add`: 63-81. -/
def Set'.add (H : Heap) (s : Set') (e : Entry) : Set' :=
  if s.contains e then s
  else if !s.isFull then ⟨s.capacity, e :: s.heap, e :: s.set⟩
  else
    match H.peek s.heap with
    | none => s
    | some m =>
      if lt m e then ⟨s.capacity, e :: s.heap.erase m, e :: s.set.filter (fun x => decide (x ≠ m))⟩
      else s

/-- `add_multiple`: 83-87. -/
def Set'.addMany (H : Heap) (s : Set') : List Entry → Set'
  | [] => s
  | e :: es => Set'.addMany H (s.add H e) es

/-- `remove`: 89-95.  Every heap entry with the hash is dropped. -/
def Set'.remove (s : Set') (e : Entry) : Set' × Bool :=
  if s.set.elem e then
    (⟨s.capacity, s.heap.filter (fun x => decide (x.2 ≠ e.2)), s.set.filter (fun x => decide (x ≠ e))⟩, true)
  else (s, false)

inductive Op
  | add (e : Entry)
  | remove (e : Entry)
deriving DecidableEq

def Set'.run (H : Heap) (s : Set') : List Op → Set'
  | [] => s
  | .add e :: os => Set'.run H (s.add H e) os
  | .remove e :: os => Set'.run H (s.remove e).1 os

/-- A heap: the least element found by a scan. -/
def scan : List Entry → Option Entry
  | [] => none
  | e :: es =>
    match scan es with
    | none => some e
    | some m => if lt m e then some m else some e

end Fastroll.Ancestors
