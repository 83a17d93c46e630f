/-
Model of the in-memory pool of extrinsics, `extrinsics/src/pool/mod.rs`: what its calls do one
after another, and what several threads that share it do.

Simplifications.
* Hashes, types of extrinsics, slots and the encoded data are natural numbers; only equality is
  used.
* A `HashMap` and a `BTreeMap` are association lists with at most one pair per key; `len` is the
  length of the list.
* A poisoned lock (`write().unwrap()` after a panic of another thread) is not modelled: no step
  under a lock panics.
* `remove_extrinsic` is `unimplemented!()` (lines 116-118) and not modelled.
-/
namespace Fastroll.Pool

/-- `OpaqueXtEntry`, extrinsics/src/pool/mod.rs 33-39. -/
structure Entry where
  hash : Nat
  data : Nat
  ty : Nat
  deriving DecidableEq, Repr

/-- `HashMap::get` and `BTreeMap::get`. -/
def get {K V : Type} [DecidableEq K] : List (K × V) → K → Option V
  | [], _ => none
  | (k', v) :: m, k => if k' = k then some v else get m k

/-- `HashMap::insert`: an old value is overwritten. -/
def put {K V : Type} [DecidableEq K] : List (K × V) → K → V → List (K × V)
  | [], k, v => [(k, v)]
  | (k', v') :: m, k, v => if k' = k then (k, v) :: m else (k', v') :: put m k v

/-- The data of `XtPool`, extrinsics/src/pool/mod.rs 51-59. -/
structure Data where
  extrinsics : List (Nat × Entry)
  index : List ((Nat × Nat) × List Nat)
  deriving DecidableEq, Repr

/-- `XtPool::new`, extrinsics/src/pool/mod.rs 62-68. -/
def empty : Data := ⟨[], []⟩

/-- The insertion into the main storage, extrinsics/src/pool/mod.rs 84. -/
def store (d : Data) (e : Entry) : Data :=
  { d with extrinsics := put d.extrinsics e.hash e }

/-- The insertion into the index, extrinsics/src/pool/mod.rs 87-90:
`entry(..).or_default().push(hash)`. -/
def note (d : Data) (e : Entry) (slot : Nat) : Data :=
  { d with index := put d.index (e.ty, slot) ((get d.index (e.ty, slot)).getD [] ++ [e.hash]) }

/-- `extrinsics.len() >= self.max_size`, extrinsics/src/pool/mod.rs 79. -/
def full (max : Nat) (d : Data) : Bool := decide (max ≤ d.extrinsics.length)

/-- `get_extrinsics_by_type_and_timeslot`, extrinsics/src/pool/mod.rs 96-113. -/
def query (d : Data) (ty slot : Nat) : List Entry :=
  match get d.index (ty, slot) with
  | some hashes => hashes.filterMap (get d.extrinsics)
  | none => []

/-- A call of the pool: `add_extrinsic` or `get_extrinsics_by_type_and_timeslot`. -/
inductive Op
  | add (e : Entry) (slot : Nat)
  | query (ty slot : Nat)
  deriving DecidableEq, Repr

/-- What a call returns: `Ok(())`, `Err(Full)` or the entries. -/
inductive Ans
  | added
  | full
  | entries (es : List Entry)
  deriving DecidableEq, Repr

/-- One call with nobody else using the pool, extrinsics/src/pool/mod.rs 71-113. -/
def call (max : Nat) (d : Data) : Op → Data × Ans
  | .add e slot => if full max d then (d, .full) else (note (store d e) e slot, .added)
  | .query ty slot => (d, .entries (query d ty slot))

/-- Calls one after another. -/
def calls (max : Nat) : Data → List Op → Data × List Ans
  | d, [] => (d, [])
  | d, o :: os =>
    let (d, a) := call max d o
    let (d, as) := calls max d os
    (d, a :: as)

/-! Several threads.  Each performs one call; a thread that performs several is several threads
here, which only allows more interleavings. -/

/-- `std::sync::RwLock`: who writes and who reads. -/
structure Lock where
  writer : Option Nat
  readers : List Nat
  deriving DecidableEq, Repr

/-- `write()` returns: nobody holds the lock. -/
def Lock.canWrite (l : Lock) : Bool := l.writer.isNone && l.readers.isEmpty

/-- `read()` may return: nobody writes.  (An implementation may also let readers wait for a
waiting writer, which allows fewer runs.) -/
def Lock.canRead (l : Lock) : Bool := l.writer.isNone

/-- Where a thread is in its call. -/
inductive Pc
  /-- no lock taken yet -/
  | start
  /-- the first lock is held, the second is next -/
  | one
  /-- both locks are held, nothing done yet -/
  | both
  /-- the pool was not full; the main storage is written next -/
  | store
  /-- the index is written next -/
  | note
  /-- the answer is known; the lock taken last is released next -/
  | unlock (a : Ans)
  /-- the lock taken first is released next -/
  | unlock' (a : Ans)
  /-- returned -/
  | done (a : Ans)
  deriving DecidableEq, Repr

/-- The shared pool and where every thread is.  Lock `false` is the one of `extrinsics`, lock
`true` the one of `type_timeslot_index`. -/
structure St where
  data : Data
  lock : Bool → Lock
  pc : Nat → Pc

/-- The lock a call takes first.  `add_extrinsic` takes that of `extrinsics`
(extrinsics/src/pool/mod.rs 76-77); the query takes lock `o`, which in the code is that of
`type_timeslot_index` (extrinsics/src/pool/mod.rs 101-102), `o = true`. -/
def first (o : Bool) : Op → Bool
  | .add _ _ => false
  | .query _ _ => o

/-- The lock a call takes second. -/
def second (o : Bool) (op : Op) : Bool := !first o op

/-- Taking a lock: for writing by an addition, for reading by a query; `none` while it has to
wait. -/
def acquire (l : Lock) (t : Nat) : Op → Option Lock
  | .add _ _ => if l.canWrite then some { l with writer := some t } else none
  | .query _ _ => if l.canRead then some { l with readers := t :: l.readers } else none

/-- Dropping a guard. -/
def release (l : Lock) (t : Nat) : Op → Lock
  | .add _ _ => { l with writer := none }
  | .query _ _ => { l with readers := l.readers.erase t }

/-- Function update. -/
def upd {A B : Type} [DecidableEq A] (f : A → B) (a : A) (b : B) : A → B :=
  fun x => if x = a then b else f x

/-- Moves a thread on. -/
def St.move (s : St) (t : Nat) (p : Pc) : St := { s with pc := upd s.pc t p }

/-- Changes a lock. -/
def St.set (s : St) (b : Bool) (l : Lock) : St := { s with lock := upd s.lock b l }

/-- The part of a call under both locks, one access to the shared data at a time. -/
def work (max : Nat) (d : Data) (p : Pc) : Op → Data × Pc
  | .add e slot =>
    match p with
    | .both => if full max d then (d, .unlock .full) else (d, .store)
    | .store => (Pool.store d e, .note)
    | _ => (Pool.note d e slot, .unlock .added)
  | .query ty slot => (d, .unlock (.entries (query d ty slot)))

/-- One step of thread `t`, which performs the call `op t`; `none` if it has to wait or has
returned.  Guards are dropped in the reverse order of their declaration.
extrinsics/src/pool/mod.rs 71-113. -/
def step (o : Bool) (max : Nat) (op : Nat → Op) (s : St) (t : Nat) : Option St :=
  match s.pc t with
  | .start => (acquire (s.lock (first o (op t))) t (op t)).map fun l =>
      (s.set (first o (op t)) l).move t .one
  | .one => (acquire (s.lock (second o (op t))) t (op t)).map fun l =>
      (s.set (second o (op t)) l).move t .both
  | .unlock a => some ((s.set (second o (op t))
      (release (s.lock (second o (op t))) t (op t))).move t (.unlock' a))
  | .unlock' a => some ((s.set (first o (op t))
      (release (s.lock (first o (op t))) t (op t))).move t (.done a))
  | .done _ => none
  | p => some (St.move { s with data := (work max s.data p (op t)).1 } t
      (work max s.data p (op t)).2)

/-- A new pool before any thread has begun. -/
def init : St := ⟨empty, fun _ => ⟨none, []⟩, fun _ => .start⟩

/-- The threads take steps in the given order. -/
def runs (o : Bool) (max : Nat) (op : Nat → Op) : St → List Nat → Option St
  | s, [] => some s
  | s, t :: ts => (step o max op s t).bind fun s' => runs o max op s' ts

end Fastroll.Pool
