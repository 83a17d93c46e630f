import Verif.CachedDb.Model
/-
The database without a cache.
-/
namespace Fastroll.CachedDb.Spec
open Fastroll.CachedDb
variable {K V B : Type} [DecidableEq K]

/-- A read of the database. -/
def read (C : Codec K V B) (db : K → Option B) (k : K) : Out V :=
  match db k with
  | none => .value none
  | some b =>
    match C.dec k b with
    | none => .err .codec
    | some v => .value (some v)

/-- The value a list of writes leaves at a key: the last one that mentions it. -/
def lastWrite (ws : List (K × Option V)) (k : K) : Option (Option V) :=
  (ws.reverse.find? fun p => p.1 = k).map Prod.snd

/-- All written values can be encoded. -/
def encodable (C : Codec K V B) (ws : List (K × Option V)) : Bool :=
  ws.all fun p => match p.2 with
    | none => true
    | some v => (C.enc v).isSome

/-- The database after a list of writes. -/
def after (C : Codec K V B) (db : K → Option B) (ws : List (K × Option V)) : K → Option B := fun k =>
  match lastWrite ws k with
  | none => db k
  | some v => v.bind C.enc

/-- A list of writes. -/
def write (C : Codec K V B) (db : K → Option B) (ws : List (K × Option V)) (io : Bool) :
    Out V × (K → Option B) :=
  if encodable C ws = false then (.err .codec, db)
  else if io then (.done, after C db ws) else (.err .io, db)

/-- One operation. -/
def step (C : Codec K V B) (db : K → Option B) : Op K V → Out V × (K → Option B)
  | .get k => (read C db k, db)
  | .put k v io => write C db [(k, some v)] io
  | .delete k io => write C db [(k, none)] io
  | .batch ws io => write C db ws io
  | .evict _ => (.done, db)

/-- A history. -/
def run (C : Codec K V B) (db : K → Option B) : List (Op K V) → List (Out V) × (K → Option B)
  | [] => ([], db)
  | o :: os => ((step C db o).1 :: (run C (step C db o).2 os).1, (run C (step C db o).2 os).2)

/-- The rest of an operation writes the key to the cache. -/
def writes (k : K) : Task K V → Bool
  | .fill _ _ => false
  | .sync ws => ws.any fun p => p.1 = k

/-- The rest of an operation fills the cache at the key. -/
def fills (k : K) : Task K V → Bool
  | .fill k' _ => k' = k
  | .sync _ => false

/-- The key is being written by an operation under way. -/
def writing (ts : List (Task K V)) (k : K) : Bool := ts.any (writes k)

/-- The key is touched by an operation under way. -/
def touched (ts : List (Task K V)) (k : K) : Bool := ts.any fun t => writes k t || fills k t

/-- The step does not start to write a key that an operation under way touches. -/
def polite (y : Sys K V B) : Micro K V → Bool
  | .write ws _ => ws.all fun p => !touched y.tasks p.1
  | _ => true

/-- No step of the schedule starts to write a key that an operation under way touches. -/
def exclusive (C : Codec K V B) (y : Sys K V B) : List (Micro K V) → Bool
  | [] => true
  | m :: ms => polite y m && exclusive C (micro C y m) ms

end Fastroll.CachedDb.Spec
