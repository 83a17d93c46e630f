import Verif.Trie.Model
import Verif.Trie.NodeSpec
/-
The state map, its legal changes, and the Merklization of a map computed from scratch (Gray Paper
appendix D.2), apart from the model.
-/
namespace Fastroll.Trie.Spec

/-- A state: distinct keys with values. -/
abbrev KV := List (Path × Bytes)

/-- Whether a key is present. -/
def has (kv : KV) (k : Path) : Bool := kv.any fun e => e.1 == k

/-- One legal change: a new key is added, an existing one updated or removed; the last key is not
removed. -/
def apply1 (kv : KV) (e : Entry) : Option KV :=
  match e.kind with
  | .add => if has kv e.key then none else some ((e.key, e.value) :: kv)
  | .update => if has kv e.key then some (kv.map fun x => if x.1 = e.key then (x.1, e.value) else x) else none
  | .remove => if has kv e.key && decide (2 ≤ kv.length) then some (kv.filter fun x => x.1 ≠ e.key) else none

/-- A batch of changes in order. -/
def apply (kv : KV) : List Entry → Option KV
  | [] => some kv
  | e :: es => (apply1 kv e).bind fun kv' => apply kv' es

/-- Bits packed into bytes. -/
def pack : List Bool → Bytes
  | a :: b :: c :: d :: e :: f :: g :: h :: r =>
    UInt8.ofNat (128 * a.toNat + 64 * b.toNat + 32 * c.toNat + 16 * d.toNat + 8 * e.toNat + 4 * f.toNat +
      2 * g.toNat + h.toNat) :: pack r
  | _ => []

/-- `M`: the Merklization of a map from bit `i` on: nothing hashes to zero, one entry to its leaf, several to
a branch over those with bit `i` clear and those with bit `i` set.  `fuel` is the number of bits left. -/
def merkle (H : Bytes → Bytes) : Nat → Nat → KV → Bytes
  | _, _, [] => List.replicate 32 0
  | _, _, [(k, v)] => H (pack (leafBits H k v))
  | 0, _, _ :: _ :: _ => []
  | fuel + 1, i, kv =>
    H (pack (branchBits (merkle H fuel (i + 1) (kv.filter fun e => e.1.getD i false == false))
      (merkle H fuel (i + 1) (kv.filter fun e => e.1.getD i false))))

/-- The state root of a map. -/
def root (H : Bytes → Bytes) (kv : KV) : Bytes := merkle H 248 0 kv

/-- The strings hashed by the Merklization of a map. -/
def inputs (H : Bytes → Bytes) : Nat → Nat → KV → List Bytes
  | _, _, [] => []
  | _, _, [(k, v)] => pack (leafBits H k v) :: if v.length > 32 then [v] else []
  | 0, _, _ :: _ :: _ => []
  | fuel + 1, i, kv =>
    pack (branchBits (merkle H fuel (i + 1) (kv.filter fun e => e.1.getD i false == false))
      (merkle H fuel (i + 1) (kv.filter fun e => e.1.getD i false))) ::
    (inputs H fuel (i + 1) (kv.filter fun e => e.1.getD i false == false) ++
      inputs H fuel (i + 1) (kv.filter fun e => e.1.getD i false))

/-- What a branch keeps of the hash of its left child: all but the first bit. -/
def cut (h : Bytes) : List Bool := (bitString h).tail

/-- Two of the given strings with the same hash up to the first bit, or one whose hash is zero up to the first
bit. -/
def Clash (H : Bytes → Bytes) (xs ys : List Bytes) : Prop :=
  (∃ x ∈ xs, ∃ y ∈ ys, x ≠ y ∧ cut (H x) = cut (H y)) ∨ ∃ x, (x ∈ xs ∨ x ∈ ys) ∧ cut (H x) = List.replicate 255 false

/-- The entries whose key starts with a path. -/
def under (kv : KV) (p : Path) : KV := kv.filter fun e => p.isPrefixOf e.1

/-- The encoded node the Merklization has at a path: none where there is no entry or where the parent is not
a branch. -/
def nodeAt (H : Bytes → Bytes) (kv : KV) (p : Path) : Option Bytes :=
  if p = [] ∨ 2 ≤ (under kv p.dropLast).length then
    match under kv p with
    | [] => none
    | [(k, v)] => some (pack (leafBits H k v))
    | _ => some (pack (branchBits (merkle H (248 - p.length - 1) (p.length + 1) (under kv (p ++ [false])))
        (merkle H (248 - p.length - 1) (p.length + 1) (under kv (p ++ [true])))))
  else none

/-- The specification's state: the committed map and those of the staged blocks. -/
structure Abs where
  kv : KV
  staged : List KV
  deriving DecidableEq, Repr

/-- What an operation does to the map; `none` when it is not legal: a batch that is not a legal change, a key
that is not 248 bits, or an immediate commit while blocks are staged. -/
def step (a : Abs) : Op → Option Abs
  | .commit es =>
    if a.staged = [] ∧ es.all (fun e => e.key.length == 248) then
      (apply a.kv es).map fun kv => { a with kv := kv }
    else none
  | .stage es =>
    if es.all (fun e => e.key.length == 248) then
      (apply a.kv es).map fun kv => { a with staged := a.staged ++ [kv] }
    else none
  | .finalize i =>
    match a.staged[i]? with
    | none => some a
    | some kv => some ⟨kv, []⟩

/-- A history; `none` when some operation is not legal. -/
def run (a : Abs) : List Op → Option Abs
  | [] => some a
  | o :: os => (step a o).bind fun a' => run a' os

end Fastroll.Trie.Spec
