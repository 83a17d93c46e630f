import Verif.Da.Spec
import Verif.Da.AvailModel
import Verif.Merkle.Spec
/-! # What the availability specification should commit to -/
namespace Fastroll.Da
open Fastroll.Merkle
open Fastroll.Wire (arrDec)
open Fastroll.Codec (Err vecDec pairDec)

/-- Reading a stored page of proofs back: the justification, then the leaf hashes. -/
def readPage (blob : Bytes) : Except Err ((List Bytes × List Bytes) × Bytes) :=
  pairDec (vecDec 32 (arrDec 32)) (vecDec 32 (arrDec 32)) blob

/-- How many leaves a page of a tree over `n` segments has. -/
def pageWidth (n : Nat) : Nat := min 64 (nextPow2 n)

/-- The check a reader of the page makes: the leaf hashes, padded with zero hashes, and the justification
lead to the segment root. It uses only the number of segments. -/
def PageLeadsTo (h : Bytes → Bytes) (n page : Nat) (just leaves : List Bytes) (root : Bytes) : Prop :=
  recompute h (nextPow2 n) (64 * page) just
    (node h (leaves ++ List.replicate (pageWidth n - leaves.length) zeroHash)) = root

/-- The leaf hashes of the segments on page `page`. -/
def pageOf (h : Bytes → Bytes) (segs : List Bytes) (page : Nat) : List Bytes :=
  (slicePage segs page).map fun s => h (leafPrefix ++ s)
where
  /-- Segments `64 * page` to `64 * page + 63`, as far as there are any. -/
  slicePage (segs : List Bytes) (page : Nat) : List Bytes := (segs.drop (64 * page)).take 64

/-- The strings hashed by `node`. -/
def nodeInputs (h : Bytes → Bytes) (data : List Bytes) : List Bytes :=
  if _h : data.length ≤ 1 then []
  else
    (nodePrefix ++ node h (data.take (mid data.length)) ++ node h (data.drop (mid data.length))) ::
      (nodeInputs h (data.take (mid data.length)) ++ nodeInputs h (data.drop (mid data.length)))
termination_by data.length
decreasing_by all_goals (simp [mid]; omega)

/-- Two different strings with the same hash, one from each list. -/
def Collision (h : Bytes → Bytes) (as bs : List Bytes) : Prop :=
  ∃ a ∈ as, ∃ b ∈ bs, a ≠ b ∧ h a = h b

/-- Validator `j`'s share: its chunk of the bundle and its chunk of every segment and page of proofs. -/
structure Share where
  bundle : Bytes
  segments : List Bytes
  deriving DecidableEq

/-- The leaf of the erasure tree for a share. -/
def Share.leaf (h : Bytes → Bytes) (s : Share) : Bytes := h s.bundle ++ balancedRoot h s.segments

/-- The shares of all validators: everything is cut with the same code, and share `j` takes chunk `j` of
each thing. -/
def IsShares (rs : RS) (k n : Nat) (bundle : Bytes) (things : List Bytes) (shares : List Share) : Prop :=
  shares.length = n ∧ (∃ d, Padded k bundle d ∧ IsCoding rs k n d (shares.map Share.bundle)) ∧
  (∀ s ∈ shares, s.segments.length = things.length) ∧
  ∀ (i : Nat) (x : Bytes), things[i]? = some x →
    ∃ d, Padded k x d ∧ IsCoding rs k n d (shares.map fun s => s.segments.getD i [])

end Fastroll.Da
