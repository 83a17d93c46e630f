import Verif.Fork.Model
import Verif.Chain.Spec

/-!
# What the fuzzing target must answer

A tree of points: the last finalised point and its valid children that were imported.  A block is judged against the
point of its parent; naming a child as parent finalises that child.  The reply to a block is the root of the state
after it, and the state for a hash is the state of the point with that header hash.
-/
namespace Fastroll.Fork.Paper
open Fastroll.Wire Fastroll.Chain Fastroll.Chain.Paper Fastroll.Fork

/-- The finalised point and its imported children by header hash. -/
structure Tree (K V ρ : Type) where
  fin : Point K V ρ
  staged : List (Bytes × Point K V ρ)

variable {K V ρ : Type} [DecidableEq K]

/-- A block on top of a child makes that child the finalised point. -/
def settle (f : Tree K V ρ) (parent : Bytes) : Tree K V ρ :=
  match find f.staged parent with
  | none => f
  | some p => ⟨p, []⟩

/-- One block: accepted as a child (with forks), accepted as the next point (without), or rejected. -/
inductive Step (W : World K V ρ) (wa forking : Bool) (f : Tree K V ρ) (b : Block) : Option Bytes → Tree K V ρ → Prop
  | child (q : Point K V ρ) : forking = true →
      Extends W wa (fun _ => True) (settle f b.header.parent).fin b q →
      Step W wa forking f b (some (W.root q.st))
        ⟨(settle f b.header.parent).fin, (hh W b.header, q) :: (settle f b.header.parent).staged⟩
  | next (q : Point K V ρ) : forking = false →
      Extends W wa (fun _ => True) (settle f b.header.parent).fin b q →
      Step W wa forking f b (some (W.root q.st)) ⟨q, (settle f b.header.parent).staged⟩
  | reject : (¬ ∃ q, Extends W wa (fun _ => True) (settle f b.header.parent).fin b q) →
      Step W wa forking f b none (settle f b.header.parent)

/-- A list of entries is the state `s`: every entry once, and nothing else. -/
def Lists (l : List (K × V)) (s : St K V) : Prop := (l.map Prod.fst).Nodup ∧ ∀ k v, (k, v) ∈ l ↔ s k = some v

/-- The point of a header hash. -/
def pointOf (W : World K V ρ) (f : Tree K V ρ) (h : Bytes) : Option (Point K V ρ) :=
  if h = hh W f.fin.header then some f.fin else find f.staged h

/-- The right answers to a sequence of blocks and requests for states, from the tree `f`.  `exact` says whether the
states asked for are to be exact; there is no right answer for the state of an unknown hash. -/
inductive Answers (W : World K V ρ) (wa forking : Bool) (exact : Prop) : Tree K V ρ → List (Msg K V) → List (Reply K V) →
    Tree K V ρ → Prop
  | nil (f : Tree K V ρ) : Answers W wa forking exact f [] [] f
  | accept {f f' g : Tree K V ρ} {b : Block} {r : Bytes} {ms : List (Msg K V)} {rs : List (Reply K V)} :
      Step W wa forking f b (some r) f' → Answers W wa forking exact f' ms rs g →
      Answers W wa forking exact f (.importBlock b :: ms) (.root r :: rs) g
  | reject {f f' g : Tree K V ρ} {b : Block} {e : ImpErr} {ms : List (Msg K V)} {rs : List (Reply K V)} :
      Step W wa forking f b none f' → Answers W wa forking exact f' ms rs g →
      Answers W wa forking exact f (.importBlock b :: ms) (.error e :: rs) g
  | state {f g : Tree K V ρ} {h : Bytes} {l : List (K × V)} {ms : List (Msg K V)} {rs : List (Reply K V)} :
      (exact → ∀ p, pointOf W f h = some p → Lists l p.st) → Answers W wa forking exact f ms rs g →
      Answers W wa forking exact f (.getState h :: ms) (.state l :: rs) g

/-- What a block reports covers its writes: a key with a value after it either had one or is reported as added, and is
not reported as removed. -/
def Tracks (c : Changes K) (s s' : St K V) : Prop :=
  ∀ k, s' k ≠ none → (s k ≠ none ∨ k ∈ c.added) ∧ k ∉ c.removed

def Reports (W : World K V ρ) (wa : Bool) : Prop :=
  ∀ s ring anc b d r c, Body W wa s ring anc b d r c → Tracks c s (over d s)

/-- The requests of a session after its start: blocks with a parent, and states. -/
def Fair (W : World K V ρ) : Msg K V → Prop
  | .importBlock b => Wire.Spec.BlockOk W.P b ∧ b.header.parent ≠ zeroHash
  | .getState _ => True
  | _ => False

/-- The headers of the blocks in a sequence of messages. -/
def headersOf : List (Msg K V) → List Header
  | [] => []
  | .importBlock b :: ms => b.header :: headersOf ms
  | _ :: ms => headersOf ms

end Fastroll.Fork.Paper
