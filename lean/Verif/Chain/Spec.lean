import Verif.Wire.Spec
import Verif.Chain.Model

/-!
# What importing a block must do

The header rules of the Gray Paper (section 5 and the seal of section 6.4) for a block on top of a point of a
chain: the parent's header with the state, the ring cache and the ancestors after it.  The model's checks are
not used; of the model only the parameters (`World`) and the overlay of writes appear.
-/
namespace Fastroll.Chain.Paper
open Fastroll.Wire Fastroll.Chain

/-- A point of a chain: a header and what holds after its block. -/
structure Point (K V ρ : Type) where
  header : Header
  st : St K V
  ring : ρ
  anc : Anc

variable {K V ρ : Type} [DecidableEq K]

/-- The header hash. -/
def hh (W : World K V ρ) (h : Header) : Bytes := W.H (Wire.Spec.header h)

/-- The octets of an ASCII string. -/
def ascii (s : String) : Bytes := s.toList.map fun c => UInt8.ofNat c.toNat

/-- The seal: with a ticket, its output is the identifier of the ticket and it signs the unsealed header in the
context `$jam_ticket_seal ⌢ η3' ++ r`; otherwise the author's key is the one of the slot and the context is
`$jam_fallback_seal ⌢ η3'`. -/
def Sealed (W : World K V ρ) (h : Header) (key eta3 : Bytes) : Sealer → Prop
  | .ticket t => W.outHash h.sealSig = some t.id ∧
      W.verify (ascii "jam_ticket_seal" ++ eta3 ++ [UInt8.ofNat t.attempt]) (Wire.Spec.unsealed h) h.sealSig key = true
  | .key k => k = key ∧ W.verify (ascii "jam_fallback_seal" ++ eta3) (Wire.Spec.unsealed h) h.sealSig key = true

/-- The entropy signature: over nothing, in the context `$jam_entropy ⌢ Y(H_S)`. -/
def Entropy (W : World K V ρ) (h : Header) (key : Bytes) : Prop :=
  ∃ o, W.outHash h.sealSig = some o ∧ W.verify (ascii "jam_entropy" ++ o) [] h.vrf key = true

/-- The header is signed by the author it names, against the state after phase 1. -/
def Signed (W : World K V ρ) (h : Header) (s : St K V) : Prop :=
  ∃ key, W.authorKey s h.author = some key ∧ Sealed W h key (W.eta3 s) (W.sealer s h.slot) ∧ Entropy W h key

/-- The three markers are those computed by phase 1. -/
def Marked (h : Header) (m : Markers) : Prop :=
  h.epochMarker = m.epoch ∧ h.winners = m.winners ∧ h.offenders = m.offenders

/-- The transition of `b` from the state `s`: its writes, the new ring cache and the account keys it reports. -/
def Body (W : World K V ρ) (withAnc : Bool) (s : St K V) (ring : ρ) (anc : Anc) (b : Block)
    (d : Delta K V) (r : ρ) (c : Changes K) : Prop :=
  ∃ d1 r1 m d2 out d3, W.pre ⟨b.header.slot, b.header.stateRoot, b.xt.disputes, b.xt.tickets⟩ s s ring = (d1, r1, some m) ∧
    Signed W b.header (over d1 s) ∧ Marked b.header m ∧
    W.post ⟨b.xt, b.header.parent, b.header.author, b.header.vrf⟩ (if withAnc then some anc else none) s (over d1 s) r1 =
      (d2, r, some (out, c)) ∧
    W.fin (hh W b.header) out s (over d2 (over d1 s)) = (d3, some ()) ∧
    d = d3 ++ (d2 ++ d1)

/-- `b` is a valid successor of the point `p`, and `q` is the point it leads to.  `time` is the condition on
the slot with respect to the clock. -/
structure Extends (W : World K V ρ) (withAnc : Bool) (time : Nat → Prop) (p : Point K V ρ) (b : Block)
    (q : Point K V ρ) : Prop where
  parent : b.header.parent = hh W p.header
  later : p.header.slot < b.header.slot
  time : time b.header.slot
  root : b.header.stateRoot = W.root p.st
  xt : b.header.xtHash = Wire.Spec.xtHash W.P W.H b.xt
  body : ∃ d r c, Body W withAnc p.st p.ring p.anc b d r c ∧ q.st = over d p.st ∧ q.ring = r
  header : q.header = b.header
  anc : q.anc = (b.header.slot, hh W b.header) :: p.anc

/-- The block is not from the future: `H_T · P ≤ T`, with `T` counted from the common era. -/
def OnTime (now slot : Nat) : Prop := 1735732800 + slot * 6 ≤ now

/-- A chain of valid blocks from one point to another (times aside). -/
inductive Chain (W : World K V ρ) (withAnc : Bool) (p : Point K V ρ) : List Block → Point K V ρ → Prop
  | nil : Chain W withAnc p [] p
  | snoc {bs : List Block} {q q' : Point K V ρ} {b : Block} : Chain W withAnc p bs q →
      Extends W withAnc (fun _ => True) q b q' → Chain W withAnc p (bs ++ [b]) q'

/-- The same, where the ring cache may have been changed between blocks (by rejected blocks). -/
inductive Trace (W : World K V ρ) (withAnc : Bool) (p : Point K V ρ) : List Block → Point K V ρ → Prop
  | nil : Trace W withAnc p [] p
  | snoc {bs : List Block} {q q' : Point K V ρ} {b : Block} : Trace W withAnc p bs q →
      Extends W withAnc (fun _ => True) q b q' → Trace W withAnc p (bs ++ [b]) q'
  | drift {bs : List Block} {q : Point K V ρ} (r : ρ) : Trace W withAnc p bs q →
      Trace W withAnc p bs { q with ring := r }

/-- The ring cache is only a cache: what the phases write and answer does not depend on it. -/
def Oblivious (W : World K V ρ) : Prop :=
  (∀ i s v r r', (W.pre i s v r).1 = (W.pre i s v r').1 ∧ (W.pre i s v r).2.2 = (W.pre i s v r').2.2) ∧
  ∀ i a s v r r', (W.post i a s v r).1 = (W.post i a s v r').1 ∧ (W.post i a s v r).2.2 = (W.post i a s v r').2.2

/-- A node that is at the point `p`: the committed state, nothing uncommitted, the best header, and the recorded
state root of the best block. -/
structure At (W : World K V ρ) (n : Node K V ρ) (p : Point K V ρ) : Prop where
  db : n.db = p.st
  dirty : n.dirty = []
  ring : n.ring = p.ring
  best : n.best = p.header
  anc : n.anc = p.anc
  root : find n.roots (hh W p.header) = some (W.root p.st)
  headerOk : Wire.Spec.HeaderOk W.P p.header

/-- The blocks that were accepted. -/
def accepted : List (Option Nat × Block) → List (Except ImpErr Bytes) → List Block
  | (_, b) :: l, .ok _ :: rs => b :: accepted l rs
  | _ :: l, .error _ :: rs => accepted l rs
  | _, _ => []

/-- The strings hashed for a chain: the first header and everything hashed for its blocks. -/
def strings (W : World K V ρ) (g : Header) (bs : List Block) : List Bytes :=
  Wire.Spec.header g :: bs.flatMap fun (b : Block) => Wire.Spec.hashed W.P W.H b

/-- `sk` is a working secret key for `pk`: signatures verify, and the output depends on the context alone. -/
structure KeyPair (W : World K V ρ) (sk pk : Bytes) : Prop where
  verifies : ∀ i m, W.verify i m (W.sign sk i m) pk = true
  output : ∀ i, ∃ o, ∀ m, W.outHash (W.sign sk i m) = some o

end Fastroll.Chain.Paper
