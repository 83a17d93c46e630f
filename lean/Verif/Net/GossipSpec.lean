import Verif.Net.GossipModel
import Verif.Wire.Spec

/-!
# What the announcements and requests between nodes should be

The layouts of the network protocol (JAMNP: UP 0 and CE 128) as functions of the values, the numbers of the streams,
the order of keys by their first difference, and which validator a table of peers has to name for an address.
-/
namespace Fastroll.Net.Spec
open Fastroll.Codec (paperFixed)
open Fastroll.Wire Fastroll.Wire.Spec

/-- The stream numbers of the protocol version of the code: UP 0, CE 128, 129 and 131 to 145. -/
def streamNumbers : List Nat := [0, 128, 129, 131, 132, 133, 134, 135, 136, 137, 138, 139, 140, 141, 142, 143, 144, 145]

/-- Announcement: header, its hash, its slot. -/
def announced (H : Bytes → Bytes) (h : Header) : Bytes := header h ++ H (header h) ++ nat h.slot

/-- Request: hash, direction, number of blocks. -/
def asked (k : Bytes) (ascending : Bool) (n : Nat) : Bytes := k ++ bool ascending ++ nat n

/-- The octets arrive in one piece (and perhaps empty ones) of at most 1024 octets. -/
def InOnePiece (o : Bytes) (cs : List Bytes) : Prop := o.length ≤ 1024 ∧ cs.filter (fun c => !c.isEmpty) = [o]

/-- `a` is before `b` in the order of keys: smaller at the first difference. -/
def Before (a b : Bytes) : Prop := ∃ p x y s t, a = p ++ x :: s ∧ b = p ++ y :: t ∧ x < y

/-- The last octet of a key is from 128 on. -/
def High (a : Bytes) : Prop := ∃ p x, a = p ++ [x] ∧ 128 ≤ x.toNat

/-- The address in the metadata of a validator: 16 octets, then the port, low octet first. -/
def AddressOf (metadata : Bytes) (a : Bytes × Nat) : Prop :=
  ∃ ip lo hi rest, metadata = ip ++ lo :: hi :: rest ∧ ip.length = 16 ∧ a = (ip, lo.toNat + 256 * hi.toNat)

/-- The validator that counts for an address: the last one with it. -/
def LastWith (vs : List (Bytes × Bytes)) (k : Bytes) (a : Bytes × Nat) : Prop :=
  ∃ v1 m v2, vs = v1 ++ (k, m) :: v2 ∧ AddressOf m a ∧ ∀ v ∈ v2, ¬ AddressOf v.2 a

end Fastroll.Net.Spec
