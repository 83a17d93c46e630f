import Verif.Net.FuzzModel
import Verif.Wire.Spec

/-!
# The fuzzing protocol

The layout of the messages after the description of the JAM conformance protocol: a message is framed by its length in
four octets; texts are octet strings with their length.
-/
namespace Fastroll.Net.Spec
open Fastroll.Codec Fastroll.Wire Fastroll.Net
open Fastroll.Wire.Spec (nat blob var header block HeaderOk BlockOk Fits)

/-- Three octets. -/
def version (v : Version) : Bytes := [UInt8.ofNat v.major, UInt8.ofNat v.minor, UInt8.ofNat v.patch]

/-- A state entry. -/
def entry (e : Bytes × Bytes) : Bytes := e.1 ++ blob e.2

/-- An ancestor. -/
def ancestor (i : Nat × Bytes) : Bytes := paperFixed 4 i.1 ++ i.2

/-- The layout of a message, with the texts written by `text`. -/
def layout (text : Bytes → Bytes) (P : Params) : Msg → Bytes
  | .peerInfo p => 0 :: UInt8.ofNat p.fuzzVersion :: (paperFixed 4 p.features ++ version p.jam ++ version p.app ++ text p.name)
  | .init h st anc => 1 :: (header h ++ var entry st ++ var ancestor anc)
  | .stateRoot r => 2 :: r
  | .importBlock b => 3 :: block P b
  | .getState h => 4 :: h
  | .state st => 5 :: var entry st
  | .error e => 255 :: text e

/-- The protocol. -/
def msg (P : Params) : Msg → Bytes := layout blob P

/-- A text whose octets are written as natural numbers. -/
def wide (b : Bytes) : Bytes := nat b.length ++ b.flatMap fun x => nat x.toNat

/-- The text of a message. -/
def textOf : Msg → Bytes
  | .peerInfo p => p.name
  | .error e => e
  | _ => []

structure VersionOk (v : Version) : Prop where
  major : v.major < 2 ^ 8
  minor : v.minor < 2 ^ 8
  patch : v.patch < 2 ^ 8

def EntryOk (e : Bytes × Bytes) : Prop := e.1.length = 31 ∧ e.2.length < 2 ^ 63
def StateOk (st : List (Bytes × Bytes)) : Prop := Fits st.length 56 ∧ ∀ e ∈ st, EntryOk e

/-- The values of the Rust types. -/
def MsgOk (P : Params) (L : Nat) : Msg → Prop
  | .peerInfo p => p.fuzzVersion < 2 ^ 8 ∧ p.features < 2 ^ 32 ∧ VersionOk p.jam ∧ VersionOk p.app ∧ p.name.length < 2 ^ 63
  | .init h st anc =>
    HeaderOk P h ∧ StateOk st ∧ anc.length ≤ L ∧ anc.length < 2 ^ 64 ∧ ∀ i ∈ anc, i.1 < 2 ^ 32 ∧ i.2.length = 32
  | .stateRoot r => r.length = 32
  | .importBlock b => BlockOk P b
  | .getState h => h.length = 32
  | .state st => StateOk st
  | .error e => e.length < 2 ^ 63

/-- All octets of the text are below 128. -/
def Plain (m : Msg) : Prop := ∀ x ∈ textOf m, x.toNat < 128

instance (m : Msg) : Decidable (Plain m) := inferInstanceAs (Decidable (∀ x ∈ textOf m, x.toNat < 128))

/-- A layout in its frame. -/
def framed (b : Bytes) : Bytes := paperFixed 4 b.length ++ b

/-- A message that can be sent: it is shorter than `2^32`. -/
structure Sendable (P : Params) (L : Nat) (m : Msg) : Prop where
  ok : MsgOk P L m
  plain : Plain m
  short : (msg P m).length < 2 ^ 32

/-- What is on the wire. -/
def wire (P : Params) (m : Msg) : Bytes := framed (msg P m)

/-- What a message asks of the target. -/
inductive Asks : Msg → Fork.Msg Bytes Bytes → Prop
  | init (h : Header) (st : List (Bytes × Bytes)) (anc : List (Nat × Bytes)) : Asks (.init h st anc) (.initialize h st anc)
  | importBlock (b : Block) : Asks (.importBlock b) (.importBlock b)
  | getState (h : Bytes) : Asks (.getState h) (.getState h)
  | peerInfo (p : PeerInfo) : Asks (.peerInfo p) .other
  | stateRoot (r : Bytes) : Asks (.stateRoot r) .other
  | state (st : List (Bytes × Bytes)) : Asks (.state st) .other
  | error (e : Bytes) : Asks (.error e) .other

/-- How a reply of the target is told: the entries of a state in the order of their keys. -/
inductive Tells (txt : Chain.ImpErr → Bytes) : Fork.Reply Bytes Bytes → Msg → Prop
  | root (r : Bytes) : Tells txt (.root r) (.stateRoot r)
  | error (e : Chain.ImpErr) : Tells txt (.error e) (.error (txt e))
  | state (st st' : List (Bytes × Bytes)) : st'.Perm st → (st'.Pairwise fun a b => bytesLt b.1 a.1 = false) →
      Tells txt (.state st) (.state st')

inductive AskAll : List Msg → List (Fork.Msg Bytes Bytes) → Prop
  | nil : AskAll [] []
  | cons {m : Msg} {q : Fork.Msg Bytes Bytes} {ms : List Msg} {qs : List (Fork.Msg Bytes Bytes)} :
      Asks m q → AskAll ms qs → AskAll (m :: ms) (q :: qs)

/-- What is sent for the replies of a session and how the session ends: it fails when the target closes it, and
otherwise lasts until the fuzzer leaves. -/
inductive TellAll (txt : Chain.ImpErr → Bytes) : List (Fork.Reply Bytes Bytes) → List Msg → End → Prop
  | left : TellAll txt [] [] .disconnected
  | closed : TellAll txt [.closed] [] .failed
  | cons {r : Fork.Reply Bytes Bytes} {m : Msg} {rs : List (Fork.Reply Bytes Bytes)} {ms : List Msg} {e : End} :
      Tells txt r m → TellAll txt rs ms e → TellAll txt (r :: rs) (m :: ms) e

/-- The messages that can be read one after the other from what arrives, and what is left. -/
inductive Reads (P : Params) (L : Nat) : List Bytes → List Msg → List Bytes → Prop
  | nil (cs : List Bytes) : Reads P L cs [] cs
  | cons {cs cs' cs'' : List Bytes} {m : Msg} {ms : List Msg} :
      readMessage P L cs = .ok (m, cs') → Reads P L cs' ms cs'' → Reads P L cs (m :: ms) cs''

end Fastroll.Net.Spec
