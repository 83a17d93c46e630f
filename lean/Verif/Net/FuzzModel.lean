import Verif.Fork.Model

/-!
# Model of the fuzzing protocol

Transcribes
* `/repo/fuzz/src/types.rs` (the messages, their codec and the frame around them),
* `/repo/fuzz/src/utils.rs` lines 12-37 (`read_message`, `send_message`),
* `/repo/fuzz/src/fuzz_target.rs` lines 420-560 (sessions, the handshake, the loop over the messages).

Simplifications.
* A connection is the list of the pieces in which the octets arrive; at its end the peer has closed its side.
  Writing does not fail and waits for nobody.
* Codes of errors are kept apart only where the caller tells them apart: the end of the stream, a panic, anything
  else.
* The handler of the messages is the model of C63, on state entries with octet strings for keys and values; the
  entries of a state, in no order there, are sorted here.  The text
  of an import error is a parameter, as is the check that a name is UTF-8.
* `session_initialized` and `state_initialized` are set after the answer to `Initialize` is sent; the model sets them
  before, which matters only when that answer, 37 octets, cannot be encoded.
* A buffer of up to 4 GiB is taken to be available for a message.
-/
namespace Fastroll.Net
open Fastroll.Codec Fastroll.Wire Fastroll.Chain

/-- `Version`: `types.rs` 20-25. -/
structure Version where
  major : Nat
  minor : Nat
  patch : Nat
deriving DecidableEq, Repr

/-- Lines 27-38. -/
def Version.enc : Enc Version := fun v => fixedEncode 1 v.major +++ fixedEncode 1 v.minor +++ fixedEncode 1 v.patch

/-- Lines 40-51. -/
def Version.dec : Dec Version :=
  (fixedDecode 8 1).bind fun a => (fixedDecode 8 1).bind fun b => (fixedDecode 8 1).bind fun c => .pure ⟨a, b, c⟩

/-- `PeerInfo`: 87-94. -/
structure PeerInfo where
  fuzzVersion : Nat
  features : Nat
  jam : Version
  app : Version
  name : Bytes
deriving DecidableEq, Repr

/-- Lines 105-112; the name is a `Vec<u8>`. -/
def PeerInfo.enc : Enc PeerInfo := fun p =>
  fixedEncode 1 p.fuzzVersion +++ fixedEncode 4 p.features +++ p.jam.enc +++ p.app.enc +++ vecU8Enc p.name

/-- Lines 115-128. -/
def PeerInfo.dec : Dec PeerInfo :=
  (fixedDecode 8 1).bind fun v => (fixedDecode 32 4).bind fun f => Version.dec.bind fun j =>
  Version.dec.bind fun a => vecU8Dec.bind fun n => .pure ⟨v, f, j, a, n⟩

/-- `KeyValue`, derived codec: 162-166.  The value is a `ByteSequence`. -/
def entryEnc : Enc (Bytes × Bytes) := fun e => arrEnc e.1 +++ octetsEnc e.2
def entryDec : Dec (Bytes × Bytes) := (arrDec 31).bind fun k => octetsDec.bind fun v => .pure (k, v)

/-- `State`, a `Vec` of entries of 56 octets in memory: 168-169. -/
def stateEnc : Enc (List (Bytes × Bytes)) := vecEnc entryEnc
def stateDec : Dec (List (Bytes × Bytes)) := vecDec 56 entryDec

/-- `AncestryItem`: 186-217. -/
def itemEnc : Enc (Nat × Bytes) := fun i => fixedEncode 4 i.1 +++ arrEnc i.2
def itemDec : Dec (Nat × Bytes) := (fixedDecode 32 4).bind fun s => (arrDec 32).bind fun h => .pure (s, h)

/-- `FuzzMessageKind`: 238-248. -/
inductive Msg where
  | peerInfo (p : PeerInfo)
  | init (h : Header) (st : List (Bytes × Bytes)) (anc : List (Nat × Bytes))
  | stateRoot (r : Bytes)
  | importBlock (b : Block)
  | getState (h : Bytes)
  | state (st : List (Bytes × Bytes))
  | error (e : Bytes)
deriving DecidableEq

/-- Lines 264-280. -/
def Msg.enc (P : Params) : Enc Msg
  | .peerInfo p => .ok [0] +++ p.enc
  | .init h st anc => .ok [1] +++ Header.enc h +++ stateEnc st +++ vecEnc itemEnc anc
  | .stateRoot r => .ok [2] +++ arrEnc r
  | .importBlock b => .ok [3] +++ Block.enc P b
  | .getState h => .ok [4] +++ arrEnc h
  | .state st => .ok [5] +++ stateEnc st
  | .error e => .ok [255] +++ vecU8Enc e

/-- Lines 283-300; `L` is `MAX_LOOKUP_ANCHOR_AGE`. -/
def Msg.dec (P : Params) (L : Nat) : Dec Msg :=
  readByte.bind fun i =>
    if i = 0 then PeerInfo.dec.bind fun p => .pure (.peerInfo p)
    else if i = 1 then
      (Header.dec P).bind fun h => stateDec.bind fun st => (limitedDec L itemDec).bind fun anc => .pure (.init h st anc)
    else if i = 2 then (arrDec 32).bind fun r => .pure (.stateRoot r)
    else if i = 3 then (Block.dec P).bind fun b => .pure (.importBlock b)
    else if i = 4 then (arrDec 32).bind fun h => .pure (.getState h)
    else if i = 5 then stateDec.bind fun st => .pure (.state st)
    else if i = 255 then vecU8Dec.bind fun e => .pure (.error e)
    else .fail .input

/-- `FuzzProtocolMessage::from_kind` and its encoding: 303-326, with `send_message`, `utils.rs` 28-36. -/
def frame (P : Params) (m : Msg) : Except Err Bytes :=
  match m.enc P with
  | .error e => .error e
  | .ok b => if b.length < 2 ^ 32 then fixedEncode 4 b.length +++ .ok b else .error .encoding

/-- `read_exact` on what arrives. -/
def readExact : Nat → List Bytes → Option (Bytes × List Bytes)
  | 0, cs => some ([], cs)
  | _ + 1, [] => none
  | n + 1, c :: cs =>
    if n + 1 ≤ c.length then some (c.take (n + 1), c.drop (n + 1) :: cs)
    else
      match readExact (n + 1 - c.length) cs with
      | none => none
      | some (b, cs) => some (c ++ b, cs)

/-- Why a message is not read. -/
inductive Stop where
  | eof
  | panic
  | bad
deriving DecidableEq, Repr

/-- An error of the codec. -/
def Stop.ofErr : Err → Stop
  | .panic => .panic
  | _ => .bad

/-- `read_message`: `utils.rs` 14-26. -/
def readMessage (P : Params) (L : Nat) (cs : List Bytes) : Except Stop (Msg × List Bytes) :=
  match readExact 4 cs with
  | none => .error .eof
  | some (lb, cs) =>
    match fixedDecode 32 4 lb with
    | .error e => .error (.ofErr e)
    | .ok (n, _) =>
      match readExact n cs with
      | none => .error .eof
      | some (b, cs) =>
        match Msg.dec P L b with
        | .error e => .error (.ofErr e)
        | .ok (m, _) => .ok (m, cs)

/-- The arms of `process_message`. -/
def Msg.toTarget : Msg → Fork.Msg Bytes Bytes
  | .init h st anc => .initialize h st anc
  | .importBlock b => .importBlock b
  | .getState h => .getState h
  | _ => .other

/-- Insertion by key. -/
def insertEntry (e : Bytes × Bytes) : List (Bytes × Bytes) → List (Bytes × Bytes)
  | [] => [e]
  | x :: xs => if bytesLt e.1 x.1 then e :: x :: xs else x :: insertEntry e xs

/-- The order of a state: the keys are read from a `BTreeSet`, `fuzz_target.rs` 82-89 and 274. -/
def sortEntries (es : List (Bytes × Bytes)) : List (Bytes × Bytes) := es.foldr insertEntry []

/-- The answers `process_message` sends; `txt` is `to_string` of an import error: `fuzz_target.rs` 619-622, 687-690,
703-706, 719. -/
def replyMsg (txt : ImpErr → Bytes) : Fork.Reply Bytes Bytes → Option Msg
  | .root r => some (.stateRoot r)
  | .state s => some (.state (sortEntries s))
  | .error e => some (.error (txt e))
  | .closed => none

/-- How a session ends. -/
inductive End where
  | disconnected
  | failed
  | panicked
deriving DecidableEq, Repr

/-- `is_session_disconnect_error` and the panic: 488-518. -/
def End.ofStop : Stop → End
  | .eof => .disconnected
  | .panic => .panicked
  | .bad => .failed

/-- What a session leaves and what was sent in it. -/
structure Outcome (ρ : Type) where
  target : Fork.Target Bytes Bytes ρ
  sent : Bytes
  stop : End

/-- The constants of a target: the longest ancestry, the text of an import error, whether a name is
UTF-8, its own handshake, the empty ring cache. -/
structure Setup (ρ : Type) where
  maxAnc : Nat
  txt : ImpErr → Bytes
  utf8 : Bytes → Bool
  me : PeerInfo
  ring : ρ

variable {ρ : Type}

/-- The loop of `handle_fuzzer_session`: 494-517.  Every round reads at least four octets, so a bound on the rounds is
no limitation. -/
def rounds (S : Setup ρ) (W : World Bytes Bytes ρ) : Nat → Fork.Target Bytes Bytes ρ → Bool → List Bytes → Outcome ρ
  | 0, t, _, _ => ⟨t, [], .disconnected⟩
  | n + 1, t, sess, cs =>
    match readMessage W.P S.maxAnc cs with
    | .error e => ⟨t, [], .ofStop e⟩
    | .ok (m, cs) =>
      let r := Fork.handle W S.ring t sess m.toTarget
      match replyMsg S.txt r.2.2 with
      | none => ⟨r.1, [], .failed⟩
      | some a =>
        match frame W.P a with
        | .error _ => ⟨r.1, [], .failed⟩
        | .ok b => let o := rounds S W n r.1 r.2.1 cs; ⟨o.target, b ++ o.sent, o.stop⟩

/-- `handle_fuzzer_session` with `handle_handshake`: 479-518 and 535-562.  `FuzzFeatures::from`: `types.rs` 154-161. -/
def talk (S : Setup ρ) (W : World Bytes Bytes ρ) (t : Fork.Target Bytes Bytes ρ) (cs : List Bytes) : Outcome ρ :=
  match readMessage W.P S.maxAnc cs with
  | .error e => ⟨t, [], .ofStop e⟩
  | .ok (.peerInfo p, rest) =>
    let t := { t with withAnc := p.features &&& 1 != 0, forking := p.features &&& 2 != 0 }
    if !S.utf8 p.name then ⟨t, [], .failed⟩
    else
      match frame W.P (.peerInfo S.me) with
      | .error _ => ⟨t, [], .failed⟩
      | .ok b => let o := rounds S W cs.flatten.length t false rest; ⟨o.target, b ++ o.sent, o.stop⟩
  | .ok _ => ⟨t, [], .failed⟩

/-- One turn of the loop of `run_as_fuzz_target`: 434-477. -/
def serveOne (S : Setup ρ) (W : World Bytes Bytes ρ) (first : Bool) (t : Fork.Target Bytes Bytes ρ) (cs : List Bytes) : Outcome ρ :=
  let o := talk S W (if first then t else Fork.reset S.ring t) cs
  match o.stop with
  | .panicked => ⟨Fork.reset S.ring o.target, o.sent, .panicked⟩
  | _ => o

/-- `run_as_fuzz_target` on a list of connections: what is sent on each of them. -/
def serve (S : Setup ρ) (W : World Bytes Bytes ρ) : Bool → Fork.Target Bytes Bytes ρ → List (List Bytes) → List Bytes
  | _, _, [] => []
  | first, t, c :: cs => let o := serveOne S W first t c; o.sent :: serve S W false o.target cs

end Fastroll.Net
