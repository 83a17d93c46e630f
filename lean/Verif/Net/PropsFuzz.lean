import Verif.Net.FuzzLemmas2
import Verif.Fork.Props

/-!
# C66: the fuzzing protocol

What the target sends is determined by the octets it receives on the same connection, and is the framed answers of the
target of C63 to the framed messages.
-/
namespace Fastroll.Net
open Fastroll.Codec Fastroll.Wire Fastroll.Chain
open Fastroll.Wire.Spec (Codes BlockOk HeaderOk)
open Spec

variable {ρ : Type}

/-! ## Examples -/

/-- A world of octets: the root of a state tells the value under the first key. -/
def exKey (b : UInt8) : Bytes := List.replicate 31 b
def exW : World Bytes Bytes Unit where
  P := exP
  H := exH
  root := fun s => ex32 ((s (exKey 1)).getD []).sum
  outHash := fun _ => none
  verify := fun _ _ _ _ => false
  sign := fun _ _ _ => []
  pre := fun _ _ _ r => ([], r, none)
  sealer := fun _ _ => .key []
  authorKey := fun _ _ => none
  eta3 := fun _ => []
  post := fun _ _ _ _ r => ([], r, none)
  fin := fun _ _ _ _ => ([], none)
  genesis := fun _ _ _ r => ([], r, none)

def exMe : PeerInfo := ⟨1, 2, ⟨0, 7, 2⟩, ⟨0, 1, 0⟩, [102, 114]⟩
def exFuzzer : PeerInfo := ⟨1, 3, ⟨0, 7, 2⟩, ⟨1, 0, 0⟩, [102, 122]⟩
def exS : Setup Unit := ⟨24, fun _ => [98, 97, 100], fun _ => true, exMe, ()⟩
def exGenesis : Header := Fork.defaultHeader
def exInit : Msg := .init exGenesis [(exKey 2, [9]), (exKey 1, [5, 6])] [(3, ex32 4)]
/-- A start, a question, a block that is refused and a message that ends the session. -/
def exMs : List Msg := [exInit, .getState (ex32 0), .importBlock exBlock, .stateRoot (ex32 0), .getState (ex32 0)]

theorem exVersion_ok (a b c : Fin 256) : VersionOk ⟨a, b, c⟩ := ⟨a.2, b.2, c.2⟩

theorem exGenesis_ok : HeaderOk exP exGenesis := by
  constructor <;> simp [exGenesis, Fork.defaultHeader, zeroHash, Wire.Spec.Fits]

theorem exInit_ok : MsgOk exP 24 exInit := by
  refine ⟨exGenesis_ok, ⟨by show 2 * 56 < _; decide, fun e he => ?_⟩, by decide, by decide, fun i hi => ?_⟩
  · simp only [List.mem_cons, List.not_mem_nil, or_false] at he
    rcases he with rfl | rfl <;> exact ⟨by simp [exKey], by decide⟩
  · simp only [List.mem_cons, List.not_mem_nil, or_false] at hi
    subst hi
    exact ⟨by decide, by simp [ex32]⟩

theorem exMe_send : Sendable exP 24 (.peerInfo exMe) :=
  ⟨⟨by decide, by decide, exVersion_ok 0 7 2, exVersion_ok 0 1 0, by decide⟩, by decide, by decide +kernel⟩

theorem exFuzzer_send : Sendable exP 24 (.peerInfo exFuzzer) :=
  ⟨⟨by decide, by decide, exVersion_ok 0 7 2, exVersion_ok 1 0 0, by decide⟩, by decide, by decide +kernel⟩

theorem exMs_send : ∀ m ∈ exMs, Sendable exP 24 m := by
  intro m hm
  simp only [exMs, List.mem_cons, List.not_mem_nil, or_false] at hm
  rcases hm with rfl | rfl | rfl | rfl | rfl
  · exact ⟨exInit_ok, by decide, by decide +kernel⟩
  · exact ⟨by simp [MsgOk, ex32], by decide, by decide +kernel⟩
  · exact ⟨exBlock_ok, by decide, by decide +kernel⟩
  · exact ⟨by simp [MsgOk, ex32], by decide, by decide +kernel⟩
  · exact ⟨by simp [MsgOk, ex32], by decide, by decide +kernel⟩

/-! ## Messages -/

/-- **C66**: every message the target or the fuzzer can build is read back from its encoding, whatever follows. -/
theorem C66_roundtrip (P : Params) (L : Nat) (m : Msg) (h : MsgOk P L m) :
    ∃ b, Msg.enc P m = .ok b ∧ ∀ rest, Msg.dec P L (b ++ rest) = .ok (m, rest) :=
  ⟨_, msg_codes P L m h⟩

example : ∃ b, Msg.enc exP exInit = .ok b ∧ ∀ rest, Msg.dec exP 24 (b ++ rest) = .ok (exInit, rest) :=
  C66_roundtrip exP 24 exInit exInit_ok

/-- **C66** (partial: texts with octets from 128 on are written differently): a message has the layout of the protocol
exactly if its text, the name of a peer or the text of an error, has only octets below 128. -/
theorem C66_layout_partial (P : Params) (L : Nat) (m : Msg) (h : MsgOk P L m) :
    Msg.enc P m = .ok (msg P m) ↔ ∀ x ∈ textOf m, x.toNat < 128 := by
  rw [(msg_codes P L m h).1]
  refine Iff.trans ?_ (layout_iff h)
  exact ⟨fun e => Except.ok.inj e, fun e => by rw [e]⟩

example : Msg.enc exP exInit = .ok (msg exP exInit) := (C66_layout_partial exP 24 exInit exInit_ok).2 (by decide)
/-- The name "é". -/
example : Msg.enc exP (.error [195, 169]) = .ok [255, 2, 128, 195, 128, 169] ∧ msg exP (.error [195, 169]) = [255, 2, 195, 169] := by
  decide +kernel

/-! ## Frames -/

/-- **C66**: messages sent one after the other are read back in order, in whatever pieces they arrive and whatever
follows them. -/
theorem C66_stream (P : Params) (L : Nat) (ms : List Msg) (h : ∀ m ∈ ms, Sendable P L m) (cs : List Bytes) (rest : Bytes)
    (e : cs.flatten = ms.flatMap (wire P) ++ rest) :
    (∀ m ∈ ms, frame P m = .ok (wire P m)) ∧ ∃ cs', Reads P L cs ms cs' ∧ cs'.flatten = rest := by
  refine ⟨fun m hm => frame_ok (h m hm), ?_⟩
  induction ms generalizing cs with
  | nil => exact ⟨cs, .nil cs, by simpa using e⟩
  | cons m ms ih =>
    rw [List.flatMap_cons, List.append_assoc] at e
    obtain ⟨cs1, h1, h2⟩ := read_wire (h m (by simp)) e
    obtain ⟨cs2, h3, h4⟩ := ih (fun m hm => h m (by simp [hm])) cs1 h2
    exact ⟨cs2, .cons h1 h3, h4⟩

/-- The messages in pieces of seven octets. -/
def sevens : Nat → Bytes → List Bytes
  | 0, b => [b]
  | n + 1, b => b.take 7 :: sevens n (b.drop 7)

theorem sevens_flatten : ∀ n b, (sevens n b).flatten = b
  | 0, b => by simp [sevens]
  | n + 1, b => by simp [sevens, sevens_flatten n]

example : ∃ cs', Reads exP 24 (sevens 50 (exMs.flatMap (wire exP) ++ [1, 0])) exMs cs' ∧ cs'.flatten = [1, 0] :=
  (C66_stream exP 24 exMs exMs_send _ [1, 0] (sevens_flatten ..)).2

/-- **C66**: of a message cut short nothing is read: the reader waits and then finds the stream closed. -/
theorem C66_truncated (P : Params) (L : Nat) (m : Msg) (h : Sendable P L m) (p s : Bytes) (hs : s ≠ []) (e : p ++ s = wire P m)
    (cs : List Bytes) (hc : cs.flatten = p) : readMessage P L cs = .error .eof := by
  have hl : s.length ≠ 0 := fun h0 => hs (List.eq_nil_of_length_eq_zero h0)
  have l4 := paperFixed_length 4 (msg P m).length
  have hlen : p.length + s.length = 4 + (msg P m).length := by
    rw [← List.length_append, e, wire, framed, List.length_append, l4]
  have hf : readFlat P L p = .error .eof := by
    unfold readFlat
    by_cases h4 : p.length < 4
    · exact if_pos h4
    · rw [if_neg h4]
      have et : p.take 4 = paperFixed 4 (msg P m).length := by
        have : (p ++ s).take 4 = (wire P m).take 4 := by rw [e]
        rw [List.take_append_of_le_length (by omega), wire, framed, List.take_append_of_le_length (by omega)] at this
        rw [this, List.take_of_length_le (by omega)]
      have d := length_four h []
      rw [List.append_nil] at d
      rw [et, d]
      dsimp only
      rw [if_pos (by rw [List.length_drop]; omega)]
  have a := read_flat P L cs
  rw [hc, hf] at a
  generalize readMessage P L cs = r at a
  match r, a with
  | .error x, a => rw [show x = Stop.eof from a]

example : readMessage exP 24 (sevens 5 ((wire exP exInit).take 100)) = .error .eof :=
  C66_truncated exP 24 exInit (exMs_send _ (by simp [exMs])) _ ((wire exP exInit).drop 100) (by decide +kernel)
    (List.take_append_drop ..) _ (sevens_flatten ..)

/-- **C66** fails for what is accepted: octets after a message in its frame are ignored, so a message has as many
accepted frames as there is junk. -/
theorem C66_junk_accepted (P : Params) (L : Nat) (m : Msg) (h : Sendable P L m) (junk : Bytes)
    (hj : (msg P m ++ junk).length < 2 ^ 32) (cs : List Bytes) (rest : Bytes) (e : cs.flatten = framed (msg P m ++ junk) ++ rest) :
    ∃ cs', readMessage P L cs = .ok (m, cs') ∧ cs'.flatten = rest := by
  have l4 := paperFixed_length 4 (msg P m ++ junk).length
  have e1 : (framed (msg P m ++ junk) ++ rest).take 4 = paperFixed 4 (msg P m ++ junk).length := by
    rw [framed, List.append_assoc, List.take_append_of_le_length (by omega), List.take_of_length_le (by omega)]
  have e2 : (framed (msg P m ++ junk) ++ rest).drop 4 = (msg P m ++ junk) ++ rest := by
    rw [framed, List.append_assoc, List.drop_append_of_le_length (by omega), List.drop_of_length_le (by omega), List.nil_append]
  have e3 : ¬ (framed (msg P m ++ junk) ++ rest).length < 4 := by
    rw [framed, List.append_assoc, List.length_append, l4]; omega
  have d := (fixed_codes 32 4 (by decide) (by decide) _ hj).2 []
  rw [List.append_nil] at d
  have f := (plain_codes P L m ⟨h.ok, h.plain⟩).2 junk
  have hf : readFlat P L cs.flatten = .ok (m, rest) := by
    unfold readFlat
    rw [e, if_neg e3, e1, d]
    dsimp only
    rw [e2, if_neg (by simp), List.take_append_of_le_length (Nat.le_refl _), List.take_of_length_le (Nat.le_refl _), f]
    dsimp only
    rw [List.drop_append_of_le_length (Nat.le_refl _), List.drop_of_length_le (Nat.le_refl _), List.nil_append]
  have a := read_flat P L cs
  rw [hf] at a
  generalize readMessage P L cs = r at a
  match r, a with
  | .ok (m', cs'), a => exact ⟨cs', by rw [show m' = m from a.1], a.2⟩

example : ∃ cs', readMessage exP 24 [framed (msg exP (.stateRoot (ex32 7)) ++ [1, 2, 3])] = .ok (.stateRoot (ex32 7), cs') ∧ cs'.flatten = [] :=
  C66_junk_accepted exP 24 (.stateRoot (ex32 7)) ⟨by simp [MsgOk, ex32], by decide, by decide +kernel⟩ [1, 2, 3] (by decide +kernel) _ []
    (by simp)

/-! ## Sessions -/

/-- **C66**: the pieces in which the octets arrive make no difference to a session, whatever the octets are. -/
theorem C66_pieces (S : Setup ρ) (W : World Bytes Bytes ρ) (t : Fork.Target Bytes Bytes ρ) (cs cs' : List Bytes)
    (h : cs.flatten = cs'.flatten) : talk S W t cs = talk S W t cs' := by
  rcases read_same W.P S.maxAnc h with ⟨e, e1, e2⟩ | ⟨m, r, r', e1, e2, e3⟩
  · simp only [talk, e1, e2]
  · simp only [talk, e1, e2, h]
    cases m with
    | peerInfo p => simp only [rounds_same S W _ _ _ r r' e3]
    | _ => rfl

example : talk exS exW (Fork.newTarget ()) [[1, 2], [], [3]] = talk exS exW (Fork.newTarget ()) [[1], [2, 3]] :=
  C66_pieces _ _ _ _ _ rfl

/-- **C66** (partial: the text of an import error has octets below 128 and the answers are shorter than `2^32` octets,
both part of `Sendable`): after a handshake with a readable name the target sends its own handshake and then, framed,
the answers of the target of C63 to the messages, up to the one that ends the session. -/
theorem C66_session_partial (S : Setup ρ) (W : World Bytes Bytes ρ) (t : Fork.Target Bytes Bytes ρ) (p : PeerInfo) (ms : List Msg)
    (qs : List (Fork.Msg Bytes Bytes)) (cs : List Bytes) (hp : Sendable W.P S.maxAnc (.peerInfo p)) (hu : S.utf8 p.name = true)
    (hme : Sendable W.P S.maxAnc (.peerInfo S.me)) (ha : AskAll ms qs) (hs : ∀ m ∈ ms, Sendable W.P S.maxAnc m)
    (hc : cs.flatten = wire W.P (.peerInfo p) ++ ms.flatMap (wire W.P))
    (hr : ∀ r ∈ (Fork.session W S.ring (Fork.begin S.ring true (p.features.testBit 0) (p.features.testBit 1) t) false qs).2,
      ∀ m, Tells S.txt r m → Sendable W.P S.maxAnc m) :
    ∃ as e, TellAll S.txt (Fork.session W S.ring (Fork.begin S.ring true (p.features.testBit 0) (p.features.testBit 1) t) false qs).2 as e ∧
      talk S W t cs = ⟨(Fork.session W S.ring (Fork.begin S.ring true (p.features.testBit 0) (p.features.testBit 1) t) false qs).1,
        wire W.P (.peerInfo S.me) ++ as.flatMap (wire W.P), e⟩ := by
  obtain ⟨cs', h1, h2⟩ := read_wire hp hc
  have b0 : (p.features &&& 1 != 0) = p.features.testBit 0 := by
    rw [Nat.testBit, Nat.shiftRight_zero, Nat.and_comm]
  have b1 : (p.features &&& 2 != 0) = p.features.testBit 1 := by
    have : p.features &&& 2 = (p.features.testBit 1).toNat * 2 := by
      apply Nat.eq_of_testBit_eq
      intro i
      rw [Nat.testBit_and, show (2 : Nat) = 2 ^ 1 from rfl, Nat.testBit_two_pow, Nat.testBit_mul_two_pow]
      match i with
      | 0 => simp
      | 1 => cases p.features.testBit 1 <;> simp
      | i + 2 => cases p.features.testBit 1 <;> simp [Nat.testBit_one_eq_true_iff_self_eq_zero, Bool.eq_false_iff]
    rw [this]
    cases p.features.testBit 1 <;> rfl
  have ht : ({ t with withAnc := p.features &&& 1 != 0, forking := p.features &&& 2 != 0 } : Fork.Target Bytes Bytes ρ) =
      Fork.begin S.ring true (p.features.testBit 0) (p.features.testBit 1) t := by rw [b0, b1]; rfl
  have hl := read_shrinks h1
  obtain ⟨as, e, i1, i2⟩ := rounds_session S W ms qs cs.flatten.length _ false cs' ha hs h2 (by omega) hr
  refine ⟨as, e, i1, ?_⟩
  simp only [talk, h1, frame_ok hme, hu]
  rw [ht, i2]
  rfl

/-- What the example messages ask, and the answers. -/
def exQs : List (Fork.Msg Bytes Bytes) :=
  [.initialize exGenesis [(exKey 2, [9]), (exKey 1, [5, 6])] [(3, ex32 4)], .getState (ex32 0), .importBlock exBlock, .other, .getState (ex32 0)]

theorem exAsk : AskAll exMs exQs :=
  .cons (.init ..) (.cons (.getState _) (.cons (.importBlock _) (.cons (.stateRoot _) (.cons (.getState _) .nil))))

def exReplies : List (Fork.Reply Bytes Bytes) :=
  (Fork.session exW () (Fork.begin () true true true (Fork.newTarget ())) false exQs).2

theorem exReplies_eq : exReplies = [.root (ex32 11), .state [(exKey 1, [5, 6]), (exKey 2, [9])], .error .parent, .closed] := by
  decide +kernel

theorem exReplies_send : ∀ r ∈ exReplies, ∀ m, Tells exS.txt r m → Sendable exW.P exS.maxAnc m := by
  intro r hr m hm
  rw [exReplies_eq] at hr
  simp only [List.mem_cons, List.not_mem_nil, or_false] at hr
  rcases hr with rfl | rfl | rfl | rfl
  · cases hm
    exact ⟨by simp [MsgOk, ex32], by decide, by decide +kernel⟩
  · cases hm with
    | state _ st' hp _ =>
      have hl := hp.length_eq
      have he : ∀ e ∈ st', EntryOk e := by
        intro e he
        have := hp.mem_iff.1 he
        simp only [List.mem_cons, List.not_mem_nil, or_false] at this
        rcases this with rfl | rfl <;> exact ⟨by simp [exKey], by decide⟩
      refine ⟨⟨by unfold Wire.Spec.Fits; rw [hl]; decide, he⟩, by intro x hx; simp [textOf] at hx, ?_⟩
      have hs : (Wire.Spec.seq entry st').length = (Wire.Spec.seq entry [(exKey 1, [5, 6]), (exKey 2, [9])]).length := by
        have := (hp.flatMap_right entry).length_eq
        exact this
      simp only [msg, layout, Wire.Spec.var, List.length_cons, List.length_append, hl, hs]
      decide +kernel
  · cases hm
    exact ⟨by show 3 < 2 ^ 63; decide, by decide, by decide +kernel⟩
  · cases hm

example : ∃ as e, TellAll exS.txt exReplies as e ∧
    (talk exS exW (Fork.newTarget ()) (sevens 90 (wire exP (.peerInfo exFuzzer) ++ exMs.flatMap (wire exP)))).sent =
      wire exP (.peerInfo exMe) ++ as.flatMap (wire exP) := by
  obtain ⟨as, e, h1, h2⟩ := C66_session_partial exS exW (Fork.newTarget ()) exFuzzer exMs exQs _ exFuzzer_send rfl exMe_send exAsk
    exMs_send (sevens_flatten 90 _) exReplies_send
  exact ⟨as, e, h1, congrArg Outcome.sent h2⟩

/-- **C66**: sessions do not influence each other: whatever was sent on earlier connections, well formed or not, the
target sends on a connection what a new target sends on it. -/
theorem C66_isolated (S : Setup ρ) (W : World Bytes Bytes ρ) (cs : List (List Bytes)) :
    serve S W true (Fork.newTarget S.ring) cs = cs.map fun c => (talk S W (Fork.newTarget S.ring) c).sent := by
  have key : ∀ (t : Fork.Target Bytes Bytes ρ) (c : List Bytes),
      (talk S W (Fork.reset S.ring t) c).sent = (talk S W (Fork.newTarget S.ring) c).sent := by
    intro t c
    unfold talk
    cases readMessage W.P S.maxAnc c with
    | error e => rfl
    | ok q =>
      obtain ⟨m, rest⟩ := q
      cases m <;> rfl
  have sent : ∀ (first : Bool) (t : Fork.Target Bytes Bytes ρ) (c : List Bytes),
      (serveOne S W first t c).sent = (talk S W (if first then t else Fork.reset S.ring t) c).sent := by
    intro first t c
    unfold serveOne
    dsimp only
    split <;> rfl
  have rest : ∀ (cs : List (List Bytes)) (t : Fork.Target Bytes Bytes ρ),
      serve S W false t cs = cs.map fun c => (talk S W (Fork.newTarget S.ring) c).sent := by
    intro cs
    induction cs with
    | nil => intro t; rfl
    | cons c cs ih =>
      intro t
      simp only [serve, List.map_cons, ih, sent, Bool.false_eq_true, if_false, key]
  cases cs with
  | nil => rfl
  | cons c cs => simp only [serve, List.map_cons, rest, sent, if_true]

example : serve exS exW true (Fork.newTarget ()) [[[0, 0, 0]], [[1, 0, 0, 0, 9]], [wire exP (.peerInfo exFuzzer)]] =
    [[], [], wire exP (.peerInfo exMe)] := by
  rw [C66_isolated]
  decide +kernel

/-! ## Panics -/

/-- **C66**: a state that claims `2^63 / 56` entries or more makes the target panic; the session ends, what was sent is
kept, and the target starts anew. -/
theorem C66_panic (S : Setup ρ) (W : World Bytes Bytes ρ) (first : Bool) (t : Fork.Target Bytes Bytes ρ) (n : Nat) (hn : n < 2 ^ 64)
    (hb : 2 ^ 63 ≤ n * 56) (rest : Bytes) (cs : List Bytes) (hl : (5 :: (Wire.Spec.nat n ++ rest)).length < 2 ^ 32)
    (hc : cs.flatten = framed (5 :: (Wire.Spec.nat n ++ rest))) :
    serveOne S W first t cs = ⟨Fork.reset S.ring t, [], .panicked⟩ := by
  have l4 := paperFixed_length 4 (5 :: (Wire.Spec.nat n ++ rest)).length
  have d := (fixed_codes 32 4 (by decide) (by decide) _ hl).2 []
  rw [List.append_nil] at d
  have hd : Msg.dec W.P S.maxAnc (5 :: (Wire.Spec.nat n ++ rest)) = .error .panic := by
    have hv : stateDec (Wire.Spec.nat n ++ rest) = .error .panic := by
      have := vec_panics (d := entryDec) hn hb rest
      exact this
    simp only [Msg.dec, readByte_bind_cons]
    rw [if_neg (by decide), if_neg (by decide), if_neg (by decide), if_neg (by decide), if_neg (by decide), if_pos trivial]
    exact bind_error hv
  have hf : readFlat W.P S.maxAnc cs.flatten = .error .panic := by
    unfold readFlat
    have e1 : cs.flatten.take 4 = paperFixed 4 (5 :: (Wire.Spec.nat n ++ rest)).length := by
      rw [hc, framed, List.take_append_of_le_length (by omega), List.take_of_length_le (by omega)]
    have e2 : cs.flatten.drop 4 = 5 :: (Wire.Spec.nat n ++ rest) := by
      rw [hc, framed, List.drop_append_of_le_length (by omega), List.drop_of_length_le (by omega), List.nil_append]
    have e3 : ¬ cs.flatten.length < 4 := by rw [hc, framed, List.length_append, l4]; omega
    rw [if_neg e3, e1, d]
    dsimp only
    rw [e2, if_neg (by omega), List.take_of_length_le (Nat.le_refl _), hd]
    rfl
  have a := read_flat W.P S.maxAnc cs
  rw [hf] at a
  have hm : readMessage W.P S.maxAnc cs = .error .panic := by
    generalize readMessage W.P S.maxAnc cs = r at a
    match r, a with
    | .error x, a => rw [show x = Stop.panic from a]
  cases first <;> simp only [serveOne, talk, hm] <;> rfl

example : serveOne exS exW false (Fork.newTarget ()) [framed (5 :: (Wire.Spec.nat (2 ^ 60) ++ []))] = ⟨Fork.reset () (Fork.newTarget ()), [], .panicked⟩ :=
  C66_panic exS exW false _ (2 ^ 60) (by decide) (by decide) [] _ (by decide +kernel) (by simp)

end Fastroll.Net
