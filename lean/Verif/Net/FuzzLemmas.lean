import Verif.Net.FuzzSpec
import Verif.Wire.Lemmas3
/-! Codec of the messages, frames and reading from pieces. -/
namespace Fastroll.Net
open Fastroll.Codec Fastroll.Wire Fastroll.Chain
open Fastroll.Wire.Spec (Codes nat blob var header block HeaderOk BlockOk Fits)
open Spec

theorem octet_codes : Codes (fun b : UInt8 => natEnc b.toNat) ((intDecode 8).bind fun n => Dec.pure (UInt8.ofNat n))
    (fun _ => True) (fun b => nat b.toNat) := by
  intro b _
  have f := nat_codes 8 (by decide) b.toNat b.toNat_lt
  exact ⟨f.1, fun rest => by rw [bind_ok (f.2 rest)]; simp⟩

theorem text_codes : Codes vecU8Enc vecU8Dec (fun b => b.length < 2 ^ 63) wide := by
  intro b h
  have f := vec_codes 1 (by decide) octet_codes b ⟨by unfold Fits; omega, fun _ _ => trivial⟩
  exact f

theorem byte_fixed {n : Nat} (h : n < 2 ^ 8) :
    fixedEncode 1 n = .ok [UInt8.ofNat n] ∧ ∀ rest, fixedDecode 8 1 (UInt8.ofNat n :: rest) = .ok (n, rest) := by
  have f := fixed_codes 8 1 (by decide) (by decide) n h
  have e : paperFixed 1 n = [UInt8.ofNat n] := by
    simp only [paperFixed, Nat.mod_eq_of_lt (show n < 256 from h)]
  rw [e] at f
  exact f

theorem version_codes : Codes Version.enc Version.dec VersionOk version := by
  intro v h
  have f0 := byte_fixed h.major
  have f1 := byte_fixed h.minor
  have f2 := byte_fixed h.patch
  exact ⟨by simp [Version.enc, version, cat, f0.1, f1.1, f2.1], fun rest => by
    simp only [Version.dec, version, List.cons_append, List.nil_append, bind_ok (f0.2 _), bind_ok (f1.2 _), bind_ok (f2.2 _)]; rfl⟩

theorem entry_codes : Codes entryEnc entryDec EntryOk entry := by
  intro e h
  have f0 := arr_step (b := e.1) 31 h.1
  have f1 := octets_codes e.2 h.2
  exact ⟨by simp [entryEnc, entry, cat, f0.1, f1.1], fun rest => by
    simp only [entryDec, entry, List.append_assoc, bind_ok (f0.2 _), bind_ok (f1.2 _)]; rfl⟩

theorem state_codes : Codes stateEnc stateDec StateOk (var entry) := vec_codes 56 (by decide) entry_codes

theorem ancestor_codes : Codes itemEnc itemDec (fun i => i.1 < 2 ^ 32 ∧ i.2.length = 32) ancestor := by
  intro i h
  have f0 := fixed_codes 32 4 (by decide) (by decide) i.1 h.1
  have f1 := arr_step (b := i.2) 32 h.2
  exact ⟨by simp [itemEnc, ancestor, cat, f0.1, f1.1], fun rest => by
    simp only [itemDec, ancestor, List.append_assoc, bind_ok (f0.2 _), bind_ok (f1.2 _)]; rfl⟩

theorem msg_codes (P : Params) (L : Nat) : Codes (Msg.enc P) (Msg.dec P L) (MsgOk P L) (layout wide P) := by
  intro m h
  cases m with
  | peerInfo p =>
    obtain ⟨h0, h1, h2, h3, h4⟩ := h
    have f0 := byte_fixed h0
    have f1 := fixed_codes 32 4 (by decide) (by decide) p.features h1
    have f2 := version_codes p.jam h2
    have f3 := version_codes p.app h3
    have f4 := text_codes p.name h4
    exact ⟨by simp [Msg.enc, PeerInfo.enc, layout, cat, f0.1, f1.1, f2.1, f3.1, f4.1], fun rest => by
      simp only [Msg.dec, layout, List.append_assoc, List.cons_append, readByte_bind_cons]
      rw [if_pos trivial]
      have e : PeerInfo.dec (UInt8.ofNat p.fuzzVersion :: (paperFixed 4 p.features ++ (version p.jam ++ (version p.app ++ (wide p.name ++ rest))))) = .ok (p, rest) := by
        simp only [PeerInfo.dec, bind_ok (f0.2 _), bind_ok (f1.2 _), bind_ok (f2.2 _), bind_ok (f3.2 _), bind_ok (f4.2 _)]; rfl
      exact bind_ok e⟩
  | init hd st anc =>
    obtain ⟨h0, h1, h2, h3, h4⟩ := h
    have f0 := header_codes P hd h0
    have f1 := state_codes st h1
    have f2 := limited_codes L ancestor_codes anc ⟨h2, h3, h4⟩
    exact ⟨by simp [Msg.enc, layout, cat, f0.1, f1.1, f2.1], fun rest => by
      simp only [Msg.dec, layout, List.append_assoc, List.cons_append, readByte_bind_cons]
      rw [if_neg (by decide), if_pos trivial, bind_ok (f0.2 _), bind_ok (f1.2 _), bind_ok (f2.2 _)]; rfl⟩
  | stateRoot r =>
    have f0 := arr_step (b := r) 32 h
    exact ⟨by simp [Msg.enc, layout, cat, f0.1], fun rest => by
      simp only [Msg.dec, layout, List.cons_append, readByte_bind_cons]
      rw [if_neg (by decide), if_neg (by decide), if_pos trivial, bind_ok (f0.2 _)]; rfl⟩
  | importBlock b =>
    have f0 := block_codes P b h
    exact ⟨by simp [Msg.enc, layout, cat, f0.1], fun rest => by
      simp only [Msg.dec, layout, List.cons_append, readByte_bind_cons]
      rw [if_neg (by decide), if_neg (by decide), if_neg (by decide), if_pos trivial, bind_ok (f0.2 _)]; rfl⟩
  | getState hd =>
    have f0 := arr_step (b := hd) 32 h
    exact ⟨by simp [Msg.enc, layout, cat, f0.1], fun rest => by
      simp only [Msg.dec, layout, List.cons_append, readByte_bind_cons]
      rw [if_neg (by decide), if_neg (by decide), if_neg (by decide), if_neg (by decide), if_pos trivial, bind_ok (f0.2 _)]; rfl⟩
  | state st =>
    have f0 := state_codes st h
    exact ⟨by simp [Msg.enc, layout, cat, f0.1], fun rest => by
      simp only [Msg.dec, layout, List.cons_append, readByte_bind_cons]
      rw [if_neg (by decide), if_neg (by decide), if_neg (by decide), if_neg (by decide), if_neg (by decide), if_pos trivial, bind_ok (f0.2 _)]; rfl⟩
  | error e =>
    have f0 := text_codes e h
    exact ⟨by simp [Msg.enc, layout, cat, f0.1], fun rest => by
      simp only [Msg.dec, layout, List.cons_append, readByte_bind_cons]
      rw [if_neg (by decide), if_neg (by decide), if_neg (by decide), if_neg (by decide), if_neg (by decide), if_neg (by decide), if_pos trivial, bind_ok (f0.2 _)]; rfl⟩

/-- A text is written as an octet string iff its octets are below 128. -/
theorem wide_iff {b : Bytes} (h : b.length < 2 ^ 63) : wide b = blob b ↔ ∀ x ∈ b, x.toNat < 128 := by
  rw [← vecU8Enc_iff b h, (text_codes b h).1]
  exact ⟨fun e => by rw [e], fun e => Except.ok.inj e⟩

theorem layout_iff {P : Params} {L : Nat} {m : Msg} (h : MsgOk P L m) : layout wide P m = msg P m ↔ Plain m := by
  cases m with
  | peerInfo p =>
    rw [show Plain (.peerInfo p) = ∀ x ∈ p.name, x.toNat < 128 from rfl, ← wide_iff h.2.2.2.2]
    simp [layout, msg]
  | error e =>
    rw [show Plain (.error e) = ∀ x ∈ e, x.toNat < 128 from rfl, ← wide_iff h]
    simp [layout, msg]
  | _ => simp [layout, msg, Plain, textOf]

theorem plain_codes (P : Params) (L : Nat) :
    Codes (Msg.enc P) (Msg.dec P L) (fun m => MsgOk P L m ∧ Plain m) (msg P) := by
  intro m h
  have f := msg_codes P L m h.1
  rw [(layout_iff h.1).2 h.2] at f
  exact f

theorem frame_ok {P : Params} {L : Nat} {m : Msg} (h : Sendable P L m) : frame P m = .ok (wire P m) := by
  have f := (plain_codes P L m ⟨h.ok, h.plain⟩).1
  have g := (fixed_codes 32 4 (by decide) (by decide) (msg P m).length h.short).1
  simp only [frame, f]
  rw [if_pos h.short, cat_ok g rfl]
  rfl

/-! ### Reading -/

theorem readExact_spec : ∀ (cs : List Bytes) (n : Nat),
    (cs.flatten.length < n ∧ readExact n cs = none) ∨
    (n ≤ cs.flatten.length ∧ ∃ cs', readExact n cs = some (cs.flatten.take n, cs') ∧ cs'.flatten = cs.flatten.drop n) := by
  intro cs
  induction cs with
  | nil =>
    intro n
    cases n with
    | zero => exact .inr ⟨by simp, [], by simp [readExact]⟩
    | succ n => exact .inl ⟨by simp, by simp [readExact]⟩
  | cons c cs ih =>
    intro n
    cases n with
    | zero => exact .inr ⟨by simp, c :: cs, by simp [readExact]⟩
    | succ n =>
      simp only [readExact, List.flatten_cons, List.length_append]
      by_cases hc : n + 1 ≤ c.length
      · rw [if_pos hc]
        refine .inr ⟨by omega, c.drop (n + 1) :: cs, ?_, ?_⟩
        · rw [List.take_append_of_le_length hc]
        · rw [List.flatten_cons, List.drop_append_of_le_length hc]
      · rw [if_neg hc]
        rcases ih (n + 1 - c.length) with ⟨h1, h2⟩ | ⟨h1, cs', h2, h3⟩
        · rw [h2]; exact .inl ⟨by omega, rfl⟩
        · rw [h2]
          refine .inr ⟨by omega, cs', ?_, ?_⟩
          · dsimp only
            rw [List.take_append, List.take_of_length_le (by omega : c.length ≤ n + 1)]
          · rw [h3, List.drop_append, List.drop_of_length_le (by omega : c.length ≤ n + 1), List.nil_append]

/-- `read_message` on the octets that have arrived together. -/
def readFlat (P : Params) (L : Nat) (b : Bytes) : Except Stop (Msg × Bytes) :=
  if b.length < 4 then .error .eof
  else
    match fixedDecode 32 4 (b.take 4) with
    | .error e => .error (.ofErr e)
    | .ok (n, _) =>
      if (b.drop 4).length < n then .error .eof
      else
        match Msg.dec P L ((b.drop 4).take n) with
        | .error e => .error (.ofErr e)
        | .ok (m, _) => .ok (m, (b.drop 4).drop n)

/-- Results of `readMessage` and `readFlat`. -/
def Agree : Except Stop (Msg × List Bytes) → Except Stop (Msg × Bytes) → Prop
  | .error e, .error e' => e = e'
  | .ok (m, cs), .ok (m', b) => m = m' ∧ cs.flatten = b
  | _, _ => False

theorem read_flat (P : Params) (L : Nat) (cs : List Bytes) : Agree (readMessage P L cs) (readFlat P L cs.flatten) := by
  unfold readMessage readFlat
  rcases readExact_spec cs 4 with ⟨h1, h2⟩ | ⟨h1, cs1, h2, h3⟩
  · rw [h2, if_pos h1]; rfl
  · rw [h2, if_neg (by omega)]
    dsimp only
    cases hd : fixedDecode 32 4 (cs.flatten.take 4) with
    | error e => rfl
    | ok p =>
      obtain ⟨n, r⟩ := p
      dsimp only
      rw [← h3]
      rcases readExact_spec cs1 n with ⟨h4, h5⟩ | ⟨h4, cs2, h5, h6⟩
      · rw [h5, if_pos h4]; rfl
      · rw [h5, if_neg (by omega)]
        dsimp only
        cases he : Msg.dec P L (cs1.flatten.take n) with
        | error e => rfl
        | ok q => exact ⟨rfl, h6⟩

theorem length_four {P : Params} {L : Nat} {m : Msg} (h : Sendable P L m) (rest : Bytes) :
    fixedDecode 32 4 (paperFixed 4 (msg P m).length ++ rest) = .ok ((msg P m).length, rest) :=
  (fixed_codes 32 4 (by decide) (by decide) (msg P m).length h.short).2 rest

theorem paperFixed_length : ∀ (l x : Nat), (paperFixed l x).length = l
  | 0, _ => rfl
  | l + 1, x => by simp [paperFixed, paperFixed_length l]

theorem flat_wire {P : Params} {L : Nat} {m : Msg} (h : Sendable P L m) (rest : Bytes) :
    readFlat P L (wire P m ++ rest) = .ok (m, rest) := by
  have l4 := paperFixed_length 4 (msg P m).length
  have e1 : (wire P m ++ rest).take 4 = paperFixed 4 (msg P m).length := by
    simp only [wire, framed, List.append_assoc]
    rw [List.take_append_of_le_length (by omega), List.take_of_length_le (by omega)]
  have e2 : (wire P m ++ rest).drop 4 = msg P m ++ rest := by
    simp only [wire, framed, List.append_assoc]
    rw [List.drop_append_of_le_length (by omega), List.drop_of_length_le (by omega), List.nil_append]
  have e3 : ¬ (wire P m ++ rest).length < 4 := by
    simp only [wire, framed, List.length_append, l4]; omega
  have d := length_four h []
  rw [List.append_nil] at d
  have f := (plain_codes P L m ⟨h.ok, h.plain⟩).2 []
  rw [List.append_nil] at f
  unfold readFlat
  rw [if_neg e3, e1, d]
  dsimp only
  rw [e2, if_neg (by simp), List.take_append_of_le_length (Nat.le_refl _), List.take_of_length_le (Nat.le_refl _), f]
  dsimp only
  rw [List.drop_append_of_le_length (Nat.le_refl _), List.drop_of_length_le (Nat.le_refl _), List.nil_append]

theorem read_wire {P : Params} {L : Nat} {m : Msg} (h : Sendable P L m) {cs : List Bytes} {rest : Bytes}
    (e : cs.flatten = wire P m ++ rest) : ∃ cs', readMessage P L cs = .ok (m, cs') ∧ cs'.flatten = rest := by
  have a := read_flat P L cs
  rw [e, flat_wire h] at a
  generalize readMessage P L cs = r at a
  match r, a with
  | .ok (m', cs'), a => exact ⟨cs', by rw [show m' = m from a.1], a.2⟩

end Fastroll.Net
