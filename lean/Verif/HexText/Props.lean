import Verif.HexText.Lemmas

/-!
# C81: hexadecimal text
-/

namespace Fastroll.HexText

open Spec

/-- `0x00ff10` as text. -/
def exText : Text := [0x30, 0x78, 0x30, 0x30, 0x66, 0x66, 0x31, 0x30]

/-- **C81**: every reader gives back the octets from every text a writer makes of them, with or without `0x`. -/
theorem C81_round_trip (bs : List UInt8) :
    deserializeVec (serialize bs) = .ok bs ∧ fromHexVec (toHex bs) = .ok bs ∧
    deserializeVec (toHex bs) = .ok bs ∧ fromHexVec (serialize bs) = .ok bs ∧
    deserializeArray bs.length (serialize bs) = .ok bs ∧ fromHexArray bs.length (toHex bs) = .ok bs ∧
    deserializeArray bs.length (toHex bs) = .ok bs ∧ fromHexArray bs.length (serialize bs) = .ok bs := by
  have hd : decode (encode bs) = some bs := (decode_iff _ _).mpr (encode_pairs bs)
  have hs : strip (encode bs) = encode bs := row_strip (encode_pairs bs)
  have hs' : strip (serialize bs) = encode bs := rfl
  have hl := encode_length bs
  have e1 : ¬ ((encode bs).length > bs.length * 2) := by omega
  have e2 : ¬ ((encode bs).length < bs.length * 2) := by omega
  simp [deserializeVec, fromHexVec, deserializeArray, fromHexArray, fromSlice, toHex, hs, hs', hd, e1, e2]

example : serialize [0, 255, 16] = exText ∧ deserializeVec exText = .ok [0, 255, 16] ∧
    fromHexArray 3 exText = .ok [0, 255, 16] := by decide

/-- **C81**: the readers of JSON text, and `Vec::from_hex`, accept exactly the texts that spell the octets, two digits each
and in either case, after an optional `0x`; an array must have its exact length. -/
theorem C81_exact (t : Text) (bs : List UInt8) :
    (deserializeVec t = .ok bs ↔ ∃ s, Prefixed t s ∧ Pairs s bs) ∧
    (fromHexVec t = .ok bs ↔ ∃ s, Prefixed t s ∧ Pairs s bs) ∧
    (∀ n, deserializeArray n t = .ok bs ↔ bs.length = n ∧ ∃ s, Prefixed t s ∧ Pairs s bs) := by
  have key : decode (strip t) = some bs ↔ ∃ s, Prefixed t s ∧ Pairs s bs := by
    rw [decode_iff]
    constructor
    · intro h; exact ⟨_, prefixed_strip t, h⟩
    · rintro ⟨s, hp, h⟩; rw [prefixed_row hp h]; exact h
  refine ⟨?_, ?_, fun n => ?_⟩
  · rw [← key]; unfold deserializeVec; cases decode (strip t) <;> simp
  · rw [← key]; unfold fromHexVec; cases decode (strip t) <;> simp
  · rw [← key]; unfold deserializeArray
    cases decode (strip t) with
    | none => simp
    | some cs =>
      simp only [Option.some.injEq]
      split
      · next h => simp only [Res.ok.injEq]; constructor
                  · rintro rfl; exact ⟨h, rfl⟩
                  · rintro ⟨_, rfl⟩; rfl
      · next h => constructor
                  · intro e; cases e
                  · rintro ⟨h', rfl⟩; exact absurd h' h

/-- Capital letters are read, a capital `0X` and half an octet are not. -/
example : deserializeVec [0x46, 0x66] = .ok [255] ∧ deserializeVec [0x30, 0x58, 0x46, 0x66] = .err .custom ∧
    deserializeVec [0x30, 0x78, 0x66] = .err .custom ∧ deserializeArray 2 [0x46, 0x66] = .err .custom := by decide

/-- **C81**: `ByteArray::from_hex` reads its text as a number: it accepts exactly the rows of at most `2n` digits after an
optional `0x`, and the `n` octets denote the number that the digits denote.  For every text, valid UTF-8 or not. -/
theorem C81_number (n : Nat) (t : Text) (bs : List UInt8) :
    fromHexArray n t = .ok bs ↔
      bs.length = n ∧ ∃ s ds, Prefixed t s ∧ Row s ds ∧ ds.length ≤ 2 * n ∧ number 16 ds = octetNumber bs := by
  constructor
  · intro h
    unfold fromHexArray at h
    simp only at h
    split at h
    · cases h
    next hle =>
    split at h
    next cs hdec =>
      unfold fromSlice at h
      split at h
      next hlen =>
        cases h
        refine ⟨hlen, strip t, ?_⟩
        split at hdec
        next hlt =>
          have hp := (decode_iff _ _).mp hdec
          obtain ⟨es, hr⟩ := row_append_inv _ _ _ hp
          refine ⟨es, prefixed_strip t, hr, by rw [← row_length hr]; omega, ?_⟩
          have := row_unique (row_zeros (n * 2 - chars (strip t)) hr) hp
          rw [← number_halves, ← this, number_zeros]
        next hlt =>
          have hp := (decode_iff _ _).mp hdec
          refine ⟨_, prefixed_strip t, hp, ?_, number_halves bs⟩
          have := row_length hp
          omega
      next => cases h
    next => cases h
  · rintro ⟨hlen, s, ds, hp, hr, hle, hn⟩
    have hs := prefixed_row hp hr
    have hl := row_length hr
    -- the padded row
    have hpad : ∃ u es, (if (strip t).length < n * 2 then padLeft (n * 2) (strip t) else strip t) = u ∧
        Row u es ∧ u.length = 2 * n ∧ number 16 es = number 16 ds := by
      rw [hs]
      split
      next hlt =>
        refine ⟨_, _, rfl, row_zeros _ hr, ?_, number_zeros _ _ _⟩
        unfold padLeft
        rw [List.length_append, List.length_replicate, row_chars hr]
        omega
      next hlt => exact ⟨s, ds, rfl, hr, by omega, rfl⟩
    obtain ⟨u, es, hu, hru, hul, hnu⟩ := hpad
    obtain ⟨cs, hcs, hcl⟩ := row_pairs n u es hru hul
    have hbs : cs = bs := by
      apply octetNumber_inj (by omega)
      rw [← number_halves, ← row_unique hru hcs, hnu, hn]
    subst hbs
    unfold fromHexArray
    have hgt : ¬ ((strip t).length > n * 2) := by rw [hs]; omega
    simp only [hgt, if_false, hu, (decode_iff _ _).mpr hcs, fromSlice, hcl, if_true]

example : fromHexArray 2 [0x66] = .ok [0, 15] ∧ fromHexArray 2 [0x30, 0x78, 0x31, 0x30, 0x30] = .ok [1, 0] ∧
    fromHexArray 2 [0x31, 0x32, 0x33, 0x34, 0x35] = .err .hexToByteArray ∧
    fromHexArray 2 [0xc3, 0xa9] = .err .hexToByteArray := by decide

/-- **C81**: the text is determined by the octets up to case and `0x`: two texts are read as the same octets exactly when
their digits have the same values. -/
theorem C81_unique (t u : Text) (bs cs : List UInt8) (ht : deserializeVec t = .ok bs) (hu : deserializeVec u = .ok cs) :
    bs = cs ↔ ∃ s v ds, Prefixed t s ∧ Prefixed u v ∧ Row s ds ∧ Row v ds := by
  obtain ⟨s, hs, ps⟩ := (C81_exact t bs).1.mp ht
  obtain ⟨v, hv, pv⟩ := (C81_exact u cs).1.mp hu
  constructor
  · rintro rfl
    exact ⟨s, v, _, hs, hv, ps, pv⟩
  · rintro ⟨s', v', ds, hs', hv', rs, rv⟩
    have e1 : s' = s := (prefixed_row hs' rs).symm.trans (prefixed_row hs ps)
    have e2 : v' = v := (prefixed_row hv' rv).symm.trans (prefixed_row hv pv)
    subst e1; subst e2
    have h1 := row_unique ps rs
    have h2 := row_unique pv rv
    apply octetNumber_inj
    · have l1 := pairs_length ps
      have l2 := pairs_length pv
      have l3 := row_length rs
      have l4 := row_length rv
      omega
    · rw [← number_halves, ← number_halves, h1, h2]

/-- `0xFf` and `fF`. -/
example : deserializeVec [0x30, 0x78, 0x46, 0x66] = .ok [255] ∧ deserializeVec [0x66, 0x46] = .ok [255] := by decide

/-- **C81**: what the writers put down has no case left open: small letters only, and `0x` in JSON text. -/
theorem C81_written (bs : List UInt8) :
    (∃ s, serialize bs = [0x30, 0x78] ++ s ∧ toHex bs = s) ∧
    (∀ c ∈ toHex bs, c ∈ lowerDigits) ∧ (toHex bs).length = 2 * bs.length := by
  refine ⟨⟨encode bs, rfl, rfl⟩, ?_, encode_length bs⟩
  unfold toHex
  induction bs with
  | nil => intro c h; cases h
  | cons b bs ih =>
    intro c h
    simp only [encode, List.mem_cons] at h
    rcases h with rfl | rfl | h
    · exact List.mem_of_getElem? (digit_lower b).1
    · exact List.mem_of_getElem? (digit_lower b).2
    · exact ih c h

example : toHex [171, 9] = [0x61, 0x62, 0x30, 0x39] := by decide

/-- **C81**, partial (the code does not meet the property): the two readers of an array do not accept the same texts.
Where the JSON reader accepts, `from_hex` gives the same array; but for every length `from_hex` also takes every shorter
text, down to the empty one, and fills up with zeros on the left, where the JSON reader reports an error. -/
theorem C81_readers_partial (n : Nat) (t : Text) :
    (∀ bs, deserializeArray n t = .ok bs → fromHexArray n t = .ok bs) ∧
    (∀ ds s, Prefixed t s → Row s ds → ds.length < 2 * n →
      deserializeArray n t = .err .custom ∧ ∃ bs, fromHexArray n t = .ok bs ∧ octetNumber bs < 16 ^ ds.length) := by
  constructor
  · intro bs h
    obtain ⟨hl, s, hp, hr⟩ := ((C81_exact t bs).2.2 n).mp h
    refine (C81_number n t bs).mpr ⟨hl, s, _, hp, hr, ?_, number_halves bs⟩
    have := row_length hr
    have := pairs_length hr
    omega
  · intro ds s hp hr hlt
    constructor
    · cases hd : deserializeArray n t with
      | err e =>
        unfold deserializeArray at hd
        split at hd
        · split at hd
          · cases hd
          · cases hd; rfl
        · cases hd; rfl
      | ok bs =>
        obtain ⟨hl, s', hp', hr'⟩ := ((C81_exact t bs).2.2 n).mp hd
        have e : s' = s := (prefixed_row hp' hr').symm.trans (prefixed_row hp hr)
        subst e
        have l1 := pairs_length hr'
        have l2 := row_length hr
        omega
    · have hz := row_zeros (2 * n - s.length) hr
      have hl := row_length hr
      obtain ⟨bs, hb, hbl⟩ := row_pairs n _ _ hz (by
        rw [List.length_append, List.length_replicate]; omega)
      have hn : number 16 ds = octetNumber bs := by
        rw [← number_halves, ← row_unique hz hb, number_zeros]
      refine ⟨bs, (C81_number n t bs).mpr ⟨hbl, s, ds, hp, hr, by omega, hn⟩, ?_⟩
      rw [← hn]
      apply number_lt
      clear hn hb hz hbl hlt hp hl
      induction hr with
      | nil => intro d h; cases h
      | cons h1 _ ih =>
        intro d h
        rcases List.mem_cons.mp h with rfl | h
        · exact spells_lt h1
        · exact ih d h

/-- A 32-octet key of which the text has lost all but the last two digits, or all of them. -/
example : fromHexArray 32 [0x30, 0x78, 0x61, 0x62] = .ok (List.replicate 31 0 ++ [171]) ∧
    deserializeArray 32 [0x30, 0x78, 0x61, 0x62] = .err .custom ∧
    fromHexArray 32 [] = .ok (List.replicate 32 0) ∧ deserializeArray 32 [] = .err .custom := by decide +kernel

end Fastroll.HexText
