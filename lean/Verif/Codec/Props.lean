import Verif.Codec.Lemmas3
/-! # Codec properties (C01–C04) -/
namespace Fastroll.Codec

/-! ## C01 -/

/-- **C01.** Every unsigned integer decodes back, for each type it fits, with the
following input untouched. -/
theorem C01_int_roundtrip (w x : Nat) (hw : w ≤ 64) (hx : x < 2 ^ w) (rest : List UInt8) :
    intDecode w (intEncode x ++ rest) = .ok (x, rest) :=
  intDecode_intEncode w x rest (Nat.lt_of_lt_of_le hx (Nat.pow_le_pow_right (by omega) hw)) hx

example : (300 : Nat) < 2 ^ 16 ∧ intEncode 300 = [129, 44] ∧
    intDecode 16 ([129, 44] ++ [9]) = .ok (300, [9]) := by decide

/-- **C01.** The size hint is the exact length, between 1 and 9 bytes. -/
theorem C01_int_length (x : Nat) :
    (intEncode x).length = intSizeHint x ∧ 1 ≤ (intEncode x).length ∧ (intEncode x).length ≤ 9 := by
  rw [intEncode_length]
  exact ⟨rfl, intSizeHint_bounds⟩

/-- **C01.** No encoding is a proper prefix of another: if one encoding begins a
stream that another also begins, the values are the same. -/
theorem C01_int_prefix_free (x y : Nat) (hx : x < 2 ^ 64) (hy : y < 2 ^ 64)
    (s t : List UInt8) (h : intEncode x ++ s = intEncode y ++ t) : x = y ∧ s = t := by
  have h1 := C01_int_roundtrip 64 x (by omega) hx s
  have h2 := C01_int_roundtrip 64 y (by omega) hy t
  rw [h, h2] at h1
  simp at h1
  exact ⟨h1.1.symm, h1.2.symm⟩

example : intEncode 127 ++ [1] = [127, 1] ∧ intEncode 128 = [128, 128] := by decide

/-- **C01.** A value too large for the target type is an error, never truncated. -/
theorem C01_int_too_large (w x : Nat) (hx : x < 2 ^ 64) (hw : 2 ^ w ≤ x) (rest : List UInt8) :
    intDecode w (intEncode x ++ rest) = .error .conversion := by
  have h := intDecode_intEncode 64 x rest hx hx
  rcases (intDecode_shape h).2 with ⟨l, q, bs, hl, hq, hb, he, hi⟩ | ⟨bs, hb, he, hi⟩
  · rw [hi, intDecode_class w l q bs rest hl hq hb, ← he]
    simp [tryFrom, show ¬ x < 2 ^ w by omega]
  · rw [hi, intDecode_ff w bs rest hb, ← he]
    simp [tryFrom, show ¬ x < 2 ^ w by omega]

example : (300 : Nat) < 2 ^ 64 ∧ 2 ^ 8 ≤ 300 ∧ intDecode 8 [129, 44] = .error .conversion := by decide

theorem leBytes_paper (l x : Nat) : leBytes l x = paperFixed l x := by
  induction l generalizing x with
  | zero => rfl
  | succ l ih => rw [leBytes_succ, ih]; rfl

theorem firstByte_sum : ∀ l : Fin 8, ∀ q : Fin 128, q.val < 2 ^ (7 - l.val) →
    (UInt8.ofNat (prefixOf l) ||| UInt8.ofNat q) = UInt8.ofNat (2 ^ 8 - 2 ^ (8 - l.val) + q) := by
  decide +kernel

/-- **C01.** The bytes are the ones the Gray Paper prescribes, for every `u64`, and those
are the only ones the paper's relation admits. -/
theorem C01_int_paper (x : Nat) (hx : x < 2 ^ 64) (bs : List UInt8) :
    PaperInt x bs ↔ bs = intEncode x := by
  have hmid : ∀ l, l < 8 → 2 ^ (7 * l) ≤ x → x < 2 ^ (7 * (l + 1)) → intEncode x =
      UInt8.ofNat (2 ^ 8 - 2 ^ (8 - l) + x / 2 ^ (8 * l)) :: paperFixed l (x % 2 ^ (8 * l)) := by
    intro l hl h1 h2
    have h0 : x ≠ 0 := by have := Nat.two_pow_pos (7 * l); omega
    have h56 : x < 2 ^ 56 := Nat.lt_of_lt_of_le h2 (Nat.pow_le_pow_right (by omega) (by omega))
    obtain ⟨c1, c2, c3⟩ := log2_class h0 h56
    have hll : x.log2 / 7 = l := by
      have a := (Nat.pow_lt_pow_iff_right (by omega : 1 < 2)).mp (Nat.lt_of_le_of_lt c2 h2)
      have b := (Nat.pow_lt_pow_iff_right (by omega : 1 < 2)).mp (Nat.lt_of_le_of_lt h1 c3)
      omega
    rw [intEncode_mid h0 h56, hll, leBytes_paper]
    have hq := quotient_lt hl h2
    rw [firstByte_sum ⟨l, hl⟩ ⟨_, first_lt hq⟩ hq]
  constructor
  · intro h
    cases h with
    | zero => rfl
    | mid _ l hl h1 h2 => exact (hmid l hl h1 h2).symm
    | big _ h1 _ => rw [intEncode_big h1, leBytes_paper]
  · rintro rfl
    by_cases h0 : x = 0
    · subst h0; exact .zero
    · by_cases h56 : x < 2 ^ 56
      · obtain ⟨c1, c2, c3⟩ := log2_class h0 h56
        rw [hmid _ c1 c2 c3]
        exact .mid x _ c1 c2 c3
      · rw [intEncode_big (by omega), leBytes_paper]
        exact .big x (by omega) hx

example : PaperInt 300 [129, 44] := (C01_int_paper 300 (by decide) _).mpr (by decide)

/-- **C03.** Fixed-width encodings are the paper's little-endian bytes. -/
theorem C03_fixed_paper (size v : Nat) (bs : List UInt8) (h : fixedEncode size v = .ok bs) :
    bs = paperFixed size v := by
  unfold fixedEncode at h
  split at h
  · simp at h
  · split at h
    · simp at h
    · simp at h; rw [← h, leBytes_paper]

/-! ## C02

The full statement — `intDecode 64 inp = .ok (x, r) → inp = intEncode x ++ r` —
is false of the code. -/

/-- **C02, negation.** Two different byte strings decode to 5. -/
theorem C02_noncanonical_accepted :
    ∃ inp r x, intDecode 64 inp = .ok (x, r) ∧ inp ≠ intEncode x ++ r :=
  ⟨[0x80, 5], [], 5, by decide⟩

/-- **C02 (partial).** What does hold: the consumed bytes are at least as long as
the canonical encoding, and equal to it as soon as they have its length (other
than the nine-byte form, they are the unique shortest accepted form). Missing:
longer, non-minimal forms are also accepted (see the negation above). -/
theorem C02_shortest_is_canonical_partial (w : Nat) (hw : w ≤ 64) (inp r : List UInt8) (x : Nat)
    (h : intDecode w inp = .ok (x, r)) :
    ∃ used, inp = used ++ r ∧ (intEncode x).length ≤ used.length ∧
      (used.length = (intEncode x).length → used = intEncode x) := by
  obtain ⟨hxw, hs⟩ := intDecode_shape h
  have hx64 : x < 2 ^ 64 := Nat.lt_of_lt_of_le hxw (Nat.pow_le_pow_right (by omega) hw)
  rcases hs with ⟨l, q, bs, hl, hq, hb, he, hi⟩ | ⟨bs, hb, he, hi⟩
  · refine ⟨(UInt8.ofNat (prefixOf l) ||| UInt8.ofNat q) :: bs, by simp [hi], ?_, ?_⟩
    · -- x < 2^(7(l+1)) so its class is at most l
      have hlv := leVal_lt bs
      rw [hb] at hlv
      have hx : x < 2 ^ (7 * (l + 1)) := by
        have h1 : 2 ^ (8 * l) * q + 2 ^ (8 * l) ≤ 2 ^ (8 * l) * 2 ^ (7 - l) := by
          rw [← Nat.mul_succ]; exact Nat.mul_le_mul_left _ hq
        rw [← Nat.pow_add, show 8 * l + (7 - l) = 7 * (l + 1) by omega] at h1
        omega
      rw [intEncode_length, List.length_cons, hb]
      unfold intSizeHint
      split
      · omega
      · rename_i h0
        have hx56 : x < 2 ^ 56 := Nat.lt_of_lt_of_le hx (Nat.pow_le_pow_right (by omega) (by omega))
        rw [if_pos (by simpa [Nat.shiftLeft_eq] using hx56)]
        have : x.log2 < 7 * (l + 1) := (Nat.log2_lt h0).mpr hx
        omega
    · intro hlen
      rw [intEncode_length, List.length_cons, hb] at hlen
      have hlv := leVal_lt bs
      rw [hb] at hlv
      have hdiv : x / 2 ^ (8 * l) = q := by
        rw [he, Nat.add_mul_div_left _ _ (Nat.two_pow_pos _), Nat.div_eq_of_lt hlv]; omega
      have hmod : x % 2 ^ (8 * l) = leVal bs := by
        rw [he, Nat.add_mul_mod_self_left, Nat.mod_eq_of_lt hlv]
      unfold intSizeHint at hlen
      split at hlen
      · rename_i h0
        have hl0 : l = 0 := by omega
        subst hl0
        have : bs = [] := List.length_eq_zero_iff.mp hb
        subst this
        have hq0 : q = 0 := by simp [leVal] at he; omega
        subst hq0; subst h0; decide
      · split at hlen
        · rename_i h0 h56
          have hc : x.log2 / 7 = l := by omega
          rw [intEncode_mid h0 (by simpa [Nat.shiftLeft_eq] using h56), hc, hdiv, hmod]
          congr 1
          rw [← hb, leBytes_leVal]
        · omega
  · refine ⟨0xFF :: bs, by simp [hi], ?_, ?_⟩
    · rw [List.length_cons, hb]; exact (C01_int_length x).2.2
    · intro hlen
      rw [intEncode_length, List.length_cons, hb] at hlen
      unfold intSizeHint at hlen
      split at hlen
      · omega
      · split at hlen
        · rename_i h0 h56
          have := (log2_class h0 (by simpa [Nat.shiftLeft_eq] using h56)).1
          omega
        · rename_i h0 h56
          rw [intEncode_big (by simpa [Nat.shiftLeft_eq] using h56), he, ← hb, leBytes_leVal]

example : intDecode 64 [129, 44, 7] = .ok (300, [7]) := by decide

/-! ## C03 -/

/-- **C03.** Fixed-width encoding succeeds exactly for values that fit, and then
yields exactly `n` bytes which decode back. -/
theorem C03_fixed_roundtrip (n x : Nat) (hn : n ≤ 8) (hx : x < 2 ^ (8 * n)) :
    ∃ bs, fixedEncode n x = .ok bs ∧ bs.length = n ∧
      ∀ rest, fixedDecode 64 n (bs ++ rest) = .ok (x, rest) := by
  obtain ⟨bs, he, hd⟩ := fixed_roundTrips n x ⟨hx, hn⟩
  refine ⟨bs, he, ?_, hd⟩
  unfold fixedEncode at he
  split at he
  · simp at he
  · split at he
    · simp at he
    · simp at he; rw [← he, leBytes_length]

example : fixedEncode 4 0x01020304 = .ok [4, 3, 2, 1] := by decide

/-- **C03.** Values that do not fit, and widths over 8, are rejected. -/
theorem C03_fixed_rejects (n x : Nat) :
    (8 < n → fixedEncode n x = .error .invalidSize) ∧
    (n ≤ 8 → 2 ^ (8 * n) ≤ x → fixedEncode n x = .error .conversion) := by
  constructor
  · intro h; simp [fixedEncode, h]
  · intro hn hx
    have : x > (1 <<< (n * 8)) - 1 := by
      rw [Nat.shiftLeft_eq, Nat.one_mul, Nat.mul_comm n 8]
      have := Nat.two_pow_pos (8 * n)
      omega
    simp [fixedEncode, show ¬ 8 < n by omega, this]

/-- **C03.** Decoding into a narrower type (`w` bits) than the width is an error
regardless of the bytes, and short input is an error. -/
theorem C03_fixed_decode_rejects (w n : Nat) (inp : List UInt8) :
    (w / 8 < n → fixedDecode w n inp = .error .invalidSize) ∧
    (n ≤ w / 8 → inp.length < n → fixedDecode w n inp = .error .input) := by
  constructor
  · intro h; simp [fixedDecode, h]
  · intro h hs; simp only [fixedDecode, gt_iff_lt, show ¬ w / 8 < n by omega, if_false]; exact bind_error (readLE_short hs)

/-- **C03.** Fixed-width decoding is injective on the consumed bytes: the bytes
are determined by the value, so this codec (unlike C02) is canonical. -/
theorem C03_fixed_canonical (n : Nat) (hn : n ≤ 8) (inp r : List UInt8) (x : Nat)
    (h : fixedDecode 64 n inp = .ok (x, r)) :
    ∃ bs, fixedEncode n x = .ok bs ∧ inp = bs ++ r := by
  have h0 := h
  unfold fixedDecode at h0
  rw [if_neg (by omega)] at h0
  obtain ⟨v, r', hr, ht⟩ := bind_inv h0
  obtain ⟨bs, hl, he⟩ := readLE_ok hr
  subst he
  rw [fixedDecode64 bs r' n hl hn] at h
  simp at h
  obtain ⟨rfl, rfl⟩ := h
  have hlt := leVal_lt bs
  rw [hl] at hlt
  refine ⟨bs, ?_, rfl⟩
  have h1 : ¬ leVal bs > (1 <<< (n * 8)) - 1 := by
    rw [Nat.shiftLeft_eq, Nat.one_mul, Nat.mul_comm n 8]; omega
  simp only [fixedEncode, show ¬ n > 8 by omega, h1, if_false]
  rw [← hl, leBytes_leVal]

example : fixedDecode 64 2 [1, 2, 3] = .ok (513, [3]) := by decide

/-! ## C04 -/

/-- **C04.** Every wire type, at any nesting depth, round-trips. -/
theorem C04_roundtrip (t : Ty) : RoundTrips t.enc t.dec t.Ok := by
  induction t with
  | uint w => exact nat_roundTrips w
  | fixed n => exact fixed_roundTrips n
  | bool => exact bool_roundTrips
  | bits => exact bits_roundTrips
  | bitsFixed n => exact bitsFixed_roundTrips n
  | opt t ih => exact opt_roundTrips ih
  | pair a b iha ihb =>
    intro ⟨x, y⟩ ⟨hx, hy⟩
    exact pair_roundTrips iha ihb (x, y) ⟨hx, hy⟩
  | vec sz t ih => exact vec_roundTrips sz ih
  | limited m t ih => exact limited_roundTrips m ih
  | arr n t ih =>
    intro vs ⟨hl, hP⟩
    obtain ⟨bs, he, hd⟩ := seq_roundTrips ih vs hP
    have hl' : List.length vs = n := hl
    rw [hl'] at hd
    exact ⟨bs, he, hd⟩
  | map w t ih => exact map_roundTrips w ih

/-- A nested type with a non-trivial value: a map from 32-bit keys to limited
vectors of optional (bit sequence, 4-byte integer) pairs. -/
example : (Ty.map 32 (.limited 2 (.opt (.pair .bits (.fixed 4))))).Ok
    ([(3, [some ([true, false], (7 : Nat)), none]), (9, [])] : List (Nat × List (Option (List Bool × Nat)))) := by
  refine ⟨by decide, by decide, by simp [Ty.Val], ?_⟩
  intro p hp
  change p ∈ [((3 : Nat), [some ([true, false], (7 : Nat)), none]), (9, [])] at hp
  cases hp with
  | head =>
    simp [Ty.Ok, Ty.Val]
    intro v hv a b e
    cases hv with
    | head => cases e; decide
    | tail _ hv => cases hv with
      | head => cases e
      | tail _ hv => cases hv
  | tail _ hp => cases hp with
    | head =>
      simp [Ty.Ok, Ty.Val]
      intro v hv
      cases hv
    | tail _ hp => cases hp

/-- **C04.** Every decoder reads a prefix and is insensitive to what follows. -/
theorem C04_prefix_stable (t : Ty) : PrefixStable t.dec := by
  induction t with
  | uint w => exact intDecode_stable w
  | fixed n => exact fixedDecode_stable 64 n
  | bool => exact boolDec_stable
  | bits => exact bind_stable (intDecode_stable 64) (fun n => ite_stable (unpackLoop_stable _ _ _) (fail_stable _))
  | bitsFixed n => exact unpackLoop_stable _ _ _
  | opt t ih => exact optDec_stable ih
  | pair a b iha ihb => exact pairDec_stable iha ihb
  | vec sz t ih => exact vecDec_stable sz ih
  | limited m t ih => exact limitedDec_stable m ih
  | arr n t ih => exact seqDec_stable ih n
  | map w t ih =>
    exact bind_stable (intDecode_stable 64)
      (fun n => mapDecLoop_stable _ (intDecode_stable w) ih n [])

/-- **C04.** Distinct values never have the same encoding, even inside a stream. -/
theorem C04_injective (t : Ty) (a b : t.Val) (ha : t.Ok a) (hb : t.Ok b) (x y : List UInt8)
    (hx : t.enc a = .ok x) (hy : t.enc b = .ok y) (s u : List UInt8) (h : x ++ s = y ++ u) :
    a = b ∧ s = u := by
  obtain ⟨x', hx', hdx⟩ := C04_roundtrip t a ha
  obtain ⟨y', hy', hdy⟩ := C04_roundtrip t b hb
  rw [hx] at hx'; rw [hy] at hy'
  simp at hx' hy'
  subst hx' hy'
  have h1 := hdx s
  rw [h, hdy u] at h1
  simp at h1
  exact ⟨h1.1.symm, h1.2.symm⟩

example : (Ty.vec 1 .bool).enc [true, false] = .ok [2, 1, 0] ∧ (Ty.vec 1 .bool).enc [true] = .ok [1, 1] := by
  decide

/-- **C04.** A length prefix over the limit is rejected whatever follows it. -/
theorem C04_limit_rejected {α : Type} (m n : Nat) (d : Dec α) (hn : n < 2 ^ 64) (hm : m < n)
    (rest : List UInt8) : limitedDec m d (intEncode n ++ rest) = .error .invalidSize := by
  rw [limitedDec, bind_ok (C01_int_roundtrip 64 n (by omega) hn rest), if_pos hm]; rfl

example : limitedDec 2 boolDec ([3] ++ []) = .error .invalidSize := by rfl

/-- **C04.** Option and boolean discriminators other than 0 and 1 are errors. -/
theorem C04_discriminator_rejected {α : Type} (d : Dec α) (b : UInt8) (h : 1 < b.toNat)
    (rest : List UInt8) :
    optDec d (b :: rest) = .error .input ∧ boolDec (b :: rest) = .error .input := by
  have h0 : b ≠ 0 := by rintro rfl; simp at h
  have h1 : b ≠ 1 := by rintro rfl; simp at h
  constructor
  · simp only [optDec, readByte_bind_cons, if_neg h0, if_neg h1]; rfl
  · simp only [boolDec, readByte_bind_cons, if_neg h0, if_neg h1]; rfl

example : optDec boolDec [2, 1] = .error .input := by rfl

/-- **C04.** Whatever bytes arrive, a decoded limited vector respects its limit,
and a decoded array has its exact size. -/
theorem C04_decoded_sizes {α : Type} (m : Nat) (d : Dec α) (inp r : List UInt8) (as : List α) :
    (limitedDec m d inp = .ok (as, r) → as.length ≤ m) ∧
    (seqDec d m inp = .ok (as, r) → as.length = m) := by
  constructor
  · intro h
    obtain ⟨n, r1, _, h⟩ := bind_inv h
    split at h
    · simp at h
    · obtain ⟨as', r2, _, h⟩ := bind_inv h
      split at h
      · simp at h; rw [← h.1]; assumption
      · simp at h
  · intro h
    induction m generalizing inp as with
    | zero => simp [seqDec] at h; simp [← h.1]
    | succ m ih =>
      obtain ⟨a, r1, _, h⟩ := bind_inv h
      obtain ⟨as', r2, h2, h⟩ := bind_inv h
      simp at h
      obtain ⟨h3, h4⟩ := h
      subst h4
      rw [← h3, List.length_cons, ih _ _ h2]

end Fastroll.Codec
