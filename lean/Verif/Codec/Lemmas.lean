import Verif.Codec.Model
/-! Helper lemmas for the codec properties. -/
namespace Fastroll.Codec

@[simp] theorem pure_apply {α : Type} (a : α) (inp : List UInt8) : Dec.pure a inp = .ok (a, inp) := rfl
@[simp] theorem fail_apply {α : Type} (e : Err) (inp : List UInt8) :
    (Dec.fail e : Dec α) inp = .error e := rfl

theorem bind_ok {α β : Type} {d : Dec α} {f : α → Dec β} {inp a r} (h : d inp = .ok (a, r)) :
    d.bind f inp = f a r := by simp [Dec.bind, h]

theorem bind_error {α β : Type} {d : Dec α} {f : α → Dec β} {inp e} (h : d inp = .error e) :
    d.bind f inp = .error e := by simp [Dec.bind, h]

@[simp] theorem readByte_bind_cons {β : Type} (f : UInt8 → Dec β) (b inp) :
    readByte.bind f (b :: inp) = f b inp := rfl

@[simp] theorem readByte_bind_nil {β : Type} (f : UInt8 → Dec β) :
    readByte.bind f [] = .error .input := rfl

/-- Inversion of a successful sequence. -/
theorem bind_inv {α β : Type} {d : Dec α} {f : α → Dec β} {inp b r}
    (h : d.bind f inp = .ok (b, r)) : ∃ a r', d inp = .ok (a, r') ∧ f a r' = .ok (b, r) := by
  unfold Dec.bind at h
  cases hd : d inp with
  | error e => simp [hd] at h
  | ok p => obtain ⟨a, r'⟩ := p; simp [hd] at h; exact ⟨a, r', rfl, h⟩

/-- Value of a little-endian byte list. -/
def leVal : List UInt8 → Nat
  | [] => 0
  | b :: bs => b.toNat + 256 * leVal bs

theorem leVal_lt (bs : List UInt8) : leVal bs < 2 ^ (8 * bs.length) := by
  induction bs with
  | nil => simp [leVal]
  | cons b bs ih =>
    have := b.toNat_lt
    simp only [leVal, List.length_cons, Nat.mul_add, Nat.pow_add]
    omega

theorem leBytes_length (n x : Nat) : (leBytes n x).length = n := by simp [leBytes]

theorem leBytes_succ (n x : Nat) :
    leBytes (n + 1) x = UInt8.ofNat (x % 256) :: leBytes n (x / 256) := by
  simp only [leBytes, List.range_succ_eq_map, List.map_cons, List.map_map]
  congr 1
  · have : (255 : Nat) = 2 ^ 8 - 1 := rfl
    simp only [Nat.mul_zero, Nat.shiftRight_zero, this, Nat.and_two_pow_sub_one_eq_mod]
  · apply List.map_congr_left
    intro i _
    simp only [Function.comp]
    congr 2
    simp only [Nat.shiftRight_eq_div_pow, Nat.div_div_eq_div_mul]
    congr 1
    rw [show 8 * i.succ = 8 + 8 * i by omega, Nat.pow_add]

theorem leVal_leBytes (n x : Nat) : leVal (leBytes n x) = x % 2 ^ (8 * n) := by
  induction n generalizing x with
  | zero => simp [leBytes, leVal, Nat.mod_one]
  | succ n ih =>
    rw [leBytes_succ, leVal, ih]
    have h1 : (UInt8.ofNat (x % 256)).toNat = x % 256 := by
      simp
    rw [h1, show 8 * (n + 1) = 8 + 8 * n by omega, Nat.pow_add, Nat.mod_mul]

theorem leBytes_leVal (bs : List UInt8) : leBytes bs.length (leVal bs) = bs := by
  induction bs with
  | nil => simp [leBytes]
  | cons b bs ih =>
    have := b.toNat_lt
    rw [List.length_cons, leBytes_succ, leVal]
    have h1 : (b.toNat + 256 * leVal bs) % 256 = b.toNat := by omega
    have h2 : (b.toNat + 256 * leVal bs) / 256 = leVal bs := by omega
    rw [h1, h2, ih, UInt8.ofNat_toNat]

theorem or_shiftLeft (v b k : Nat) (h : v < 2 ^ k) : v ||| (b <<< k) = v + 2 ^ k * b := by
  rw [Nat.or_comm, ← Nat.shiftLeft_add_eq_or_of_lt h, Nat.shiftLeft_eq, Nat.mul_comm, Nat.add_comm]

theorem readLE_append (bs rest : List UInt8) : ∀ (i v : Nat), v < 2 ^ (8 * i) →
    readLE i bs.length v (bs ++ rest) = .ok (v + 2 ^ (8 * i) * leVal bs, rest) := by
  induction bs with
  | nil => intro i v _; simp [readLE, leVal]
  | cons b bs ih =>
    intro i v hv
    have hb := b.toNat_lt
    simp only [List.length_cons, readLE, List.cons_append, readByte_bind_cons]
    rw [or_shiftLeft _ _ _ hv, ih]
    · simp only [leVal]
      rw [show 8 * (i + 1) = 8 * i + 8 by omega, Nat.pow_add, Nat.mul_add, Nat.mul_assoc]
      simp only [Nat.add_assoc]
    · rw [show 8 * (i + 1) = 8 * i + 8 by omega, Nat.pow_add]
      have : 2 ^ (8 * i) * b.toNat ≤ 2 ^ (8 * i) * 255 := Nat.mul_le_mul_left _ (by omega)
      omega

/-- Success of the byte loop means the input had enough bytes. -/
theorem readLE_ok {n i v inp x r} (h : readLE i n v inp = .ok (x, r)) :
    ∃ bs, bs.length = n ∧ inp = bs ++ r := by
  induction n generalizing i v inp with
  | zero => simp [readLE] at h; exact ⟨[], rfl, h.2⟩
  | succ n ih =>
    cases inp with
    | nil => simp [readLE] at h
    | cons b inp =>
      simp only [readLE, readByte_bind_cons] at h
      obtain ⟨bs, hl, he⟩ := ih h
      exact ⟨b :: bs, by simp [hl], by simp [he]⟩

theorem readLE_short {n i v inp} (h : inp.length < n) : readLE i n v inp = .error .input := by
  induction n generalizing i v inp with
  | zero => omega
  | succ n ih =>
    cases inp with
    | nil => simp [readLE]
    | cons b inp =>
      simp only [readLE, readByte_bind_cons]
      exact ih (by simpa using h)

theorem fixedDecode64 (bs rest : List UInt8) (n : Nat) (hl : bs.length = n) (hn : n ≤ 8) :
    fixedDecode 64 n (bs ++ rest) = .ok (leVal bs, rest) := by
  have h0 := readLE_append bs rest 0 0 (by simp)
  have hlt := leVal_lt bs
  have : leVal bs < 2 ^ 64 := Nat.lt_of_lt_of_le hlt (Nat.pow_le_pow_right (by omega) (by omega))
  subst hl
  simp only [fixedDecode, show ¬ (bs.length > 64 / 8) by omega, if_false]
  rw [bind_ok h0]
  simp [tryFrom, this]

/-- Prefix bits of a first byte with `l` leading ones. -/
def prefixOf (l : Nat) : Nat := if l = 0 then 0 else (1 <<< 8) - (1 <<< (8 - l))

theorem firstByte_table : ∀ l : Fin 8, ∀ q : Fin 128, q.val < 2 ^ (7 - l.val) →
    leadingOnes (UInt8.ofNat (prefixOf l) ||| UInt8.ofNat q) = l ∧
    ((UInt8.ofNat (prefixOf l) ||| UInt8.ofNat q) &&&
      (if l.val ≥ 7 then 0 else UInt8.ofNat (0xFF >>> (l.val + 1)))).toNat = q ∧
    ((UInt8.ofNat (prefixOf l) ||| UInt8.ofNat q) = 0 ↔ l.val = 0 ∧ q.val = 0) := by
  decide +kernel

/-- Conversely, any byte is a prefix and a quotient, or `0xFF`. -/
theorem byte_table : ∀ b : Fin 256, b.val ≠ 255 →
    ∃ l : Fin 8, ∃ q : Fin 128, q.val < 2 ^ (7 - l.val) ∧
      UInt8.ofNat b = UInt8.ofNat (prefixOf l) ||| UInt8.ofNat q := by
  decide +kernel

theorem leadingOnes_ff : leadingOnes 0xFF = 8 := by decide

theorem byte_cases (b : UInt8) : b = 0xFF ∨
    ∃ l q : Nat, l < 8 ∧ q < 2 ^ (7 - l) ∧ b = UInt8.ofNat (prefixOf l) ||| UInt8.ofNat q := by
  by_cases h : b.toNat = 255
  · left; exact UInt8.toNat_inj.mp (by simpa using h)
  · right
    obtain ⟨l, q, hq, he⟩ := byte_table ⟨b.toNat, b.toNat_lt⟩ h
    refine ⟨l, q, l.2, hq, ?_⟩
    rw [← he]; simp

theorem first_lt {l q : Nat} (h : q < 2 ^ (7 - l)) : q < 128 :=
  Nat.lt_of_lt_of_le h (Nat.le_trans (Nat.pow_le_pow_right (by omega) (show 7 - l ≤ 7 by omega)) (by decide))

/-- The decoder on a first byte made of prefix `l` and quotient `q`. -/
theorem intDecode_class (w l q : Nat) (bs rest : List UInt8) (hl : l < 8)
    (hq : q < 2 ^ (7 - l)) (hb : bs.length = l) :
    intDecode w ((UInt8.ofNat (prefixOf l) ||| UInt8.ofNat q) :: (bs ++ rest)) =
      tryFrom w (leVal bs + 2 ^ (8 * l) * q) rest := by
  have hq' := first_lt hq
  obtain ⟨h1, h2, h3⟩ := firstByte_table ⟨l, hl⟩ ⟨q, hq'⟩ hq
  simp only at h1 h2 h3
  have hlv := leVal_lt bs
  rw [hb] at hlv
  simp only [intDecode, readByte_bind_cons]
  by_cases hz : (UInt8.ofNat (prefixOf l) ||| UInt8.ofNat q) = 0
  · obtain ⟨rfl, rfl⟩ := h3.mp hz
    have : bs = [] := List.length_eq_zero_iff.mp hb
    subst this
    rw [if_pos hz]; simp [leVal]
  · rw [if_neg hz, h1, if_neg (by omega), bind_ok (fixedDecode64 bs rest l hb (by omega))]
    simp only [h2]
    rw [Nat.or_comm, or_shiftLeft _ _ _ hlv]

/-- The decoder on the `0xFF` first byte. -/
theorem intDecode_ff (w : Nat) (bs rest : List UInt8) (hb : bs.length = 8) :
    intDecode w (0xFF :: (bs ++ rest)) = tryFrom w (leVal bs) rest := by
  simp only [intDecode, readByte_bind_cons, show ((0xFF : UInt8) = 0) = False by decide, if_false,
    leadingOnes_ff, if_true, bind_ok (fixedDecode64 bs rest 8 hb (by omega))]

/-- Shape of the encoder in the class `2^(7l) ≤ x < 2^(7(l+1))`. -/
theorem log2_class {x : Nat} (h0 : x ≠ 0) (h : x < 2 ^ 56) :
    x.log2 / 7 < 8 ∧ 2 ^ (7 * (x.log2 / 7)) ≤ x ∧ x < 2 ^ (7 * (x.log2 / 7 + 1)) := by
  have h1 : x.log2 < 56 := (Nat.log2_lt h0).mpr h
  have h2 := Nat.log2_self_le h0
  have h3 : x < 2 ^ (x.log2 + 1) := Nat.lt_log2_self
  refine ⟨by omega, ?_, ?_⟩
  · exact Nat.le_trans (Nat.pow_le_pow_right (by omega) (by omega)) h2
  · exact Nat.lt_of_lt_of_le h3 (Nat.pow_le_pow_right (by omega) (by omega))

theorem quotient_lt {x l : Nat} (hl : l < 8) (h : x < 2 ^ (7 * (l + 1))) :
    x / 2 ^ (8 * l) < 2 ^ (7 - l) := by
  rw [Nat.div_lt_iff_lt_mul (Nat.two_pow_pos _), ← Nat.pow_add]
  rwa [show 7 - l + 8 * l = 7 * (l + 1) by omega]

theorem intEncode_mid {x : Nat} (h0 : x ≠ 0) (h : x < 2 ^ 56) :
    intEncode x = (UInt8.ofNat (prefixOf (x.log2 / 7)) |||
      UInt8.ofNat (x / 2 ^ (8 * (x.log2 / 7)))) ::
      leBytes (x.log2 / 7) (x % 2 ^ (8 * (x.log2 / 7))) := by
  simp only [intEncode, if_neg h0, prefixOf, Nat.shiftLeft_eq, Nat.one_mul, if_pos h]

theorem intEncode_big {x : Nat} (h : 2 ^ 56 ≤ x) : intEncode x = 0xFF :: leBytes 8 x := by
  have h0 : x ≠ 0 := by omega
  have h' : ¬ x < 1 <<< 56 := by simpa [Nat.shiftLeft_eq] using h
  simp only [intEncode, if_neg h0, if_neg h']

theorem intDecode_intEncode (w x : Nat) (rest : List UInt8) (h64 : x < 2 ^ 64) (hw : x < 2 ^ w) :
    intDecode w (intEncode x ++ rest) = .ok (x, rest) := by
  by_cases h0 : x = 0
  · subst h0
    simp [intEncode, intDecode, tryFrom, Nat.two_pow_pos]
  by_cases h56 : x < 2 ^ 56
  · obtain ⟨hl, h1, h2⟩ := log2_class h0 h56
    rw [intEncode_mid h0 h56, List.cons_append,
      intDecode_class w _ _ _ rest hl (quotient_lt hl h2) (leBytes_length _ _), leVal_leBytes,
      Nat.mod_mod, Nat.mod_add_div]
    simp [tryFrom, hw]
  · rw [intEncode_big (by omega), List.cons_append, intDecode_ff w _ rest (leBytes_length _ _),
      leVal_leBytes, Nat.mod_eq_of_lt (by simpa using h64)]
    simp [tryFrom, hw]

theorem intEncode_length (x : Nat) : (intEncode x).length = intSizeHint x := by
  unfold intSizeHint intEncode
  split
  · rfl
  · split <;> simp [leBytes_length]

theorem intSizeHint_bounds {x : Nat} : 1 ≤ intSizeHint x ∧ intSizeHint x ≤ 9 := by
  unfold intSizeHint
  split
  · omega
  · split
    · rename_i h0 h
      have := (log2_class h0 (by simpa [Nat.shiftLeft_eq] using h)).1
      omega
    · omega

/-- Every accepted input is a class byte and `l` bytes, or `0xFF` and 8 bytes. -/
theorem intDecode_shape {w inp x r} (h : intDecode w inp = .ok (x, r)) : x < 2 ^ w ∧
    ((∃ l q bs, l < 8 ∧ q < 2 ^ (7 - l) ∧ bs.length = l ∧ x = leVal bs + 2 ^ (8 * l) * q ∧
      inp = (UInt8.ofNat (prefixOf l) ||| UInt8.ofNat q) :: (bs ++ r)) ∨
    (∃ bs, bs.length = 8 ∧ x = leVal bs ∧ inp = 0xFF :: (bs ++ r))) := by
  have htf : ∀ {v rr}, tryFrom w v rr = .ok (x, r) → x < 2 ^ w ∧ x = v ∧ rr = r := by
    intro v rr hh
    unfold tryFrom at hh
    split at hh <;> simp at hh
    obtain ⟨rfl, rfl⟩ := hh
    exact ⟨by assumption, rfl, rfl⟩
  cases inp with
  | nil => simp [intDecode] at h
  | cons b inp =>
    rcases byte_cases b with rfl | ⟨l, q, hl, hq, rfl⟩
    · by_cases hlen : inp.length < 8
      · have he : fixedDecode 64 8 inp = .error .input := by
          simp only [fixedDecode, show ¬ (8 > 64 / 8) by omega, if_false]
          exact bind_error (readLE_short hlen)
        simp [intDecode, leadingOnes_ff, bind_error he] at h
      · have hsplit : inp = inp.take 8 ++ inp.drop 8 := (List.take_append_drop 8 inp).symm
        have htl : (inp.take 8).length = 8 := by simp; omega
        rw [hsplit, intDecode_ff w _ _ htl] at h
        obtain ⟨h1, h2, h3⟩ := htf h
        exact ⟨h1, .inr ⟨inp.take 8, htl, h2, by rw [← h3, ← hsplit]⟩⟩
    · by_cases hlen : inp.length < l
      · obtain ⟨h1, h2, h3⟩ := firstByte_table ⟨l, hl⟩ ⟨q, first_lt hq⟩ hq
        simp only at h1 h2 h3
        exfalso
        simp only [intDecode, readByte_bind_cons] at h
        by_cases hz : (UInt8.ofNat (prefixOf l) ||| UInt8.ofNat q) = 0
        · have := (h3.mp hz).1; omega
        · rw [if_neg hz, h1, if_neg (by omega)] at h
          have he : fixedDecode 64 l inp = .error .input := by
            simp only [fixedDecode, show ¬ (l > 64 / 8) by omega, if_false]
            exact bind_error (readLE_short hlen)
          simp [bind_error he] at h
      · have hsplit : inp = inp.take l ++ inp.drop l := (List.take_append_drop l inp).symm
        have htl : (inp.take l).length = l := by simp; omega
        rw [hsplit, intDecode_class w l q _ _ hl hq htl] at h
        obtain ⟨h1, h2, h3⟩ := htf h
        exact ⟨h1, .inl ⟨l, q, inp.take l, hl, hq, htl, h2, by rw [← h3, ← hsplit]⟩⟩

end Fastroll.Codec
