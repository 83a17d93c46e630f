import Verif.HexText.Model
import Verif.HexText.Spec

/-!
# Lemmas about hexadecimal text
-/

namespace Fastroll.HexText

open Spec

/-- A statement about all octets follows from its 256 instances. -/
theorem all_octets {P : UInt8 → Prop} (h : ∀ n : Fin 256, P (UInt8.ofNat n)) (c : UInt8) : P c := by
  have := h ⟨c.toNat, c.toNat_lt⟩
  simpa using this

instance (c : UInt8) (d : Nat) : Decidable (Spells c d) := by
  unfold Spells; infer_instance

theorem spells_lt {c : UInt8} {d : Nat} (h : Spells c d) : d < 16 := by
  rcases h with h | h
  · have := (List.getElem?_eq_some_iff.mp h).1; simpa [lowerDigits] using this
  · have := (List.getElem?_eq_some_iff.mp h).1; simpa [upperDigits] using this

theorem val_spells (c x : UInt8) : val c = some x → Spells c x.toNat := by
  have h : ∀ n : Fin 256, ∀ y, val (UInt8.ofNat n) = some y → Spells (UInt8.ofNat n) y.toNat := by
    have : ∀ n : Fin 256, ∀ y ∈ val (UInt8.ofNat n), Spells (UInt8.ofNat n) y.toNat := by
      decide +kernel
    intro n y hy
    exact this n y hy
  exact all_octets (P := fun c => ∀ y, val c = some y → Spells c y.toNat) h c x

theorem spells_val {c : UInt8} {d : Nat} (h : Spells c d) : val c = some (UInt8.ofNat d) := by
  have key : ∀ e : Fin 16, val (lowerDigits[e.val]'(e.isLt)) = some (UInt8.ofNat e)
      ∧ val (upperDigits[e.val]'(e.isLt)) = some (UInt8.ofNat e) := by decide
  have hd := spells_lt h
  rcases h with h | h
  · obtain ⟨_, rfl⟩ := List.getElem?_eq_some_iff.mp h
    exact (key ⟨d, hd⟩).1
  · obtain ⟨_, rfl⟩ := List.getElem?_eq_some_iff.mp h
    exact (key ⟨d, hd⟩).2

theorem val_lt {c x : UInt8} (h : val c = some x) : x.toNat < 16 := spells_lt (val_spells c x h)

theorem ofNat_toNat_lt {d : Nat} (h : d < 16) : (UInt8.ofNat d).toNat = d := by
  rw [UInt8.toNat_ofNat']
  omega

theorem join_halves (x y : UInt8) (hx : x.toNat < 16) (hy : y.toNat < 16) :
    ((x <<< 4) ||| y).toNat = 16 * x.toNat + y.toNat := by
  have key : ∀ a b : Fin 16, ((UInt8.ofNat a <<< 4) ||| UInt8.ofNat b).toNat = 16 * a.val + b.val := by
    decide +kernel
  have := key ⟨x.toNat, hx⟩ ⟨y.toNat, hy⟩
  simpa using this

theorem digit_spells (b : UInt8) :
    Spells (digit (b >>> 4)) (b.toNat / 16) ∧ Spells (digit (b &&& 15)) (b.toNat % 16) := by
  apply all_octets (P := fun b => Spells (digit (b >>> 4)) (b.toNat / 16)
    ∧ Spells (digit (b &&& 15)) (b.toNat % 16))
  decide +kernel

/-- Digits written by the encoder are the small ones. -/
theorem digit_lower (b : UInt8) :
    lowerDigits[b.toNat / 16]? = some (digit (b >>> 4))
      ∧ lowerDigits[b.toNat % 16]? = some (digit (b &&& 15)) := by
  apply all_octets (P := fun b => lowerDigits[b.toNat / 16]? = some (digit (b >>> 4))
    ∧ lowerDigits[b.toNat % 16]? = some (digit (b &&& 15)))
  decide +kernel

theorem pairs_nil : Pairs [] [] := Row.nil

theorem pairs_cons_iff {t : List UInt8} {b : UInt8} {bs : List UInt8} :
    Pairs t (b :: bs) ↔ ∃ c d t', t = c :: d :: t' ∧ Spells c (b.toNat / 16)
      ∧ Spells d (b.toNat % 16) ∧ Pairs t' bs := by
  unfold Pairs
  simp only [List.flatMap_cons, List.cons_append, List.nil_append]
  constructor
  · intro h
    cases h with
    | cons h1 h2 =>
      cases h2 with
      | cons h2 h3 => exact ⟨_, _, _, rfl, h1, h2, h3⟩
  · rintro ⟨c, d, t', rfl, h1, h2, h3⟩
    exact Row.cons h1 (Row.cons h2 h3)

theorem decode_pairs : ∀ (t bs : List UInt8), decode t = some bs → Pairs t bs
  | [], bs, h => by
    simp only [decode, Option.some.injEq] at h; subst h; exact pairs_nil
  | [_], _, h => by simp [decode] at h
  | c :: d :: t, bs, h => by
    simp only [decode] at h
    split at h
    · next x y r hx hy hr =>
      have := Option.some.inj h
      subst this
      have lx := val_lt hx
      have ly := val_lt hy
      have hj := join_halves x y lx ly
      rw [pairs_cons_iff]
      refine ⟨c, d, t, rfl, ?_, ?_, decode_pairs t r hr⟩
      · have : ((x <<< 4) ||| y).toNat / 16 = x.toNat := by omega
        rw [this]; exact val_spells _ _ hx
      · have : ((x <<< 4) ||| y).toNat % 16 = y.toNat := by omega
        rw [this]; exact val_spells _ _ hy
    · cases h

theorem pairs_decode : ∀ (bs t : List UInt8), Pairs t bs → decode t = some bs
  | [], t, h => by
    unfold Pairs at h; cases h; rfl
  | b :: bs, t, h => by
    obtain ⟨c, d, t', rfl, h1, h2, h3⟩ := pairs_cons_iff.mp h
    simp only [decode, spells_val h1, spells_val h2, pairs_decode bs t' h3, Option.some.injEq,
      List.cons.injEq, and_true]
    have e1 := ofNat_toNat_lt (spells_lt h1)
    have e2 := ofNat_toNat_lt (spells_lt h2)
    apply UInt8.toNat_inj.mp
    rw [join_halves _ _ (by have := spells_lt h1; omega) (by have := spells_lt h2; omega), e1, e2]
    omega

theorem decode_iff (t bs : List UInt8) : decode t = some bs ↔ Pairs t bs :=
  ⟨decode_pairs t bs, pairs_decode bs t⟩

theorem encode_pairs : ∀ bs : List UInt8, Pairs (encode bs) bs
  | [] => pairs_nil
  | b :: bs => pairs_cons_iff.mpr ⟨_, _, _, rfl, (digit_spells b).1, (digit_spells b).2,
      encode_pairs bs⟩

theorem encode_length (bs : List UInt8) : (encode bs).length = 2 * bs.length := by
  induction bs with
  | nil => rfl
  | cons b bs ih => simp only [encode, List.length_cons, ih]; omega

theorem row_length {t : List UInt8} {ds : List Nat} (h : Row t ds) : t.length = ds.length := by
  induction h with
  | nil => rfl
  | cons _ _ ih => simp [ih]

theorem spells_unique {c : UInt8} {d e : Nat} (h : Spells c d) (h' : Spells c e) : d = e := by
  have := (spells_val h).symm.trans (spells_val h')
  have := congrArg UInt8.toNat (Option.some.inj this)
  rw [ofNat_toNat_lt (spells_lt h), ofNat_toNat_lt (spells_lt h')] at this
  exact this

theorem row_unique {t : List UInt8} {ds es : List Nat} (h : Row t ds) (h' : Row t es) : ds = es := by
  induction h generalizing es with
  | nil => cases h'; rfl
  | cons a _ ih =>
    cases h' with
    | cons b r => rw [spells_unique a b, ih r]

/-- No row of digits begins with `0x`. -/
theorem row_strip {s : List UInt8} {ds : List Nat} (h : Row s ds) : strip s = s := by
  cases h with
  | nil => rfl
  | cons h1 h2 =>
    cases h2 with
    | nil => simp [strip]
    | @cons c d t ds' h3 h4 =>
      have hne : c ≠ 120 := by
        intro e; subst e
        have := spells_val h3
        simp [val] at this
      unfold strip
      split
      · next heq => simp only [List.cons.injEq] at heq; exact absurd heq.2.1 hne
      · rfl

theorem prefixed_strip (t : List UInt8) : Prefixed t (strip t) := by
  unfold strip
  split
  · exact Or.inr rfl
  · exact Or.inl rfl

theorem prefixed_row {t s : List UInt8} {ds : List Nat} (hp : Prefixed t s) (h : Row s ds) :
    strip t = s := by
  rcases hp with rfl | rfl
  · exact row_strip h
  · rfl

theorem pairs_length {t bs : List UInt8} (h : Pairs t bs) : t.length = 2 * bs.length := by
  have := row_length h
  rw [this]
  clear this h
  induction bs with
  | nil => rfl
  | cons b bs ih =>
    simp only [List.flatMap_cons, List.cons_append, List.nil_append, List.length_cons, ih]; omega

theorem foldl_number (b : Nat) (ds : List Nat) : ∀ a,
    ds.foldl (fun a d => a * b + d) a = a * b ^ ds.length + number b ds := by
  unfold number
  induction ds with
  | nil => intro a; simp
  | cons d ds ih =>
    intro a
    simp only [List.foldl_cons, List.length_cons]
    rw [ih (a * b + d), ih (0 * b + d)]
    rw [Nat.pow_succ, Nat.add_mul, Nat.zero_mul, Nat.zero_add, Nat.mul_assoc, Nat.mul_comm b,
      Nat.add_assoc]

theorem number_cons (b d : Nat) (ds : List Nat) :
    number b (d :: ds) = d * b ^ ds.length + number b ds := by
  have := foldl_number b ds d
  unfold number at *
  simpa using this

theorem number_zeros (b k : Nat) (ds : List Nat) :
    number b (List.replicate k 0 ++ ds) = number b ds := by
  induction k with
  | zero => simp
  | succ k ih => rw [List.replicate_succ, List.cons_append, number_cons, ih]; simp

/-- Two halves for every octet denote the same number as the octets. -/
theorem number_halves (bs : List UInt8) :
    number 16 (bs.flatMap (fun b => [b.toNat / 16, b.toNat % 16])) = octetNumber bs := by
  unfold octetNumber
  induction bs with
  | nil => rfl
  | cons b bs ih =>
    have hl : (bs.flatMap (fun b => [b.toNat / 16, b.toNat % 16])).length = 2 * bs.length := by
      clear ih
      induction bs with
      | nil => rfl
      | cons b bs ih =>
        simp only [List.flatMap_cons, List.cons_append, List.nil_append, List.length_cons, ih]
        omega
    simp only [List.flatMap_cons, List.cons_append, List.nil_append, List.map_cons]
    rw [number_cons, number_cons, number_cons, ih, List.length_cons, hl, List.length_map]
    have h256 : (256 : Nat) ^ bs.length = 16 ^ (2 * bs.length) := by
      rw [Nat.pow_mul]
    rw [h256, Nat.pow_succ, ← Nat.add_assoc]
    congr 1
    generalize 16 ^ (2 * bs.length) = p
    have hb : b.toNat = 16 * (b.toNat / 16) + b.toNat % 16 := by omega
    generalize b.toNat / 16 = u at *
    generalize b.toNat % 16 = v at *
    rw [hb, Nat.add_mul, Nat.mul_comm p 16, ← Nat.mul_assoc, Nat.mul_comm u 16]

theorem number_lt (b : Nat) (ds : List Nat) (h : ∀ d ∈ ds, d < b) : number b ds < b ^ ds.length := by
  induction ds with
  | nil => simp [number]
  | cons d ds ih =>
    rw [number_cons, List.length_cons, Nat.pow_succ]
    have h1 := ih (fun e he => h e (List.mem_cons_of_mem _ he))
    have h2 := h d List.mem_cons_self
    have h3 : (d + 1) * b ^ ds.length ≤ b * b ^ ds.length := Nat.mul_le_mul_right _ h2
    rw [Nat.add_mul, Nat.one_mul] at h3
    rw [Nat.mul_comm _ b]
    omega

/-- Rows of digits of the same length are determined by their number. -/
theorem number_inj (b : Nat) : ∀ (ds es : List Nat), ds.length = es.length →
    (∀ d ∈ ds, d < b) → (∀ d ∈ es, d < b) → number b ds = number b es → ds = es
  | [], [], _, _, _, _ => rfl
  | [], _ :: _, h, _, _, _ => by simp at h
  | _ :: _, [], h, _, _, _ => by simp at h
  | d :: ds, e :: es, hl, hd, he, hn => by
    have hl' : ds.length = es.length := by simpa using hl
    have hd' : ∀ x ∈ ds, x < b := fun x hx => hd x (List.mem_cons_of_mem _ hx)
    have he' : ∀ x ∈ es, x < b := fun x hx => he x (List.mem_cons_of_mem _ hx)
    rw [number_cons, number_cons, hl'] at hn
    have l1 := number_lt b ds hd'
    have l2 := number_lt b es he'
    rw [hl'] at l1
    have hp : 0 < b ^ es.length := Nat.lt_of_le_of_lt (Nat.zero_le _) l1
    have q1 : (d * b ^ es.length + number b ds) / b ^ es.length = d := by
      rw [Nat.add_comm, Nat.add_mul_div_right _ _ hp, Nat.div_eq_of_lt l1, Nat.zero_add]
    have q2 : (e * b ^ es.length + number b es) / b ^ es.length = e := by
      rw [Nat.add_comm, Nat.add_mul_div_right _ _ hp, Nat.div_eq_of_lt l2, Nat.zero_add]
    have hde : d = e := by rw [← q1, hn, q2]
    subst hde
    rw [number_inj b ds es hl' hd' he' (by omega)]

theorem octetNumber_inj {bs cs : List UInt8} (hl : bs.length = cs.length)
    (h : octetNumber bs = octetNumber cs) : bs = cs := by
  have hlt : ∀ l : List UInt8, ∀ d ∈ l.map UInt8.toNat, d < 256 := by
    intro l d hd
    obtain ⟨x, _, rfl⟩ := List.mem_map.mp hd
    exact x.toNat_lt
  have := number_inj 256 _ _ (by simp [hl]) (hlt bs) (hlt cs) h
  exact List.map_inj_right (fun _ _ h => UInt8.toNat_inj.mp h) |>.mp this

/-- Every row of an even number of digits is two digits each for some octets. -/
theorem row_pairs : ∀ (n : Nat) (t : List UInt8) (ds : List Nat), Row t ds → t.length = 2 * n →
    ∃ bs, Pairs t bs ∧ bs.length = n
  | 0, t, ds, h, hl => by
    have : t = [] := List.eq_nil_of_length_eq_zero (by omega)
    subst this
    exact ⟨[], pairs_nil, rfl⟩
  | n + 1, t, ds, h, hl => by
    cases h with
    | nil => simp at hl; 
    | @cons c d t ds h1 h2 =>
      cases h2 with
      | nil => simp at hl; omega
      | @cons c' d' t ds h2 h3 =>
        obtain ⟨bs, hp, hb⟩ := row_pairs n t ds h3 (by simp at hl; omega)
        have l1 := spells_lt h1
        have l2 := spells_lt h2
        have e : (UInt8.ofNat (16 * d + d')).toNat = 16 * d + d' := by
          rw [UInt8.toNat_ofNat']; omega
        refine ⟨UInt8.ofNat (16 * d + d') :: bs, pairs_cons_iff.mpr ⟨c, c', t, rfl, ?_, ?_, hp⟩, by simp [hb]⟩
        · rw [e]; rwa [show (16 * d + d') / 16 = d by omega]
        · rw [e]; rwa [show (16 * d + d') % 16 = d' by omega]

theorem row_append_inv : ∀ (z s : List UInt8) (ds : List Nat), Row (z ++ s) ds → ∃ es, Row s es
  | [], s, ds, h => ⟨ds, h⟩
  | _ :: z, s, _, h => by
    cases h with
    | cons _ h => exact row_append_inv z s _ h

theorem row_zeros (k : Nat) {s : List UInt8} {ds : List Nat} (h : Row s ds) :
    Row (List.replicate k 48 ++ s) (List.replicate k 0 ++ ds) := by
  induction k with
  | zero => exact h
  | succ k ih => exact Row.cons (Or.inl rfl) ih

/-- Digits are one byte each: counting characters and counting bytes agree. -/
theorem row_chars {s : List UInt8} {ds : List Nat} (h : Row s ds) : chars s = s.length := by
  unfold chars
  rw [List.filter_eq_self.mpr]
  intro b hb
  induction h with
  | nil => cases hb
  | @cons c d t ds h1 _ ih =>
    rcases List.mem_cons.mp hb with rfl | hb
    · have := spells_val h1
      have key : ∀ b : UInt8, (∃ x, val b = some x) → ¬ (128 ≤ b ∧ b < 192) := by
        apply all_octets (P := fun b => (∃ x, val b = some x) → ¬ (128 ≤ b ∧ b < 192))
        have : ∀ n : Fin 256, (val (UInt8.ofNat n)).isSome = true →
            ¬ (128 ≤ UInt8.ofNat n ∧ UInt8.ofNat n < 192) := by decide +kernel
        rintro n ⟨x, hx⟩
        exact this n (by rw [hx]; rfl)
      exact decide_eq_true (key b ⟨_, this⟩)
    · exact ih hb

end Fastroll.HexText
