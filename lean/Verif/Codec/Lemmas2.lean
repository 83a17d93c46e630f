import Verif.Codec.Lemmas
import Verif.Codec.Spec
/-! Helper lemmas for composite codecs. -/
namespace Fastroll.Codec

theorem seq_roundTrips {α : Type} {e : Enc α} {d : Dec α} {P : α → Prop}
    (h : RoundTrips e d P) : ∀ as : List α, (∀ a ∈ as, P a) →
    ∃ bs, seqEnc e as = .ok bs ∧ ∀ rest, seqDec d as.length (bs ++ rest) = .ok (as, rest) := by
  intro as
  induction as with
  | nil => intro _; exact ⟨[], rfl, fun rest => by simp [seqDec]⟩
  | cons a as ih =>
    intro hP
    obtain ⟨bs, he, hd⟩ := h a (hP a (by simp))
    obtain ⟨cs, hes, hds⟩ := ih (fun x hx => hP x (by simp [hx]))
    refine ⟨bs ++ cs, by simp [seqEnc, he, hes], fun rest => ?_⟩
    rw [List.append_assoc, List.length_cons, seqDec, bind_ok (hd _), bind_ok (hds _)]; rfl

theorem mapInsert_last {κ ν : Type} {lt : κ → κ → Bool}
    (hasym : ∀ a b, lt a b = true → lt b a = false) (k : κ) (v : ν) (m : List (κ × ν))
    (h : ∀ p ∈ m, lt p.1 k = true) : mapInsert lt k v m = m ++ [(k, v)] := by
  induction m with
  | nil => rfl
  | cons p m ih =>
    obtain ⟨k', v'⟩ := p
    have h1 : lt k' k = true := h (k', v') (by simp)
    have h2 := hasym _ _ h1
    simp [mapInsert, h1, h2, ih (fun p hp => h p (by simp [hp]))]

theorem mapLoop_roundTrips {κ ν : Type} {lt : κ → κ → Bool}
    (hasym : ∀ a b, lt a b = true → lt b a = false)
    {ek : Enc κ} {dk : Dec κ} {ev : Enc ν} {dv : Dec ν} {P : κ × ν → Prop}
    (h : RoundTrips (pairEnc ek ev) (pairDec dk dv) P) :
    ∀ (m acc : List (κ × ν)), (∀ p ∈ m, P p) →
      (acc ++ m).Pairwise (fun p q => lt p.1 q.1 = true) →
    ∃ bs, seqEnc (pairEnc ek ev) m = .ok bs ∧
      ∀ rest, mapDecLoop lt dk dv m.length acc (bs ++ rest) = .ok (acc ++ m, rest) := by
  intro m
  induction m with
  | nil => intro acc _ _; exact ⟨[], rfl, fun rest => by simp [mapDecLoop]⟩
  | cons p m ih =>
    intro acc hP hs
    obtain ⟨bs, he, hd⟩ := h p (hP p (by simp))
    obtain ⟨cs, hes, hds⟩ := ih (acc ++ [p]) (fun x hx => hP x (by simp [hx])) (by simpa using hs)
    refine ⟨bs ++ cs, by simp [seqEnc, he, hes], fun rest => ?_⟩
    have hlast : mapInsert lt p.1 p.2 acc = acc ++ [p] := by
      apply mapInsert_last hasym
      intro q hq
      have := List.pairwise_append.mp hs
      exact this.2.2 q hq p (by simp)
    rw [List.append_assoc, List.length_cons, mapDecLoop, bind_ok (hd _), hlast, hds]
    simp

/-! ### Bit sequences -/

/-- The 8 bits of a byte, least significant first. -/
def byteBits (b : UInt8) : List Bool := (List.range 8).map (fun i => b &&& UInt8.ofNat (1 <<< i) != 0)

theorem pushBits_eq (size : Nat) (b : UInt8) (acc : List Bool) :
    pushBits size b acc = acc ++ (byteBits b).take (size - acc.length) := by
  have key : ∀ (l : List Nat) (acc : List Bool),
      l.foldl (fun bv i => if bv.length < size then bv ++ [b &&& UInt8.ofNat (1 <<< i) != 0] else bv) acc
      = acc ++ (l.map (fun i => b &&& UInt8.ofNat (1 <<< i) != 0)).take (size - acc.length) := by
    intro l
    induction l with
    | nil => intro acc; simp
    | cons i l ih =>
      intro acc
      rw [List.foldl_cons, ih]
      by_cases h : acc.length < size
      · obtain ⟨k, hk⟩ : ∃ k, size - acc.length = k + 1 := ⟨size - acc.length - 1, by omega⟩
        have hk2 : size - (acc.length + 1) = k := by omega
        simp [h, hk, hk2]
      · simp [h, show size - acc.length = 0 by omega]
  exact key _ _

/-- Or-ing bit `cnt` for each `true`. -/
def packByte : List Bool → UInt8 → Nat → UInt8
  | [], cur, _ => cur
  | b :: bs, cur, cnt => packByte bs (if b then cur ||| UInt8.ofNat (1 <<< cnt) else cur) (cnt + 1)

theorem packLoop_full (c : List Bool) : ∀ (bs : List Bool) (cur : UInt8) (cnt : Nat), c ≠ [] →
    cnt + c.length = 8 → packLoop (c ++ bs) cur cnt = packByte c cur cnt :: packLoop bs 0 0 := by
  induction c with
  | nil => intro _ _ _ h; exact absurd rfl h
  | cons b c ih =>
    intro bs cur cnt _ hl
    simp only [List.length_cons] at hl
    simp only [List.cons_append, packLoop, packByte]
    by_cases h8 : cnt + 1 = 8
    · have : c = [] := List.length_eq_zero_iff.mp (by omega)
      subst this
      simp [h8, packByte]
    · rw [if_neg h8, ih]
      · intro hc; subst hc; simp at hl; omega
      · omega

theorem packLoop_part (c : List Bool) : ∀ (cur : UInt8) (cnt : Nat), 0 < cnt + c.length →
    cnt + c.length < 8 → packLoop c cur cnt = [packByte c cur cnt] := by
  induction c with
  | nil => intro cur cnt h _; simp at h; simp [packLoop, packByte, h]
  | cons b c ih =>
    intro cur cnt h h8
    simp only [List.length_cons] at h h8
    simp only [packLoop, packByte]
    rw [if_neg (by omega), ih] <;> omega

theorem byteBits_packByte_table : ∀ n : Fin 9, ∀ v : Fin 256,
    let c := ((List.range n).map (fun i => v.val.testBit i))
    (byteBits (packByte c 0 0)).take n = c := by decide +kernel

/-- Number whose low bits are the list. -/
def bitsVal : List Bool → Nat
  | [] => 0
  | b :: bs => (if b then 1 else 0) + 2 * bitsVal bs

theorem bitsVal_lt (bs : List Bool) : bitsVal bs < 2 ^ bs.length := by
  induction bs with
  | nil => simp [bitsVal]
  | cons b bs ih =>
    simp only [bitsVal, List.length_cons, Nat.pow_succ]
    split <;> omega

theorem range_map_testBit (bs : List Bool) :
    (List.range bs.length).map (fun i => (bitsVal bs).testBit i) = bs := by
  induction bs with
  | nil => rfl
  | cons b bs ih =>
    rw [List.length_cons, List.range_succ_eq_map, List.map_cons, List.map_map]
    congr 1
    · cases b <;> simp [bitsVal]
    · conv => rhs; rw [← ih]
      apply List.map_congr_left
      intro i hi
      simp only [Function.comp, bitsVal]
      rw [Nat.testBit_succ]
      have : ((if b = true then 1 else 0) + 2 * bitsVal bs) / 2 = bitsVal bs := by
        split <;> omega
      rw [this]

theorem byteBits_packByte (c : List Bool) (h : c.length ≤ 8) :
    (byteBits (packByte c 0 0)).take c.length = c := by
  have hv : bitsVal c < 256 := Nat.lt_of_lt_of_le (bitsVal_lt c)
    (Nat.le_trans (Nat.pow_le_pow_right (by omega) h) (by decide))
  have := byteBits_packByte_table ⟨c.length, by omega⟩ ⟨bitsVal c, hv⟩
  simp only [range_map_testBit] at this
  exact this

theorem bits_roundTrip (k : Nat) : ∀ (bs acc : List Bool) (rest : List UInt8),
    bs.length ≤ 8 * k →
    unpackLoop (acc.length + bs.length) ((bs.length + 7) / 8) acc (packLoop bs 0 0 ++ rest)
      = .ok (acc ++ bs, rest) := by
  induction k with
  | zero =>
    intro bs acc rest h
    have : bs = [] := List.length_eq_zero_iff.mp (by omega)
    subst this
    simp [unpackLoop, packLoop]
  | succ k ih =>
    intro bs acc rest h
    by_cases h0 : bs.length = 0
    · have : bs = [] := List.length_eq_zero_iff.mp h0
      subst this
      simp [unpackLoop, packLoop]
    by_cases h8 : bs.length < 8
    · rw [packLoop_part bs 0 0 (by omega) (by omega), show (bs.length + 7) / 8 = 1 by omega]
      simp only [unpackLoop, List.cons_append, List.nil_append, readByte_bind_cons, pushBits_eq, pure_apply]
      rw [show acc.length + bs.length - acc.length = bs.length by omega,
        byteBits_packByte bs (by omega)]
    · have hsplit : bs = bs.take 8 ++ bs.drop 8 := (List.take_append_drop 8 bs).symm
      have htl : (bs.take 8).length = 8 := by simp; omega
      generalize hc : bs.take 8 = c at *
      generalize hd : bs.drop 8 = d at *
      subst hsplit
      rw [packLoop_full c d 0 0 (by intro hh; simp [hh] at htl) (by omega)]
      have hlen : (c ++ d).length = 8 + d.length := by simp [htl]
      rw [hlen, show (8 + d.length + 7) / 8 = (d.length + 7) / 8 + 1 by omega]
      simp only [unpackLoop, List.cons_append, readByte_bind_cons, pushBits_eq]
      have hb := byteBits_packByte c (by omega)
      rw [htl] at hb
      have hbl : (byteBits (packByte c 0 0)).length = 8 := by simp [byteBits]
      rw [List.take_of_length_le (by omega)] at hb
      rw [hb, List.take_of_length_le (by omega)]
      have := ih d (acc ++ c) rest (by rw [hlen] at h; omega)
      rw [List.length_append, htl, Nat.add_assoc] at this
      rw [this, List.append_assoc]

end Fastroll.Codec
