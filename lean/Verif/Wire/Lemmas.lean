import Verif.Wire.Spec
import Verif.Codec.Props
/-! Codec lemmas by combinator, against the byte layouts of the specification. -/
namespace Fastroll.Wire
open Fastroll.Codec
open Spec (Codes)

theorem nat_paper {x : Nat} (hx : x < 2 ^ 64) : PaperInt x (Spec.nat x) := by
  by_cases h0 : x = 0
  · subst h0
    have : Spec.nat 0 = [0] := by decide
    rw [this]; exact .zero
  · unfold Spec.nat
    have key : Spec.natClass x = 8 ∧ 2 ^ 56 ≤ x ∨ Spec.natClass x < 8 ∧
        2 ^ (7 * Spec.natClass x) ≤ x ∧ x < 2 ^ (7 * (Spec.natClass x + 1)) := by
      unfold Spec.natClass
      repeat' split
      all_goals first | (left; refine ⟨rfl, ?_⟩; omega) | (right; refine ⟨?_, ?_, ?_⟩ <;> (try simp) <;> omega)
    rcases key with ⟨h8, hb⟩ | ⟨hl, h1, h2⟩
    · rw [if_pos h8]; exact .big x hb hx
    · rw [if_neg (by omega)]; exact .mid x _ hl h1 h2

theorem intEncode_nat {x : Nat} (hx : x < 2 ^ 64) : intEncode x = Spec.nat x :=
  ((C01_int_paper x hx _).mp (nat_paper hx)).symm

theorem nat_codes (w : Nat) (hw : w ≤ 64) : Codes natEnc (intDecode w) (fun x => x < 2 ^ w) Spec.nat := by
  intro x hx
  have h64 : x < 2 ^ 64 := Nat.lt_of_lt_of_le hx (Nat.pow_le_pow_right (by omega) hw)
  refine ⟨by simp [natEnc, h64, intEncode_nat h64], fun rest => ?_⟩
  rw [← intEncode_nat h64]
  exact C01_int_roundtrip w x hw hx rest

theorem fixedDecode_narrow (w n : Nat) (hn : n ≤ w / 8) (hw : w ≤ 64) (x : Nat) (hx : x < 2 ^ w)
    {inp r : List UInt8} (h : fixedDecode 64 n inp = .ok (x, r)) : fixedDecode w n inp = .ok (x, r) := by
  unfold fixedDecode at h ⊢
  rw [if_neg (by omega)] at h ⊢
  obtain ⟨v, r1, h1, h2⟩ := bind_inv h
  rw [bind_ok h1]
  unfold tryFrom at h2 ⊢
  split at h2
  · simp at h2
    obtain ⟨rfl, rfl⟩ := h2
    rw [if_pos hx]; rfl
  · simp at h2

theorem fixed_codes (w n : Nat) (hn : n ≤ w / 8) (hw : w ≤ 64) :
    Codes (fixedEncode n) (fixedDecode w n) (fun x => x < 2 ^ (8 * n)) (paperFixed n) := by
  intro x hx
  obtain ⟨bs, he, hd⟩ := fixed_roundTrips n x ⟨hx, by omega⟩
  have hp := C03_fixed_paper n x bs he
  subst hp
  refine ⟨he, fun rest => ?_⟩
  have h8 : 8 * n ≤ w := by omega
  exact fixedDecode_narrow w n hn hw x (Nat.lt_of_lt_of_le hx (Nat.pow_le_pow_right (by omega) h8)) (hd rest)

theorem readBytes_append (b rest : Bytes) : readBytes b.length (b ++ rest) = .ok (b, rest) := by
  simp [readBytes]

theorem arr_codes (n : Nat) : Codes arrEnc (arrDec n) (fun b => b.length = n) id := by
  intro b hb
  subst hb
  exact ⟨rfl, fun rest => readBytes_append b rest⟩

theorem cat_ok {a b : Except Err Bytes} {x y : Bytes} (ha : a = .ok x) (hb : b = .ok y) :
    (a +++ b) = .ok (x ++ y) := by
  subst ha hb; rfl

theorem octets_codes : Codes octetsEnc octetsDec (fun b => b.length < 2 ^ 63) Spec.blob := by
  intro b hb
  obtain ⟨he, hd⟩ := nat_codes 64 (by omega) b.length (by omega)
  refine ⟨by simp [octetsEnc, cat, he, Spec.blob], fun rest => ?_⟩
  rw [Spec.blob, List.append_assoc, octetsDec, bind_ok (hd _), bind_ok (reserve_ok (by omega) _), readBytes_append]

theorem bool_codes : Codes boolEnc boolDec (fun _ => True) Spec.bool := by
  intro b _
  cases b <;> exact ⟨rfl, fun rest => rfl⟩

theorem opt_codes {α : Type} {e : Enc α} {d : Dec α} {P : α → Prop} {s : α → Bytes} (h : Codes e d P s) :
    Codes (optEnc e) (optDec d) (fun o => ∀ a, o = some a → P a) (Spec.opt s) := by
  intro o ho
  cases o with
  | none => exact ⟨rfl, fun rest => by simp [optDec, Spec.opt]⟩
  | some a =>
    obtain ⟨he, hd⟩ := h a (ho a rfl)
    have h1 : intEncode 1 = [1] := by decide
    exact ⟨by simp [optEnc, he, h1, Spec.opt], fun rest => by
      simp [optDec, bind_ok (hd rest), Spec.opt]⟩

theorem seq_codes {α : Type} {e : Enc α} {d : Dec α} {P : α → Prop} {s : α → Bytes} (h : Codes e d P s) :
    ∀ as : List α, (∀ a ∈ as, P a) → seqEnc e as = .ok (Spec.seq s as) ∧
      ∀ rest, seqDec d as.length (Spec.seq s as ++ rest) = .ok (as, rest) := by
  intro as
  induction as with
  | nil => intro _; exact ⟨rfl, fun rest => rfl⟩
  | cons a as ih =>
    intro hP
    obtain ⟨he, hd⟩ := h a (hP a (by simp))
    obtain ⟨ie, id⟩ := ih (fun x hx => hP x (by simp [hx]))
    refine ⟨by simp [seqEnc, he, ie, Spec.seq], fun rest => ?_⟩
    have : Spec.seq s (a :: as) = s a ++ Spec.seq s as := rfl
    rw [this, List.append_assoc, List.length_cons, seqDec, bind_ok (hd _), bind_ok (id _)]
    rfl

theorem arrOf_codes {α : Type} {e : Enc α} {d : Dec α} {P : α → Prop} {s : α → Bytes} (n : Nat)
    (h : Codes e d P s) :
    Codes (seqEnc e) (seqDec d n) (fun as => as.length = n ∧ ∀ a ∈ as, P a) (Spec.seq s) := by
  intro as ⟨hn, hP⟩
  subst hn
  exact seq_codes h as hP

theorem vecEnc_ok {α : Type} {e : Enc α} {d : Dec α} {P : α → Prop} {s : α → Bytes} (h : Codes e d P s)
    (as : List α) (hl : as.length < 2 ^ 64) (hP : ∀ a ∈ as, P a) : vecEnc e as = .ok (Spec.var s as) := by
  obtain ⟨he, _⟩ := nat_codes 64 (by omega) as.length hl
  obtain ⟨se, _⟩ := seq_codes h as hP
  simp [vecEnc, he, se, Spec.var]

theorem vec_codes {α : Type} {e : Enc α} {d : Dec α} {P : α → Prop} {s : α → Bytes} (sz : Nat) (hz : 0 < sz)
    (h : Codes e d P s) :
    Codes (vecEnc e) (vecDec sz d) (fun as => Spec.Fits as.length sz ∧ ∀ a ∈ as, P a) (Spec.var s) := by
  intro as ⟨hf, hP⟩
  have hf' : as.length * sz < 2 ^ 63 := hf
  have hl : as.length < 2 ^ 64 := by
    have := Nat.le_mul_of_pos_right as.length hz
    omega
  refine ⟨vecEnc_ok h as hl hP, fun rest => ?_⟩
  obtain ⟨_, hd⟩ := nat_codes 64 (by omega) as.length hl
  obtain ⟨_, sd⟩ := seq_codes h as hP
  rw [Spec.var, List.append_assoc, vecDec, bind_ok (hd _), bind_ok (reserve_ok hf' _), sd]

theorem limited_codes {α : Type} {e : Enc α} {d : Dec α} {P : α → Prop} {s : α → Bytes} (m : Nat)
    (h : Codes e d P s) :
    Codes (vecEnc e) (limitedDec m d) (fun as => as.length ≤ m ∧ as.length < 2 ^ 64 ∧ ∀ a ∈ as, P a)
      (Spec.var s) := by
  intro as ⟨hm, hl, hP⟩
  refine ⟨vecEnc_ok h as hl hP, fun rest => ?_⟩
  obtain ⟨_, hd⟩ := nat_codes 64 (by omega) as.length hl
  obtain ⟨_, sd⟩ := seq_codes h as hP
  rw [Spec.var, List.append_assoc, limitedDec, bind_ok (hd _), if_neg (by omega), bind_ok (sd _), if_pos hm]
  rfl

/-! ### Order, sets and maps -/

theorem bytesLt_asymm : ∀ a b : Bytes, bytesLt a b = true → bytesLt b a = false := by
  intro a
  induction a with
  | nil => intro b h; cases b <;> simp_all [bytesLt]
  | cons x xs ih =>
    intro b h
    cases b with
    | nil => simp [bytesLt] at h
    | cons y ys =>
      simp only [bytesLt] at h ⊢
      by_cases h1 : x < y
      · have h2 : ¬ y < x := by
          rw [UInt8.lt_iff_toNat_lt] at *; omega
        rw [if_neg h2, if_pos h1]
      · rw [if_neg h1] at h
        by_cases h2 : y < x
        · rw [if_pos h2] at h; cases h
        · rw [if_neg h2] at h
          rw [if_neg h2, if_neg h1]; exact ih ys h

theorem setInsert_last {κ : Type} {lt : κ → κ → Bool} (hlt : ∀ a b, lt a b = true → lt b a = false) (k : κ) :
    ∀ m : List κ, (∀ x ∈ m, lt x k = true) → setInsert lt k m = m ++ [k] := by
  intro m
  induction m with
  | nil => intro _; rfl
  | cons x m ih =>
    intro h
    have hx := h x (by simp)
    simp only [setInsert, hlt _ _ hx, hx, if_true, List.cons_append]
    rw [ih (fun y hy => h y (by simp [hy]))]
    simp

theorem setLoop {κ : Type} {lt : κ → κ → Bool} (hlt : ∀ a b, lt a b = true → lt b a = false)
    {e : Enc κ} {d : Dec κ} {P : κ → Prop} {s : κ → Bytes} (h : Codes e d P s) :
    ∀ (ks acc : List κ), (∀ k ∈ ks, P k) → (acc ++ ks).Pairwise (fun a b => lt a b = true) →
      ∀ rest, setDecLoop lt d ks.length acc (Spec.seq s ks ++ rest) = .ok (acc ++ ks, rest) := by
  intro ks
  induction ks with
  | nil => intro acc _ _ rest; simp [setDecLoop, Spec.seq]
  | cons k ks ih =>
    intro acc hP hs rest
    have : Spec.seq s (k :: ks) = s k ++ Spec.seq s ks := rfl
    rw [this, List.append_assoc, List.length_cons, setDecLoop, bind_ok ((h k (hP k (by simp))).2 _)]
    have hl : ∀ x ∈ acc, lt x k = true := by
      rw [List.pairwise_append] at hs
      intro x hx; exact hs.2.2 x hx k (by simp)
    rw [setInsert_last hlt k acc hl, ih (acc ++ [k]) (fun x hx => hP x (by simp [hx])) (by simpa using hs) rest]
    simp

theorem set_codes {κ : Type} {lt : κ → κ → Bool} (hlt : ∀ a b, lt a b = true → lt b a = false)
    {e : Enc κ} {d : Dec κ} {P : κ → Prop} {s : κ → Bytes} (h : Codes e d P s) :
    Codes (setEnc e) (setDec lt d) (fun ks => ks.length < 2 ^ 64 ∧ ks.Pairwise (fun a b => lt a b = true) ∧
      ∀ k ∈ ks, P k) (Spec.var s) := by
  intro ks ⟨hl, hs, hP⟩
  refine ⟨vecEnc_ok h ks hl hP, fun rest => ?_⟩
  obtain ⟨_, hd⟩ := nat_codes 64 (by omega) ks.length hl
  rw [Spec.var, List.append_assoc, setDec, bind_ok (hd _), setLoop hlt h ks [] hP (by simpa using hs)]
  simp

theorem pair_codes {α β : Type} {ea : Enc α} {da : Dec α} {eb : Enc β} {db : Dec β} {P : α → Prop}
    {Q : β → Prop} {s : α → Bytes} {t : β → Bytes} (ha : Codes ea da P s) (hb : Codes eb db Q t) :
    Codes (pairEnc ea eb) (pairDec da db) (fun p => P p.1 ∧ Q p.2) (fun p => s p.1 ++ t p.2) := by
  intro ⟨a, b⟩ ⟨hP, hQ⟩
  obtain ⟨hx, hxd⟩ := ha a hP
  obtain ⟨hy, hyd⟩ := hb b hQ
  exact ⟨by simp [pairEnc, hx, hy], fun rest => by
    simp only [List.append_assoc, pairDec, bind_ok (hxd _), bind_ok (hyd _)]; rfl⟩

theorem mapLoop {κ ν : Type} {lt : κ → κ → Bool} (hlt : ∀ a b, lt a b = true → lt b a = false)
    {e : Enc (κ × ν)} {dk : Dec κ} {dv : Dec ν} {P : κ × ν → Prop} {s : κ × ν → Bytes}
    (h : Codes e (pairDec dk dv) P s) :
    ∀ (ks acc : List (κ × ν)), (∀ k ∈ ks, P k) → (acc ++ ks).Pairwise (fun a b => lt a.1 b.1 = true) →
      ∀ rest, mapDecLoop lt dk dv ks.length acc (Spec.seq s ks ++ rest) = .ok (acc ++ ks, rest) := by
  intro ks
  induction ks with
  | nil => intro acc _ _ rest; simp [mapDecLoop, Spec.seq]
  | cons k ks ih =>
    intro acc hP hs rest
    have : Spec.seq s (k :: ks) = s k ++ Spec.seq s ks := rfl
    rw [this, List.append_assoc, List.length_cons, mapDecLoop, bind_ok ((h k (hP k (by simp))).2 _)]
    have hl : ∀ x ∈ acc, lt x.1 k.1 = true := by
      rw [List.pairwise_append] at hs
      intro x hx; exact hs.2.2 x hx k (by simp)
    have hi : mapInsert lt k.1 k.2 acc = acc ++ [k] := by
      clear ih hs this
      induction acc with
      | nil => rfl
      | cons x m ih2 =>
        have hx := hl x (by simp)
        obtain ⟨xk, xv⟩ := x
        simp only [mapInsert, hlt _ _ hx, hx, if_true, List.cons_append]
        rw [ih2 (fun y hy => hl y (by simp [hy]))]
        simp
    rw [hi, ih (acc ++ [k]) (fun x hx => hP x (by simp [hx])) (by simpa using hs) rest]
    simp

theorem map_codes {κ ν : Type} {lt : κ → κ → Bool} (hlt : ∀ a b, lt a b = true → lt b a = false)
    {ek : Enc κ} {ev : Enc ν} {dk : Dec κ} {dv : Dec ν} {P : κ × ν → Prop} {s : κ × ν → Bytes}
    (h : Codes (pairEnc ek ev) (pairDec dk dv) P s) :
    Codes (mapEnc ek ev) (mapDec lt dk dv) (fun ks => ks.length < 2 ^ 64 ∧
      ks.Pairwise (fun a b => lt a.1 b.1 = true) ∧ ∀ k ∈ ks, P k) (Spec.var s) := by
  intro ks ⟨hl, hs, hP⟩
  refine ⟨vecEnc_ok h ks hl hP, fun rest => ?_⟩
  obtain ⟨_, hd⟩ := nat_codes 64 (by omega) ks.length hl
  rw [Spec.var, List.append_assoc, mapDec, bind_ok (hd _), mapLoop hlt h ks [] hP (by simpa using hs)]
  simp

/-! ### Bits -/

theorem octet_table : ∀ n : Fin 9, ∀ v : Fin 256,
    let c := ((List.range n).map (fun i => v.val.testBit i))
    packByte c 0 0 = Spec.octet c := by decide +kernel

theorem packByte_octet (c : List Bool) (h : c.length ≤ 8) : packByte c 0 0 = Spec.octet c := by
  have hv : bitsVal c < 256 := Nat.lt_of_lt_of_le (bitsVal_lt c)
    (Nat.le_trans (Nat.pow_le_pow_right (by omega) h) (by decide))
  have := octet_table ⟨c.length, by omega⟩ ⟨bitsVal c, hv⟩
  simp only [range_map_testBit] at this
  exact this

theorem packLoop_octets : ∀ (k : Nat) (bs : List Bool), (bs.length + 7) / 8 = k →
    packLoop bs 0 0 = (List.range k).map (fun i => Spec.octet (bs.drop (8 * i))) := by
  intro k
  induction k with
  | zero =>
    intro bs h
    have : bs = [] := List.length_eq_zero_iff.mp (by omega)
    subst this; rfl
  | succ k ih =>
    intro bs h
    by_cases h8 : bs.length < 8
    · have hk : k = 0 := by omega
      subst hk
      rw [packLoop_part bs 0 0 (by omega) (by omega), packByte_octet bs (by omega)]
      simp
    · have hsplit : packLoop bs 0 0 = packByte (bs.take 8) 0 0 :: packLoop (bs.drop 8) 0 0 := by
        have htl : (bs.take 8).length = 8 := by simp; omega
        have := packLoop_full (bs.take 8) (bs.drop 8) 0 0 (by intro hh; simp [hh] at htl) (by omega)
        rwa [List.take_append_drop] at this
      rw [hsplit, packByte_octet _ (by simp; omega), ih (bs.drop 8) (by simp; omega), List.range_succ_eq_map,
        List.map_cons, List.map_map]
      congr 1
      · simp [Spec.octet, List.take_take]
      · apply List.map_congr_left
        intro i _
        simp only [Function.comp, List.drop_drop]
        congr 2; omega

theorem bits_codes (n : Nat) :
    Codes (bitsEncFixed n) (bitsDecFixed n) (fun bs => bs.length = n) (Spec.bits n) := by
  intro bs h
  subst h
  obtain ⟨b, he, hd⟩ := bitsFixed_roundTrips bs.length bs rfl
  have hb : b = packLoop bs 0 0 := by
    have : bitsEncFixed bs.length bs = .ok (packLoop bs 0 0) := by simp [bitsEncFixed]
    rw [this] at he; injection he with he; exact he.symm
  rw [packLoop_octets _ bs rfl] at hb
  subst hb
  exact ⟨he, hd⟩

end Fastroll.Wire
