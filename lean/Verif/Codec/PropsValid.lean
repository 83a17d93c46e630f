import Verif.Codec.Props
/-!
# What decoders can return, and what encoders refuse
-/
namespace Fastroll.Codec

/-- The widths occurring in a wire type are those of Rust's integers: at most 64 bits. -/
def Ty.Fits : Ty → Prop
  | .uint w => w ≤ 64
  | .fixed n => n ≤ 8
  | .bool | .bits | .bitsFixed _ => True
  | .opt t | .vec _ t | .arr _ t => t.Fits
  | .limited _ t => t.Fits
  | .pair a b => a.Fits ∧ b.Fits
  | .map w t => w ≤ 64 ∧ t.Fits

theorem seqDec_all {α : Type} {d : Dec α} {P : α → Prop}
    (hd : ∀ inp a r, d inp = .ok (a, r) → P a) (n : Nat) (inp r : List UInt8) (as : List α)
    (h : seqDec d n inp = .ok (as, r)) : as.length = n ∧ ∀ a ∈ as, P a := by
  induction n generalizing inp as with
  | zero => simp [seqDec] at h; simp [h.1]
  | succ n ih =>
    obtain ⟨a, r1, h1, h⟩ := bind_inv h
    obtain ⟨as', r2, h2, h⟩ := bind_inv h
    simp at h
    obtain ⟨h3, h4⟩ := h
    subst h4
    obtain ⟨h5, h6⟩ := ih _ _ h2
    rw [← h3]
    refine ⟨by simp [h5], fun b hb => ?_⟩
    rcases List.mem_cons.mp hb with rfl | hb
    · exact hd _ _ _ h1
    · exact h6 b hb

theorem mapInsert_sorted {ν : Type} (k : Nat) (v : ν) (m : List (Nat × ν))
    (h : m.Pairwise fun p q => p.1 < q.1) :
    (mapInsert (fun a b => decide (a < b)) k v m).Pairwise (fun p q => p.1 < q.1) ∧
    (mapInsert (fun a b => decide (a < b)) k v m).length ≤ m.length + 1 ∧
    ∀ p ∈ mapInsert (fun a b => decide (a < b)) k v m, p = (k, v) ∨ p ∈ m := by
  induction m with
  | nil => simp [mapInsert]
  | cons x m ih =>
    obtain ⟨k', v'⟩ := x
    rw [List.pairwise_cons] at h
    obtain ⟨i1, i2, i3⟩ := ih h.2
    simp only [mapInsert, decide_eq_true_eq]
    split
    · next hk =>
      refine ⟨List.pairwise_cons.mpr ⟨fun p hp => ?_, List.pairwise_cons.mpr h⟩, by simp, ?_⟩
      · rcases List.mem_cons.mp hp with rfl | hp
        · exact hk
        · exact Nat.lt_trans hk (h.1 p hp)
      · intro p hp; simpa using hp
    · split
      · next hk =>
        refine ⟨List.pairwise_cons.mpr ⟨fun p hp => ?_, i1⟩, by simpa using i2, ?_⟩
        · rcases i3 p hp with rfl | hp
          · exact hk
          · exact h.1 p hp
        · intro p hp
          rcases List.mem_cons.mp hp with rfl | hp
          · simp
          · rcases i3 p hp with rfl | hp
            · simp
            · simp [hp]
      · have hk : k = k' := by omega
        subst hk
        refine ⟨List.pairwise_cons.mpr h, by simp, ?_⟩
        intro p hp
        rcases List.mem_cons.mp hp with rfl | hp
        · simp
        · simp [hp]

theorem mapDecLoop_ok {ν : Type} {dk : Dec Nat} {dv : Dec ν} {P : Nat → Prop} {Q : ν → Prop}
    (hk : ∀ inp a r, dk inp = .ok (a, r) → P a) (hv : ∀ inp a r, dv inp = .ok (a, r) → Q a)
    (n : Nat) (m m' : List (Nat × ν)) (inp r : List UInt8)
    (hs : m.Pairwise fun p q => p.1 < q.1) (hp : ∀ p ∈ m, P p.1 ∧ Q p.2)
    (h : mapDecLoop (fun a b => decide (a < b)) dk dv n m inp = .ok (m', r)) :
    (m'.Pairwise fun p q => p.1 < q.1) ∧ m'.length ≤ m.length + n ∧ ∀ p ∈ m', P p.1 ∧ Q p.2 := by
  induction n generalizing m inp with
  | zero => simp [mapDecLoop] at h; rw [← h.1]; exact ⟨hs, by simp, hp⟩
  | succ n ih =>
    obtain ⟨a, r1, h1, h⟩ := bind_inv h
    obtain ⟨x, r2, h2, h3⟩ := bind_inv h1
    obtain ⟨y, r3, h4, h5⟩ := bind_inv h3
    simp at h5
    obtain ⟨rfl, rfl⟩ := h5
    obtain ⟨s1, s2, s3⟩ := mapInsert_sorted x y m hs
    obtain ⟨t1, t2, t3⟩ := ih _ _ s1 (fun p hp' => by
      rcases s3 p hp' with rfl | g
      · exact ⟨hk _ _ _ h2, hv _ _ _ h4⟩
      · exact hp p g) h
    exact ⟨t1, by omega, t3⟩

theorem unpackLoop_length (size n : Nat) (acc bs : List Bool) (inp r : List UInt8)
    (ha : acc.length ≤ size) (h : unpackLoop size n acc inp = .ok (bs, r)) :
    bs.length = min size (acc.length + 8 * n) := by
  induction n generalizing acc inp with
  | zero => simp [unpackLoop] at h; rw [← h.1]; omega
  | succ n ih =>
    obtain ⟨b, r1, h1, h⟩ := bind_inv h
    have hl : (pushBits size b acc).length = min size (acc.length + 8) := by
      rw [pushBits_eq]
      simp [byteBits]
      omega
    rw [ih _ _ (by omega) h, hl]
    omega

/-- **C04.** Whatever bytes arrive, a decoder returns only values of its type: integers that fit
their width, vectors within their limits and within memory, arrays and bit strings of their exact
size, maps with strictly increasing keys. -/
theorem C04_decoded_ok (t : Ty) (ht : t.Fits) (inp r : List UInt8) (a : t.Val)
    (h : t.dec inp = .ok (a, r)) : t.Ok a := by
  induction t generalizing inp r with
  | uint w => exact ⟨(intDecode_shape h).1, ht⟩
  | fixed n =>
    obtain ⟨bs, h1, _⟩ := C03_fixed_canonical n ht inp r a h
    refine ⟨?_, ht⟩
    by_cases hx : Nat.lt a (2 ^ (8 * n))
    · exact hx
    · have := (C03_fixed_rejects n a).2 ht (by exact Nat.le_of_not_lt hx)
      rw [this] at h1
      simp at h1
  | bool => trivial
  | bits =>
    obtain ⟨n, r1, h1, h⟩ := bind_inv h
    split at h
    · have := unpackLoop_length n _ [] a _ _ (by simp) h
      show List.length a < _
      simp at this
      omega
    · simp at h
  | bitsFixed n =>
    have := unpackLoop_length n _ [] a _ _ (by simp) h
    show List.length a = n
    simp at this
    omega
  | opt t ih =>
    obtain ⟨b, r1, h1, h⟩ := bind_inv h
    intro v hv
    split at h
    · injection h with h; injection h with h _; rw [← h] at hv; simp at hv
    · split at h
      · obtain ⟨c, r2, h2, h⟩ := bind_inv h
        injection h with h
        injection h with h _
        rw [← h] at hv
        cases hv
        exact ih ht _ _ _ h2
      · simp at h
  | pair x y ihx ihy =>
    obtain ⟨b, r1, h1, h⟩ := bind_inv h
    obtain ⟨c, r2, h2, h⟩ := bind_inv h
    injection h with h
    injection h with h _
    rw [← h]
    exact ⟨ihx ht.1 _ _ _ h1, ihy ht.2 _ _ _ h2⟩
  | vec sz t ih =>
    obtain ⟨n, r1, h1, h⟩ := bind_inv h
    obtain ⟨u, r2, h2, h⟩ := bind_inv h
    have hn := (intDecode_shape h1).1
    obtain ⟨h3, h4⟩ := seqDec_all (P := t.Ok) (fun i a r hh => ih ht i r a hh) n _ _ a h
    have h5 : n * sz < 2 ^ 63 := by
      unfold reserve maxAlloc at h2
      split at h2
      · omega
      · simp at h2
    show List.length a < _ ∧ List.length a * sz < _ ∧ _
    rw [h3]
    exact ⟨hn, h5, h4⟩
  | limited m t ih =>
    have hm := (C04_decoded_sizes m t.dec inp r a).1 h
    obtain ⟨n, r1, h1, h⟩ := bind_inv h
    have hn := (intDecode_shape h1).1
    split at h
    · simp at h
    · obtain ⟨b, r2, h2, h⟩ := bind_inv h
      obtain ⟨h3, h4⟩ := seqDec_all (P := t.Ok) (fun i a r hh => ih ht i r a hh) n _ _ b h2
      split at h
      · simp at h
        obtain ⟨rfl, _⟩ := h
        exact ⟨hm, by omega, h4⟩
      · simp at h
  | arr n t ih =>
    exact seqDec_all (P := t.Ok) (fun i a r hh => ih ht i r a hh) n _ _ a h
  | map w t ih =>
    obtain ⟨n, r1, h1, h⟩ := bind_inv h
    have hn := (intDecode_shape h1).1
    obtain ⟨h3, h4, h5⟩ := mapDecLoop_ok (P := fun k => k < 2 ^ w) (Q := t.Ok)
      (fun i a r hh => (intDecode_shape hh).1) (fun i a r hh => ih ht.2 i r a hh) n [] a _ _
      (by simp) (by simp) h
    simp at h4
    exact ⟨by omega, ht.1, h3, h5⟩

example : (Ty.map 8 (.opt .bool)).Fits ∧
    (Ty.map 8 (.opt .bool)).dec [2, 5, 0, 3, 1, 1] = .ok ([(3, some true), (5, none)], []) :=
  ⟨⟨by decide, trivial⟩, rfl⟩

/-- **C04.** Decoding any bytes and encoding the result again always succeeds, and reading that
encoding gives the same value: the encoding of a decoded value is a normal form of the bytes
that were read. -/
theorem C04_normalizes (t : Ty) (ht : t.Fits) (inp r : List UInt8) (a : t.Val)
    (h : t.dec inp = .ok (a, r)) :
    ∃ bs, t.enc a = .ok bs ∧ ∀ rest, t.dec (bs ++ rest) = .ok (a, rest) :=
  C04_roundtrip t a (C04_decoded_ok t ht inp r a h)

example : (Ty.uint 16).dec [0x80, 5] = .ok ((5 : Nat), []) ∧ (Ty.uint 16).enc (5 : Nat) = .ok [5] :=
  ⟨rfl, rfl⟩

/-- **C04.** A bit string is encoded as one of `n` bits exactly if it has `n` bits. -/
theorem C04_bits_rejected (n : Nat) (bs : List Bool) :
    (bs.length ≠ n → (Ty.bitsFixed n).enc bs = .error .invalidSize) ∧
    (bs.length = n → ∃ out, (Ty.bitsFixed n).enc bs = .ok out ∧ out.length = (n + 7) / 8) := by
  have hp : ∀ (bs : List Bool) (cur : UInt8) (cnt : Nat), cnt < 8 →
      (packLoop bs cur cnt).length = (bs.length + cnt + 7) / 8 := by
    intro bs
    induction bs with
    | nil => intro cur cnt hc; simp only [packLoop]; split <;> simp <;> omega
    | cons b bs ih =>
      intro cur cnt hc
      simp only [packLoop]
      split
      · rw [List.length_cons, ih _ _ (by omega), List.length_cons]; omega
      · rw [ih _ _ (by omega), List.length_cons]; omega
  constructor
  · intro h
    show bitsEncFixed n bs = _
    unfold bitsEncFixed
    rw [if_pos h]
  · intro h
    refine ⟨packLoop bs 0 0, ?_, by rw [hp bs 0 0 (by omega), h]⟩
    show bitsEncFixed n bs = _
    unfold bitsEncFixed
    rw [if_neg (by simpa using h)]

example : (Ty.bitsFixed 9).enc [true, true] = .error .invalidSize := by rfl

end Fastroll.Codec
