import Verif.Codec.Lemmas2
/-! Round-trip and prefix-stability lemmas by combinator. -/
namespace Fastroll.Codec

theorem nat_roundTrips (w : Nat) : RoundTrips natEnc (intDecode w) (fun x => x < 2 ^ w ∧ w ≤ 64) := by
  intro x ⟨hx, hw⟩
  have h64 : x < 2 ^ 64 := Nat.lt_of_lt_of_le hx (Nat.pow_le_pow_right (by omega) hw)
  exact ⟨intEncode x, by simp [natEnc, h64], fun rest => intDecode_intEncode w x rest h64 hx⟩

theorem fixed_roundTrips (n : Nat) :
    RoundTrips (fixedEncode n) (fixedDecode 64 n) (fun x => x < 2 ^ (8 * n) ∧ n ≤ 8) := by
  intro x ⟨hx, hn⟩
  refine ⟨leBytes n x, ?_, fun rest => ?_⟩
  · have : ¬ x > (1 <<< (n * 8)) - 1 := by
      rw [Nat.shiftLeft_eq, Nat.one_mul, Nat.mul_comm n 8]; omega
    simp [fixedEncode, show ¬ n > 8 by omega, this]
  · rw [fixedDecode64 _ rest n (leBytes_length _ _) hn, leVal_leBytes, Nat.mod_eq_of_lt hx]

theorem bool_roundTrips : RoundTrips boolEnc boolDec (fun _ => True) := by
  intro b _
  cases b <;> exact ⟨_, rfl, fun rest => by simp [boolDec]⟩

theorem bitsFixed_roundTrips (n : Nat) :
    RoundTrips (bitsEncFixed n) (bitsDecFixed n) (fun bs => bs.length = n) := by
  intro bs h
  subst h
  refine ⟨packLoop bs 0 0, by simp [bitsEncFixed], fun rest => ?_⟩
  have := bits_roundTrip bs.length bs [] rest (by omega)
  simpa [bitsDecFixed] using this

theorem bits_roundTrips : RoundTrips bitsEnc bitsDec (fun bs => bs.length < 2 ^ 61) := by
  intro bs h
  obtain ⟨p, hp, hpd⟩ := nat_roundTrips 64 bs.length ⟨by omega, by omega⟩
  obtain ⟨q, hq, hqd⟩ := bitsFixed_roundTrips bs.length bs rfl
  exact ⟨p ++ q, by simp [bitsEnc, hp, hq], fun rest => by
    rw [List.append_assoc, bitsDec, bind_ok (hpd _), if_pos (by omega), hqd]⟩

theorem opt_roundTrips {α : Type} {e : Enc α} {d : Dec α} {P : α → Prop} (h : RoundTrips e d P) :
    RoundTrips (optEnc e) (optDec d) (fun o => ∀ a, o = some a → P a) := by
  intro o ho
  cases o with
  | none => exact ⟨[0], rfl, fun rest => by simp [optDec]⟩
  | some a =>
    obtain ⟨bs, he, hd⟩ := h a (ho a rfl)
    have h1 : intEncode 1 = [1] := by decide
    exact ⟨[1] ++ bs, by simp [optEnc, he, h1], fun rest => by
      simp [optDec, bind_ok (hd rest)]⟩

theorem pair_roundTrips {α β : Type} {ea : Enc α} {da : Dec α} {eb : Enc β} {db : Dec β}
    {P : α → Prop} {Q : β → Prop} (ha : RoundTrips ea da P) (hb : RoundTrips eb db Q) :
    RoundTrips (pairEnc ea eb) (pairDec da db) (fun p => P p.1 ∧ Q p.2) := by
  intro ⟨a, b⟩ ⟨hP, hQ⟩
  obtain ⟨x, hx, hxd⟩ := ha a hP
  obtain ⟨y, hy, hyd⟩ := hb b hQ
  exact ⟨x ++ y, by simp [pairEnc, hx, hy], fun rest => by
    rw [List.append_assoc, pairDec, bind_ok (hxd _), bind_ok (hyd _)]; rfl⟩

theorem reserve_ok {sz n : Nat} (h : n * sz < 2 ^ 63) (inp : List UInt8) :
    reserve sz n inp = .ok ((), inp) := by
  simp [reserve, maxAlloc, show n * sz ≤ 2 ^ 63 - 1 by omega]

theorem vec_roundTrips {α : Type} (sz : Nat) {e : Enc α} {d : Dec α} {P : α → Prop} (h : RoundTrips e d P) :
    RoundTrips (vecEnc e) (vecDec sz d)
      (fun as => as.length < 2 ^ 64 ∧ as.length * sz < 2 ^ 63 ∧ ∀ a ∈ as, P a) := by
  intro as ⟨hl, hz, hP⟩
  obtain ⟨p, hp, hpd⟩ := nat_roundTrips 64 as.length ⟨hl, by omega⟩
  obtain ⟨q, hq, hqd⟩ := seq_roundTrips h as hP
  exact ⟨p ++ q, by simp [vecEnc, hp, hq], fun rest => by
    rw [List.append_assoc, vecDec, bind_ok (hpd _), bind_ok (reserve_ok hz _), hqd]⟩

theorem limited_roundTrips {α : Type} (m : Nat) {e : Enc α} {d : Dec α} {P : α → Prop}
    (h : RoundTrips e d P) :
    RoundTrips (vecEnc e) (limitedDec m d)
      (fun as => as.length ≤ m ∧ as.length < 2 ^ 64 ∧ ∀ a ∈ as, P a) := by
  intro as ⟨hm, hl, hP⟩
  obtain ⟨p, hp, hpd⟩ := nat_roundTrips 64 as.length ⟨hl, by omega⟩
  obtain ⟨q, hq, hqd⟩ := seq_roundTrips h as hP
  exact ⟨p ++ q, by simp [vecEnc, hp, hq], fun rest => by
    rw [List.append_assoc, limitedDec, bind_ok (hpd _), if_neg (by omega), bind_ok (hqd _), if_pos hm]; rfl⟩

theorem map_roundTrips (w : Nat) {ν : Type} {e : Enc ν} {d : Dec ν} {P : ν → Prop}
    (h : RoundTrips e d P) :
    RoundTrips (mapEnc natEnc e) (mapDec (fun a b => decide (a < b)) (intDecode w) d)
      (fun m => m.length < 2 ^ 64 ∧ w ≤ 64 ∧ m.Pairwise (fun p q => p.1 < q.1) ∧
        ∀ p ∈ m, p.1 < 2 ^ w ∧ P p.2) := by
  intro m ⟨hl, hw, hs, hP⟩
  obtain ⟨p, hp, hpd⟩ := nat_roundTrips 64 m.length ⟨hl, by omega⟩
  obtain ⟨q, hq, hqd⟩ := mapLoop_roundTrips (lt := fun a b => decide (a < b))
    (by intro a b hab; simp at *; omega) (pair_roundTrips (nat_roundTrips w) h) m []
    (fun p hp => ⟨⟨(hP p hp).1, hw⟩, (hP p hp).2⟩) (by simpa using hs)
  exact ⟨p ++ q, by simp [mapEnc, vecEnc, hp, hq], fun rest => by
    rw [List.append_assoc, mapDec, bind_ok (hpd _), hqd]; simp⟩

/-! ### Prefix stability -/

theorem readByte_stable : PrefixStable readByte := by
  intro inp a r h
  cases inp with
  | nil => simp [readByte] at h
  | cons b inp =>
    simp [readByte] at h
    obtain ⟨rfl, rfl⟩ := h
    exact ⟨⟨[b], rfl⟩, fun ext => rfl⟩

/-- Sequencing of stable decoders is stable. -/
theorem bind_stable {α β : Type} {d : Dec α} {f : α → Dec β} (hd : PrefixStable d)
    (hf : ∀ a, PrefixStable (f a)) : PrefixStable (d.bind f) := by
  intro inp b r h
  obtain ⟨a, r1, hdi, hfi⟩ := bind_inv h
  obtain ⟨⟨p1, e1⟩, s1⟩ := hd _ _ _ hdi
  obtain ⟨⟨p2, e2⟩, s2⟩ := hf a _ _ _ hfi
  exact ⟨⟨p1 ++ p2, by rw [e1, e2, List.append_assoc]⟩, fun ext => by rw [bind_ok (s1 ext), s2]⟩

theorem pure_stable {α : Type} (a : α) : PrefixStable (Dec.pure a) := by
  intro inp b r h
  simp at h
  exact ⟨⟨[], by simp [h.2]⟩, fun ext => by simp [h.1, h.2]⟩

theorem fail_stable {α : Type} (e : Err) : PrefixStable (Dec.fail e : Dec α) := by
  intro inp b r h; simp at h

theorem ite_stable {α : Type} {c : Prop} [Decidable c] {d d' : Dec α} (h : PrefixStable d)
    (h' : PrefixStable d') : PrefixStable (if c then d else d') := by
  split <;> assumption

theorem tryFrom_stable (w v : Nat) : PrefixStable (tryFrom w v) :=
  ite_stable (pure_stable _) (fail_stable _)

theorem readLE_stable : ∀ (n i v : Nat), PrefixStable (readLE i n v) := by
  intro n
  induction n with
  | zero => intro i v; exact pure_stable v
  | succ n ih => intro i v; exact bind_stable readByte_stable (fun b => ih _ _)

theorem fixedDecode_stable (w n : Nat) : PrefixStable (fixedDecode w n) :=
  ite_stable (fail_stable _) (bind_stable (readLE_stable _ _ _) (fun v => tryFrom_stable w v))

theorem intDecode_stable (w : Nat) : PrefixStable (intDecode w) :=
  bind_stable readByte_stable fun _ => ite_stable (tryFrom_stable _ _) (ite_stable
    (bind_stable (fixedDecode_stable _ _) (fun v => tryFrom_stable w v))
    (bind_stable (fixedDecode_stable _ _) (fun v => tryFrom_stable w _)))

theorem boolDec_stable : PrefixStable boolDec :=
  bind_stable readByte_stable
    (fun _ => ite_stable (pure_stable _) (ite_stable (pure_stable _) (fail_stable _)))

theorem optDec_stable {α : Type} {d : Dec α} (h : PrefixStable d) : PrefixStable (optDec d) :=
  bind_stable readByte_stable
    (fun _ => ite_stable (pure_stable _) (ite_stable
      (bind_stable h (fun _ => pure_stable _)) (fail_stable _)))

theorem pairDec_stable {α β : Type} {da : Dec α} {db : Dec β} (ha : PrefixStable da)
    (hb : PrefixStable db) : PrefixStable (pairDec da db) :=
  bind_stable ha (fun _ => bind_stable hb (fun _ => pure_stable _))

theorem seqDec_stable {α : Type} {d : Dec α} (h : PrefixStable d) : ∀ n, PrefixStable (seqDec d n) := by
  intro n
  induction n with
  | zero => exact pure_stable []
  | succ n ih => exact bind_stable h (fun _ => bind_stable ih (fun _ => pure_stable _))

theorem reserve_stable (sz n : Nat) : PrefixStable (reserve sz n) :=
  ite_stable (pure_stable _) (fail_stable _)

theorem vecDec_stable {α : Type} {d : Dec α} (sz : Nat) (h : PrefixStable d) :
    PrefixStable (vecDec sz d) :=
  bind_stable (intDecode_stable 64) (fun n => bind_stable (reserve_stable sz n)
    (fun _ => seqDec_stable h n))

theorem limitedDec_stable {α : Type} {d : Dec α} (m : Nat) (h : PrefixStable d) :
    PrefixStable (limitedDec m d) :=
  bind_stable (intDecode_stable 64) (fun n => ite_stable (fail_stable _)
    (bind_stable (seqDec_stable h n) (fun _ => ite_stable (pure_stable _) (fail_stable _))))

theorem mapDecLoop_stable {κ ν : Type} (lt : κ → κ → Bool) {dk : Dec κ} {dv : Dec ν}
    (hk : PrefixStable dk) (hv : PrefixStable dv) :
    ∀ n m, PrefixStable (mapDecLoop lt dk dv n m) := by
  intro n
  induction n with
  | zero => intro m; exact pure_stable m
  | succ n ih => intro m; exact bind_stable (pairDec_stable hk hv) (fun p => ih _)

theorem unpackLoop_stable (size : Nat) : ∀ n acc, PrefixStable (unpackLoop size n acc) := by
  intro n
  induction n with
  | zero => intro acc; exact pure_stable acc
  | succ n ih => intro acc; exact bind_stable readByte_stable (fun b => ih _)

end Fastroll.Codec
