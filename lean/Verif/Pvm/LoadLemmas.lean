import Verif.Pvm.InterpLemmas3
/-! Lemmas: when decoding an instruction reads past its bytes. -/
namespace Fastroll.Pvm

/-- Operand bytes an instruction's layout reads unconditionally, from its first three bytes. -/
def operandBytes (b0 b1 b2 : Nat) : Nat :=
  match (Op.ofByte b0).layout with
  | .none | .imm | .offset => 0
  | .regImm64 => 9
  | .imm2 => 1 + min 4 (b1 % 8)
  | .regImm | .reg2 | .reg2Imm | .reg2Offset => 1
  | .regImm2 | .regImmOffset => 1 + min 4 (b1 / 16 % 8)
  | .reg2Imm2 => 2 + min 4 (b2 % 8)
  | .reg3 => 2

theorem byteAt_ok {blob : List UInt8} {i : Nat} (h : i < blob.length) :
    byteAt blob i = .ok (blob.getD i 0).toNat := by
  unfold byteAt
  rw [List.getElem?_eq_getElem h, List.getD_eq_getElem?_getD, List.getElem?_eq_getElem h]
  rfl

theorem byteAt_none {blob : List UInt8} {i : Nat} (h : blob.length ≤ i) : byteAt blob i = .error .panic := by
  unfold byteAt
  rw [List.getElem?_eq_none h]

theorem getD_none {blob : List UInt8} {i : Nat} (h : blob.length ≤ i) : (blob.getD i 0).toNat = 0 := by
  rw [List.getD_eq_getElem?_getD, List.getElem?_eq_none h]
  rfl

theorem immValue_ok {blob : List UInt8} {n s : Nat} (h : s + n ≤ blob.length) : ∃ r, immValue blob n s = .ok r := by
  unfold immValue sliceLE
  split
  · rw [if_neg (by omega)]; exact ⟨_, rfl⟩
  · exact ⟨_, rfl⟩

theorem immValue_panic {blob : List UInt8} {n s : Nat} (hn : 0 < n) (h : blob.length < s + n) :
    immValue blob n s = .error .panic := by
  unfold immValue sliceLE
  rw [if_pos hn, if_pos (by omega)]
  rfl

theorem immTarget_ok {pc : Nat} {blob : List UInt8} {n s : Nat} (h : n = 0 ∨ s + n ≤ blob.length) :
    ∃ r, immTarget pc blob n s = .ok r := by
  unfold immTarget sliceLE
  split
  · rw [if_neg (by omega)]; exact ⟨_, rfl⟩
  · exact ⟨_, rfl⟩

theorem immValue_ok' {blob : List UInt8} {n s : Nat} (h : n = 0 ∨ s + n ≤ blob.length) :
    ∃ r, immValue blob n s = .ok r := by
  unfold immValue sliceLE
  split
  · rw [if_neg (by omega)]; exact ⟨_, rfl⟩
  · exact ⟨_, rfl⟩

/-- Decoding an instruction of at most 16 bytes succeeds exactly when its operand bytes are there; if
not, the Rust code panics. -/
theorem fromBlob_ok_iff (blob : List UInt8) (pc d : Nat) (hl : blob.length = d + 1) (h16 : d + 1 ≤ 16) :
    if operandBytes (blob.getD 0 0).toNat (blob.getD 1 0).toNat (blob.getD 2 0).toNat ≤ d
    then ∃ ins, fromBlob blob pc d = .ok ins else fromBlob blob pc d = .error .panic := by
  unfold fromBlob operandBytes
  rw [byteAt_ok (by omega)]
  simp only [bind, Except.bind]
  rw [if_neg (show ¬ blob.length > MAX_INST by simp only [MAX_INST]; omega)]
  cases hlay : (Op.ofByte (blob.getD 0 0).toNat).layout <;> simp only []
  case none => simp
  case imm =>
    obtain ⟨r, hr⟩ := immValue_ok (blob := blob) (n := min 4 d) (s := 1) (by omega)
    simp [hr]
  case offset =>
    obtain ⟨r, hr⟩ := immTarget_ok (pc := pc) (blob := blob) (n := min 4 d) (s := 1) (by omega)
    simp [hr]
  case regImm64 =>
    split
    · rw [byteAt_ok (by omega)]
      simp only [sliceLE]
      rw [if_neg (by omega)]
      exact ⟨_, rfl⟩
    · by_cases h1 : 1 < blob.length
      · rw [byteAt_ok h1]
        simp only [sliceLE]
        rw [if_pos (by omega)]
      · rw [byteAt_none (by omega)]
  case regImm =>
    split
    · rw [byteAt_ok (by omega)]
      obtain ⟨r, hr⟩ := immValue_ok (blob := blob) (n := min 4 (d - 1)) (s := 2) (by omega)
      simp [hr]
    · rw [byteAt_none (by omega)]
  case reg2 =>
    split
    · rw [byteAt_ok (by omega)]; exact ⟨_, rfl⟩
    · rw [byteAt_none (by omega)]
  case reg2Imm =>
    split
    · rw [byteAt_ok (by omega)]
      obtain ⟨r, hr⟩ := immValue_ok (blob := blob) (n := min 4 (d - 1)) (s := 2) (by omega)
      simp [hr]
    · rw [byteAt_none (by omega)]
  case reg2Offset =>
    split
    · rw [byteAt_ok (by omega)]
      obtain ⟨r, hr⟩ := immTarget_ok (pc := pc) (blob := blob) (n := min 4 (d - 1)) (s := 2) (by omega)
      simp [hr]
    · rw [byteAt_none (by omega)]
  case reg3 =>
    split
    · rw [byteAt_ok (by omega), byteAt_ok (by omega)]; exact ⟨_, rfl⟩
    · by_cases h1 : 1 < blob.length
      · rw [byteAt_ok h1, byteAt_none (by omega)]
      · rw [byteAt_none (by omega)]
  case imm2 =>
    by_cases h1 : 1 < blob.length
    · rw [byteAt_ok h1]
      simp only []
      generalize hlx : min 4 ((blob.getD 1 0).toNat % 8) = lx
      split
      · obtain ⟨r, hr⟩ := immValue_ok (blob := blob) (n := lx) (s := 2) (by omega)
        obtain ⟨r', hr'⟩ := immValue_ok (blob := blob) (n := min 4 (d - (lx + 1))) (s := 2 + lx) (by omega)
        simp [hr, hr']
      · rw [immValue_panic (by omega) (by omega)]
    · rw [byteAt_none (by omega), getD_none (by omega : blob.length ≤ 1), if_neg (by omega)]
  case regImm2 =>
    by_cases h1 : 1 < blob.length
    · rw [byteAt_ok h1]
      simp only []
      generalize hlx : min 4 ((blob.getD 1 0).toNat / 16 % 8) = lx
      split
      · obtain ⟨r, hr⟩ := immValue_ok (blob := blob) (n := lx) (s := 2) (by omega)
        obtain ⟨r', hr'⟩ := immValue_ok (blob := blob) (n := min 4 (d - (lx + 1))) (s := 2 + lx) (by omega)
        simp [hr, hr']
      · rw [immValue_panic (by omega) (by omega)]
    · rw [byteAt_none (by omega), getD_none (by omega : blob.length ≤ 1), if_neg (by omega)]
  case regImmOffset =>
    by_cases h1 : 1 < blob.length
    · rw [byteAt_ok h1]
      simp only []
      generalize hlx : min 4 ((blob.getD 1 0).toNat / 16 % 8) = lx
      split
      · obtain ⟨r, hr⟩ := immValue_ok (blob := blob) (n := lx) (s := 2) (by omega)
        obtain ⟨r', hr'⟩ := immTarget_ok (pc := pc) (blob := blob) (n := min 4 (d - (lx + 1))) (s := 2 + lx) (by omega)
        simp [hr, hr']
      · rw [immValue_panic (by omega) (by omega)]
    · rw [byteAt_none (by omega), getD_none (by omega : blob.length ≤ 1), if_neg (by omega)]
  case reg2Imm2 =>
    by_cases h1 : 1 < blob.length
    · rw [byteAt_ok h1]
      by_cases h2 : 2 < blob.length
      · rw [byteAt_ok h2]
        simp only []
        generalize hlx : min 4 ((blob.getD 2 0).toNat % 8) = lx
        split
        · obtain ⟨r, hr⟩ := immValue_ok (blob := blob) (n := lx) (s := 3) (by omega)
          obtain ⟨r', hr'⟩ := immValue_ok (blob := blob) (n := min 4 (d - (lx + 2))) (s := 3 + lx) (by omega)
          simp [hr, hr']
        · rw [immValue_panic (by omega) (by omega)]
      · rw [byteAt_none (by omega), getD_none (by omega : blob.length ≤ 2), if_neg (by omega)]
    · rw [byteAt_none (by omega), getD_none (by omega : blob.length ≤ 2), if_neg (by omega)]

/-- The decoding loop succeeds if every marked position decodes, and fails with the first failure. -/
theorem decodeLoop_ok (code : List UInt8) (skips : List Nat) : ∀ bs idx dec look,
    (∀ i : Nat, bs[i]? = some true → ∃ ins, decodeAt code skips (idx + i) = .ok ins) →
    ∃ r, decodeLoop code skips bs idx dec look = .ok r := by
  intro bs
  induction bs with
  | nil => intro idx dec look _; exact ⟨_, rfl⟩
  | cons b bs ih =>
    intro idx dec look h
    have htail : ∀ i : Nat, bs[i]? = some true → ∃ ins, decodeAt code skips (idx + 1 + i) = .ok ins := by
      intro i hi
      rw [show idx + 1 + i = idx + (i + 1) by omega]
      exact h (i + 1) (by rwa [List.getElem?_cons_succ])
    unfold decodeLoop
    cases b with
    | false => simpa using ih (idx + 1) dec look htail
    | true =>
      obtain ⟨ins, hins⟩ := h 0 rfl
      unfold decodeAt at hins
      simp only [Nat.add_zero] at hins
      simp only [Bool.not_true, Bool.false_eq_true, if_false]
      rw [hins]
      exact ih _ _ _ htail

theorem decodeLoop_first_panic (code : List UInt8) (skips : List Nat) : ∀ bs idx dec look k e,
    bs[k]? = some true → decodeAt code skips (idx + k) = .error e →
    (∀ i : Nat, i < k → bs[i]? = some true → ∃ ins, decodeAt code skips (idx + i) = .ok ins) →
    decodeLoop code skips bs idx dec look = .error e := by
  intro bs
  induction bs with
  | nil => intro idx dec look k e h; simp at h
  | cons b bs ih =>
    intro idx dec look k e hk he hbefore
    unfold decodeLoop
    cases k with
    | zero =>
      simp only [List.getElem?_cons_zero, Option.some.injEq] at hk
      subst hk
      unfold decodeAt at he
      simp only [Nat.add_zero] at he
      simp only [Bool.not_true, Bool.false_eq_true, if_false]
      rw [he]
    | succ k =>
      rw [List.getElem?_cons_succ] at hk
      have ih' : ∀ dec look, decodeLoop code skips bs (idx + 1) dec look = .error e := by
        intro dec look
        refine ih (idx + 1) dec look k e hk (by rwa [show idx + 1 + k = idx + (k + 1) by omega]) ?_
        intro i hi hb
        rw [show idx + 1 + i = idx + (i + 1) by omega]
        exact hbefore (i + 1) (by omega) (by rwa [List.getElem?_cons_succ])
      cases b with
      | false => simpa using ih' dec look
      | true =>
        obtain ⟨ins, hins⟩ := hbefore 0 (by omega) rfl
        unfold decodeAt at hins
        simp only [Nat.add_zero] at hins
        simp only [Bool.not_true, Bool.false_eq_true, if_false]
        rw [hins]
        exact ih' _ _

end Fastroll.Pvm
