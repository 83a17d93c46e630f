import Verif.Pvm.InterpSpec
/-! Lemmas about the loader. -/
namespace Fastroll.Pvm

theorem bitAt_iff {bs : List Bool} {i : Nat} : bitAt bs i = true ↔ bs[i]? = some true := by
  unfold bitAt
  cases h : bs[i]? with
  | none => simp
  | some b => simp

/-- The invariant of the reverse loop: `next` is the first set bit at or after `idx`. -/
structure NextInv (mask : List Bool) (len idx : Nat) (next : Option Nat) : Prop where
  none_of : next = none → ∀ j, idx ≤ j → j < len → bitAt mask j = false
  some_of : ∀ n, next = some n → idx ≤ n ∧ n < len ∧ bitAt mask n = true ∧ ∀ j, idx ≤ j → j < n → bitAt mask j = false

theorem skipLoop_spec (mask : List Bool) (len : Nat) :
    ∀ idx next acc, idx ≤ len → acc.length = len - idx → NextInv mask len idx next →
      (∀ i d, idx ≤ i → acc[i - idx]? = some d → IsSkip mask len i d) →
      (skipLoop mask len idx next acc).length = len ∧
      ∀ i d, (skipLoop mask len idx next acc)[i]? = some d → IsSkip mask len i d := by
  intro idx
  induction idx with
  | zero =>
    intro next acc _ hl _ h
    refine ⟨by simpa [skipLoop] using hl, ?_⟩
    intro i d hd
    exact h i d (Nat.zero_le _) (by simpa [skipLoop] using hd)
  | succ idx ih =>
    intro next acc hle hl hinv h
    unfold skipLoop
    apply ih
    · omega
    · simp [hl]; omega
    · constructor
      · intro hn
        split at hn
        · cases hn
        · rename_i hb
          intro j hj hjl
          by_cases hji : j = idx
          · subst hji; simpa using hb
          · exact hinv.none_of hn j (by omega) hjl
      · intro n hn
        split at hn
        · rename_i hb
          cases hn
          exact ⟨Nat.le_refl _, by omega, hb, fun j h1 h2 => by omega⟩
        · rename_i hb
          obtain ⟨h1, h2, h3, h4⟩ := hinv.some_of n hn
          refine ⟨by omega, h2, h3, ?_⟩
          intro j hj hjn
          by_cases hji : j = idx
          · subst hji; simpa using hb
          · exact h4 j (by omega) hjn
    · intro i d hi hd
      by_cases hii : i = idx
      · subst hii
        simp only [Nat.sub_self, List.getElem?_cons_zero, Option.some.injEq] at hd
        subst hd
        have hns : ∀ j, bitAt mask j = false → ¬ StartsAt mask j := by
          intro j hj hs
          rw [StartsAt, ← bitAt_iff] at hs
          rw [hs] at hj; cases hj
        cases next with
        | none =>
          have hno := hinv.none_of rfl
          simp only [MAX_SKIP]
          refine ⟨by omega, by omega, ?_, ?_⟩
          · intro j hj
            exact hns _ (hno _ (by omega) (by omega))
          · by_cases h24 : len - (i + 1) ≤ 24
            · right; left; omega
            · left; omega
        | some n =>
          obtain ⟨h1, h2, h3, h4⟩ := hinv.some_of n rfl
          simp only [MAX_SKIP]
          refine ⟨by omega, by omega, ?_, ?_⟩
          · intro j hj
            exact hns _ (h4 _ (by omega) (by omega))
          · by_cases h24 : n - (i + 1) ≤ 24
            · right; right
              rw [StartsAt, ← bitAt_iff]
              rw [show i + 1 + min (n - (i + 1)) 24 = n by omega]
              exact h3
            · left; omega
      · have : i - idx = (i - (idx + 1)) + 1 := by omega
        rw [this, List.getElem?_cons_succ] at hd
        exact h i d (by omega) hd

theorem skipDistances_spec (mask : List Bool) (len : Nat) :
    (skipDistances mask len).length = len ∧
      ∀ i d, (skipDistances mask len)[i]? = some d → IsSkip mask len i d := by
  apply skipLoop_spec
  · exact Nat.le_refl _
  · simp
  · exact ⟨fun _ j h1 h2 => by omega, fun n h => by cases h⟩
  · intro i d h1 h2
    simp at h2

/-- There is only one skip distance. -/
theorem IsSkip.unique {mask : List Bool} {len i d e : Nat} (h : IsSkip mask len i d) (k : IsSkip mask len i e) :
    d = e := by
  rcases Nat.lt_trichotomy d e with hlt | heq | hgt
  · exfalso
    have := k.operand d hlt
    have h1 := k.cap
    have h2 := k.inside
    rcases h.stop with hs | hs | hs
    · omega
    · omega
    · exact this hs
  · exact heq
  · exfalso
    have := h.operand e hgt
    have h1 := h.cap
    have h2 := h.inside
    rcases k.stop with hs | hs | hs
    · omega
    · omega
    · exact this hs

/-- The decoding of the instruction at `i`. -/
def decodeAt (code : List UInt8) (skips : List Nat) (i : Nat) : Except LoadErr Instr :=
  if i + 1 + (skips[i]?).getD MAX_SKIP > code.length then .ok { op := .trap }
  else fromBlob ((code.drop i).take (i + 1 + (skips[i]?).getD MAX_SKIP - i)) i ((skips[i]?).getD MAX_SKIP)

/-- The lookup of the decoded instructions. -/
def lookAt (dec : List Instr) (look : List (Option Nat)) (i : Nat) : Option Instr :=
  match look[i]? with
  | some (some k) => dec[k]?
  | _ => none

theorem decodeLoop_spec (code : List UInt8) (skips : List Nat) :
    ∀ bs idx dec look dec' look', decodeLoop code skips bs idx dec look = .ok (dec', look') →
      look.length = code.length → idx + bs.length ≤ code.length →
      (∀ i k : Nat, look[i]? = some (some k) → k < dec.length) →
      (∀ i : Nat, idx ≤ i → i < code.length → look[i]? = some none) →
      look'.length = code.length ∧
      (∀ i, i < idx → lookAt dec' look' i = lookAt dec look i) ∧
      (∀ (i : Nat) (b : Bool), bs[i]? = some b →
        if b = true then ∃ ins, decodeAt code skips (idx + i) = .ok ins ∧ lookAt dec' look' (idx + i) = some ins
        else lookAt dec' look' (idx + i) = none) ∧
      (∀ i, idx + bs.length ≤ i → lookAt dec' look' i = none) := by
  intro bs
  induction bs with
  | nil =>
    intro idx dec look dec' look' h hl hle hk hn
    simp only [decodeLoop, Except.ok.injEq, Prod.mk.injEq] at h
    obtain ⟨rfl, rfl⟩ := h
    refine ⟨hl, fun i _ => rfl, fun i b hb => by simp at hb, ?_⟩
    intro i hi
    unfold lookAt
    by_cases hc : i < code.length
    · rw [hn i (by simpa using hi) hc]
    · rw [List.getElem?_eq_none (by omega)]
  | cons b bs ih =>
    intro idx dec look dec' look' h hl hle hk hn
    simp only [List.length_cons] at hle
    unfold decodeLoop at h
    cases b with
    | false =>
      simp only [Bool.not_false, if_true] at h
      obtain ⟨h1, h2, h3, h4⟩ := ih (idx + 1) dec look dec' look' h hl (by omega) hk
        (fun i hi hc => hn i (by omega) hc)
      refine ⟨h1, fun i hi => h2 i (by omega), ?_, fun i hi => h4 i (by simp at hi; omega)⟩
      intro i b hb
      cases i with
      | zero =>
        simp only [List.getElem?_cons_zero, Option.some.injEq] at hb
        subst hb
        simp only [Bool.false_eq_true, if_false]
        rw [h2 _ (by omega)]
        unfold lookAt
        rw [hn _ (by omega) (by omega)]
      | succ i =>
        rw [List.getElem?_cons_succ] at hb
        have := h3 i b hb
        rwa [show idx + 1 + i = idx + (i + 1) by omega] at this
    | true =>
      simp only [Bool.not_true, Bool.false_eq_true, if_false] at h
      split at h
      · cases h
      · rename_i ins hins
        obtain ⟨h1, h2, h3, h4⟩ := ih (idx + 1) _ _ dec' look' h (by simpa using hl) (by omega)
          (by
            intro i k hik
            rw [List.getElem?_set] at hik
            split at hik
            · split at hik
              · simp only [Option.some.injEq] at hik; subst hik; simp
              · cases hik
            · have := hk i k hik; simp; omega)
          (by
            intro i hi hc
            rw [List.getElem?_set, if_neg (by omega)]
            exact hn i (by omega) hc)
        refine ⟨h1, ?_, ?_, fun i hi => h4 i (by simp at hi; omega)⟩
        · intro i hi
          rw [h2 i (by omega)]
          unfold lookAt
          rw [List.getElem?_set, if_neg (by omega)]
          cases hli : look[i]? with
          | none => rfl
          | some o =>
            cases o with
            | none => rfl
            | some k =>
              have := hk i k hli
              simp only []
              rw [List.getElem?_append_left this]
        · intro i b hb
          cases i with
          | zero =>
            simp only [List.getElem?_cons_zero, Option.some.injEq] at hb
            subst hb
            simp only [if_true]
            refine ⟨ins, hins, ?_⟩
            rw [h2 _ (by omega)]
            unfold lookAt
            rw [List.getElem?_set]
            simp only [Nat.add_zero, if_true]
            rw [if_pos (by omega)]
            simp
          | succ i =>
            rw [List.getElem?_cons_succ] at hb
            have := h3 i b hb
            rwa [show idx + 1 + i = idx + (i + 1) by omega] at this

theorem blocksLoop_spec (p : Prog) :
    ∀ cnt n bl, (blocksLoop p cnt n bl).length = bl.length ∧
      ∀ t, t < bl.length → (bitAt (blocksLoop p cnt n bl) t = true ↔ bitAt bl t = true ∨
        ∃ m ins, n ≤ m ∧ m < n + cnt ∧ bitAt p.mask m = true ∧ p.instructionAt m = some ins ∧
          ins.op.terminates = true ∧ t = m + 1 + (p.skips[m]?).getD MAX_SKIP) := by
  intro cnt
  induction cnt with
  | zero =>
    intro n bl
    refine ⟨rfl, fun t _ => ⟨.inl, ?_⟩⟩
    rintro (h | ⟨m, ins, h1, h2, _⟩)
    · exact h
    · omega
  | succ cnt ih =>
    intro n bl
    unfold blocksLoop
    have key : ∀ bl' : List Bool, bl'.length = bl.length →
        (∀ t, t < bl.length → (bitAt bl' t = true ↔ bitAt bl t = true ∨
          ∃ ins, bitAt p.mask n = true ∧ p.instructionAt n = some ins ∧ ins.op.terminates = true ∧
            t = n + 1 + (p.skips[n]?).getD MAX_SKIP)) →
        (blocksLoop p cnt (n + 1) bl').length = bl.length ∧
        ∀ t, t < bl.length → (bitAt (blocksLoop p cnt (n + 1) bl') t = true ↔ bitAt bl t = true ∨
          ∃ m ins, n ≤ m ∧ m < n + (cnt + 1) ∧ bitAt p.mask m = true ∧ p.instructionAt m = some ins ∧
            ins.op.terminates = true ∧ t = m + 1 + (p.skips[m]?).getD MAX_SKIP) := by
      intro bl' hlen hbl
      obtain ⟨h1, h2⟩ := ih (n + 1) bl'
      refine ⟨by rw [h1, hlen], fun t ht => ?_⟩
      rw [h2 t (by omega), hbl t ht]
      constructor
      · rintro ((h | ⟨ins, h⟩) | ⟨m, ins, h1, h2, h3⟩)
        · exact .inl h
        · exact .inr ⟨n, ins, Nat.le_refl _, by omega, h⟩
        · exact .inr ⟨m, ins, by omega, by omega, h3⟩
      · rintro (h | ⟨m, ins, h1, h2, h3⟩)
        · exact .inl (.inl h)
        · by_cases hm : m = n
          · subst hm; exact .inl (.inr ⟨ins, h3⟩)
          · exact .inr ⟨m, ins, by omega, by omega, h3⟩
    apply key
    · repeat' split
      all_goals first
        | rfl
        | (dsimp only; split <;> simp)
    · intro t ht
      split
      · rename_i hb
        cases hi : p.instructionAt n with
        | none => simp
        | some ins =>
          simp only []
          split
          · rename_i hterm
            split
            · rename_i hlt
              rw [bitAt_iff, bitAt_iff, List.getElem?_set]
              split
              · rename_i heq
                simp only [true_iff]
                exact .inr ⟨ins, hb, rfl, hterm, heq.symm⟩
              · rename_i hne
                constructor
                · exact .inl
                · rintro (h | ⟨ins', _, _, _, h⟩)
                  · exact h
                  · exact absurd h.symm hne
            · rename_i hge
              constructor
              · exact .inl
              · rintro (h | ⟨ins', _, _, _, h⟩)
                · exact h
                · omega
          · rename_i hterm
            constructor
            · exact .inl
            · rintro (h | ⟨ins', _, h1, h2, _⟩)
              · exact h
              · cases h1; exact absurd h2 hterm
      · rename_i hb
        constructor
        · exact .inl
        · rintro (h | ⟨ins', h1, _⟩)
          · exact h
          · exact absurd h1 hb

set_option maxRecDepth 100000 in
/-- The terminating opcodes are the terminator bytes and the unassigned bytes. -/
theorem terminates_iff : ∀ b : Nat, b < 256 →
    ((Op.ofByte b).terminates = true ↔ b ∈ terminatorBytes ∨ b ∉ opcodeBytes) := by
  decide

theorem fromBlob_op {blob : List UInt8} {pc skip : Nat} {ins : Instr} (h : fromBlob blob pc skip = .ok ins) :
    ∃ b, blob[0]? = some b ∧ ins.op = Op.ofByte b.toNat := by
  unfold fromBlob byteAt at h
  cases hb : blob[0]? with
  | none => rw [hb] at h; cases h
  | some b =>
    refine ⟨b, rfl, ?_⟩
    rw [hb] at h
    simp only [bind, Except.bind] at h
    repeat' split at h
    all_goals first
      | (cases h; done)
      | (cases h; rfl)

end Fastroll.Pvm
