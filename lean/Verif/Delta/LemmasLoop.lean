import Verif.Delta.Lemmas

/-! # Lemmas: the rounds of a block -/
namespace Fastroll.Delta
open Fastroll.Pvm Fastroll.Svc

/-! ## The set of outputs -/

theorem bytesLt_iff : ∀ a b : Bytes, bytesLt a b = true ↔ a < b
  | [], [] => by simp [bytesLt]
  | [], _ :: _ => by simp [bytesLt]
  | _ :: _, [] => by simp [bytesLt]
  | a :: as, b :: bs => by
    unfold bytesLt
    rw [List.cons_lt_cons_iff]
    split
    · simp [*]
    · split
      · rename_i h1 h2; simp [h2, bytesLt_iff as bs]
      · simp [*]

theorem pairLt_iff (a b : Nat × Bytes) : pairLt a b = true ↔ OutLt a b := by
  unfold pairLt OutLt
  split
  · simp [*]
  · split
    · rename_i h1 h2; simp [h1, h2, bytesLt_iff]
    · simp [*]

theorem bytes_trichotomy : ∀ a b : Bytes, a < b ∨ a = b ∨ b < a
  | [], [] => by simp
  | [], _ :: _ => by simp
  | _ :: _, [] => by simp
  | a :: as, b :: bs => by
    simp only [List.cons_lt_cons_iff, List.cons.injEq]
    have := bytes_trichotomy as bs
    by_cases h : a = b
    · subst h
      rcases this with h | h | h
      · exact .inl (.inr ⟨rfl, h⟩)
      · exact .inr (.inl ⟨rfl, h⟩)
      · exact .inr (.inr (.inr ⟨rfl, h⟩))
    · have : a < b ∨ b < a := by
        rcases Nat.lt_trichotomy a.toNat b.toNat with h' | h' | h'
        · exact .inl (UInt8.lt_iff_toNat_lt.2 h')
        · exact absurd (UInt8.toNat_inj.1 h') h
        · exact .inr (UInt8.lt_iff_toNat_lt.2 h')
      rcases this with h | h
      · exact .inl (.inl h)
      · exact .inr (.inr (.inl h))

theorem bytes_trans : ∀ {a b c : Bytes}, a < b → b < c → a < c
  | a, b, [], _, h2 => absurd h2 (List.not_lt_nil b)
  | [], _, _ :: _, _, _ => List.nil_lt_cons ..
  | _ :: _, [], _, h1, _ => absurd h1 (List.not_lt_nil _)
  | a :: as, b :: bs, c :: cs, h1, h2 => by
    simp only [List.cons_lt_cons_iff] at *
    rcases h1 with h1 | ⟨e1, h1⟩ <;> rcases h2 with h2 | ⟨e2, h2⟩
    · exact .inl (UInt8.lt_trans h1 h2)
    · subst e2; exact .inl h1
    · subst e1; exact .inl h2
    · subst e1 e2; exact .inr ⟨rfl, bytes_trans h1 h2⟩

theorem OutLt.trans {a b c : Nat × Bytes} (h1 : OutLt a b) (h2 : OutLt b c) : OutLt a c := by
  unfold OutLt at *
  rcases h1 with h1 | ⟨e1, h1⟩ <;> rcases h2 with h2 | ⟨e2, h2⟩
  · exact .inl (by omega)
  · exact .inl (by omega)
  · exact .inl (by omega)
  · exact .inr ⟨by omega, bytes_trans h1 h2⟩

theorem OutLt.tri (a b : Nat × Bytes) : OutLt a b ∨ a = b ∨ OutLt b a := by
  unfold OutLt
  rcases Nat.lt_trichotomy a.1 b.1 with h | h | h
  · exact .inl (.inl h)
  · rcases bytes_trichotomy a.2 b.2 with h' | h' | h'
    · exact .inl (.inr ⟨h, h'⟩)
    · exact .inr (.inl (Prod.ext h h'))
    · exact .inr (.inr (.inr ⟨h.symm, h'⟩))
  · exact .inr (.inr (.inl h))

theorem insertPair_mem (x y : Nat × Bytes) : ∀ l, y ∈ insertPair x l ↔ y = x ∨ y ∈ l
  | [] => by simp [insertPair]
  | z :: l => by
    unfold insertPair
    split
    · simp
    · split
      · rename_i h; subst h; simp
      · simp only [List.mem_cons, insertPair_mem x y l]
        constructor
        · rintro (h | h | h) <;> simp [h]
        · rintro (h | h | h) <;> simp [h]

theorem insertPair_sorted (x : Nat × Bytes) : ∀ l, l.Pairwise OutLt → (insertPair x l).Pairwise OutLt
  | [], _ => by simp [insertPair]
  | z :: l, h => by
    obtain ⟨h1, h2⟩ := List.pairwise_cons.1 h
    unfold insertPair
    split
    · rename_i c
      have c := (pairLt_iff _ _).1 c
      refine List.pairwise_cons.2 ⟨fun y hy => ?_, h⟩
      rcases List.mem_cons.1 hy with e | e
      · subst e; exact c
      · exact c.trans (h1 y e)
    · rename_i c
      split
      · exact h
      · rename_i d
        refine List.pairwise_cons.2 ⟨fun y hy => ?_, insertPair_sorted x l h2⟩
        rcases (insertPair_mem x y l).1 hy with e | e
        · subst e
          rcases OutLt.tri y z with k | k | k
          · exact absurd ((pairLt_iff _ _).2 k) c
          · exact absurd k d
          · exact k
        · exact h1 y e

theorem fold_mem (y : Nat × Bytes) : ∀ (xs l : List (Nat × Bytes)), y ∈ xs.foldl (fun l x => insertPair x l) l ↔ y ∈ l ∨ y ∈ xs
  | [], l => by simp
  | x :: xs, l => by
    rw [List.foldl_cons, fold_mem y xs, insertPair_mem, List.mem_cons]
    constructor
    · rintro ((h | h) | h) <;> simp [h]
    · rintro (h | h | h) <;> simp [h]

theorem fold_sorted : ∀ (xs l : List (Nat × Bytes)), l.Pairwise OutLt → (xs.foldl (fun l x => insertPair x l) l).Pairwise OutLt
  | [], _, h => h
  | x :: xs, _, h => fold_sorted xs _ (insertPair_sorted x _ h)

/-! ## The loop -/
variable {W : World} {reports : List Acc.Report}

theorem drop_take_split (l : List α) (i n : Nat) : l.drop i = (l.drop i).take n ++ l.drop (i + n) := by
  rw [← List.drop_drop]; exact (List.take_append_drop n _).symm

/-- What the rounds of a finished block are. -/
theorem loop_trace {limit : Nat} : ∀ (fuel : Nat) (o v : Outer), Acc.Sane reports limit (abs o) → loop W reports fuel o = .ok v →
    ∃ Rs : List Round, (∀ R ∈ Rs, R.Faithful W) ∧ Chain o.p o.transfers Rs v.p ∧ AlwaysFirst (o.always.getD []) Rs ∧
      v.idx ≤ reports.length ∧ Paced o.remaining (reports.drop o.idx) Rs (reports.drop v.idx) ∧
      v.gasPairs = o.gasPairs ++ Rs.flatMap (fun R => R.counted.map fun r => (r.host, r.gas)) ∧
      (o.outputs.Pairwise OutLt → v.outputs.Pairwise OutLt) ∧
      (∀ x, x ∈ v.outputs ↔ x ∈ o.outputs ∨ ∃ R ∈ Rs, x ∈ R.outputs) := by
  intro fuel
  induction fuel with
  | zero => intro o v _ h; cases h
  | succ fuel ih =>
    intro o v hs h
    unfold loop at h
    cases hit : iter W reports o with
    | fail e => rw [hit] at h; cases h
    | stop o' =>
      rw [hit] at h
      cases h
      obtain ⟨e, ht, ha, hm⟩ := iter_stop hit
      subst e
      refine ⟨[], by simp, ⟨rfl, ht⟩, ha, hs.idx, ⟨rfl, ?_⟩, by simp, id, by simp⟩
      intro r hr
      have hlt : o.idx < reports.length := by
        apply Nat.lt_of_not_le
        intro c
        rw [List.drop_eq_nil_of_le c] at hr
        cases hr
      have hrem : o.remaining < Acc.U64 := by
        have h1 := hs.budget; have h2 := hs.lim
        unfold Acc.Outer.budget at h1
        have h3 : (abs o).remaining = o.remaining := rfl
        omega
      have hx := Acc.maxProcessable_spec (reports.drop o.idx) o.remaining hrem
      rw [hm hlt] at hx
      apply Nat.lt_of_not_le
      intro c
      have hx1 := hx.2.2 1 (by rw [List.length_drop]; omega) (by
        cases hd : reports.drop o.idx with
        | nil => rw [hd] at hr; cases hr
        | cons r' l => rw [hd] at hr; cases hr; exact c)
      omega
    | next o' =>
      rw [hit] at h
      obtain ⟨n, m, hn, hm, hu, he⟩ := iter_next hit
      obtain ⟨next, hab⟩ := iter_abs hit
      have hs' := (Acc.outerIter_continue exec_ok hs hab).1
      obtain ⟨Rs, h1, h2, h3, h4, h5, h6, h7, h8⟩ := ih o' v hs' h
      obtain ⟨R, r1, r2, r3, r4, r5, r6, r7, r8, r9⟩ := parallel_faithful hm
      have hused : (m.gas.map (·.2)).sum = R.used := by rw [r8, List.map_map]; rfl
      have hbr : (o.transfers.map Transfer.gas).sum = R.brought := by rw [← r3]; rfl
      rw [hused, hbr] at he hu
      have hrem : o.remaining < Acc.U64 := by
        have h1 := hs.budget; have h2 := hs.lim
        unfold Acc.Outer.budget at h1
        have h3 : (abs o).remaining = o.remaining := rfl
        omega
      have hmax : Acc.IsMaxPrefix (reports.drop o.idx) o.remaining n := by
        rw [hn]
        split
        · exact Acc.maxProcessable_spec _ _ hrem
        · rename_i c
          rw [List.drop_eq_nil_of_le (Nat.le_of_not_lt c)]
          exact ⟨Nat.le_refl _, by simp [Acc.totalGas], fun j hj _ => hj⟩
      have hlen : R.reports.length = n := by
        rw [r4, List.length_take]
        exact Nat.min_eq_left hmax.1
      subst he
      refine ⟨R :: Rs, ?_, ⟨r1, r3, ?_⟩, ⟨r5, ?_⟩, h4, ⟨reports.drop (o.idx + n), ?_, ?_, hu, h5⟩, ?_, ?_, ?_⟩
      · intro R' hR'
        rcases List.mem_cons.1 hR' with e | e
        · subst e; exact r7
        · exact h1 R' e
      · rw [r2, r6]; exact h2
      · intro R' hR'
        cases Rs with
        | nil => cases hR'
        | cons R1 Rs =>
          rcases List.mem_cons.1 hR' with e | e
          · subst e; exact h3.1
          · exact h3.2 R' e
      · rw [r4]; exact drop_take_split _ _ _
      · rw [hlen]; exact hmax
      · rw [h6]
        show (o.gasPairs ++ m.gas) ++ _ = _
        rw [List.flatMap_cons, r8, List.append_assoc]
      · intro hp
        exact h7 (fold_sorted _ _ hp)
      · intro x
        rw [h8 x]
        show x ∈ m.hashes.foldl (fun l x => insertPair x l) o.outputs ∨ _ ↔ _
        rw [fold_mem, r9]
        simp only [List.mem_cons, exists_eq_or_imp]
        exact or_assoc

theorem runAll_fuel {u ts always} : ∀ S, runAll W u ts reports always S ≠ .error .fuel
  | [], h => by cases h
  | svc :: S, h => by
    unfold runAll at h
    cases hs : single W u ts reports always svc with
    | error e =>
      rw [hs] at h
      cases h
      unfold single at hs
      repeat' split at hs
      all_goals cases hs
    | ok r =>
      rw [hs] at h
      dsimp only at h
      cases hr : runAll W u ts reports always S with
      | error e => rw [hr] at h; cases h; exact runAll_fuel S hr
      | ok rs => rw [hr] at h; cases h

/-- The rounds end. -/
theorem loop_fuel {limit : Nat} : ∀ (fuel : Nat) (o : Outer), Acc.Sane reports limit (abs o) → (abs o).measure reports < fuel →
    loop W reports fuel o ≠ .error .fuel := by
  intro fuel
  induction fuel with
  | zero => intro o _ h; omega
  | succ fuel ih =>
    intro o hs hm h
    unfold loop at h
    cases hit : iter W reports o with
    | stop o' => rw [hit] at h; cases h
    | fail e =>
      rw [hit] at h
      cases h
      unfold iter at hit
      dsimp only at hit
      generalize (if decide (o.idx < reports.length) = true then Acc.maxProcessable (reports.drop o.idx) o.remaining else 0) = n at hit
      generalize hp : parallel W o.p o.transfers (if n > 0 then (reports.drop o.idx).take n else []) (o.always.getD []) = p at hit
      repeat' split at hit
      all_goals try cases hit
      unfold parallel at hp
      split at hp
      · rename_i e he
        cases hp
        exact runAll_fuel _ he
      · split at hp <;> cases hp
    | next o' =>
      rw [hit] at h
      obtain ⟨next, hab⟩ := iter_abs hit
      have hc := Acc.outerIter_continue exec_ok hs hab
      exact ih o' hc.1 (by have := hc.2.1; omega) h

theorem loop_gas {limit : Nat} : ∀ (fuel : Nat) (o : Outer), Acc.Sane reports limit (abs o) → o.always.getD [] = [] →
    loop W reports fuel o ≠ .error .gas := by
  intro fuel
  induction fuel with
  | zero => intro o _ _ h; cases h
  | succ fuel ih =>
    intro o hs ha h
    unfold loop at h
    cases hit : iter W reports o with
    | stop o' => rw [hit] at h; cases h
    | fail e =>
      rw [hit] at h
      cases h
      exact Acc.outerIter_no_overflow exec_ok hs ha (iter_gas hit)
    | next o' =>
      rw [hit] at h
      obtain ⟨next, hab⟩ := iter_abs hit
      have hc := Acc.outerIter_continue exec_ok hs hab
      refine ih o' hc.1 ?_ h
      have : o'.always = none := hc.2.2.1
      rw [this]; rfl

end Fastroll.Delta
