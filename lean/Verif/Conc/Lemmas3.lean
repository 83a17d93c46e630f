import Verif.Conc.Lemmas2

namespace Fastroll.Conc

open Fastroll.StateCache (Mut Status upd addKey)
open Fastroll.Conc.Paper (alone Foot Within Apart preFoot midFoot endFoot sameHistory)

/-! ### Tasks keep to their keys -/

section
variable {V : Type} {sim : Key → V → V → Prop} {keep : Key → Prop} {F : Foot Key}
  {cl : Key → Bool}

theorem within_fail (e : TErr) : Within sim keep F (fail e : Stf V) cl := trivial

theorem within_getS {k : Key} {n : V → Stf V} (h : F.read k = true ∨ F.write k = true)
    (hn : ∀ v, Within sim keep F (n v) cl) : Within sim keep F (getS k n) cl := by
  refine ⟨?_, fun r => ?_⟩
  · rcases h with h | h
    · exact Or.inl h
    · exact Or.inr (Or.inl h)
  · cases r with
    | none => trivial
    | some v => exact hn v

theorem within_viewS {k : Key} {n : V → Stf V} (h : F.view k = true)
    (hs : ∀ v v', sim k v v' → n v = n v')
    (hn : ∀ v, Within sim keep F (n v) cl) : Within sim keep F (getS k n) cl := by
  refine ⟨Or.inr (Or.inr ⟨h, fun v v' hv => hs v v' hv⟩), fun r => ?_⟩
  cases r with
  | none => trivial
  | some v => exact hn v

theorem within_getCleanS {k : Key} {n : V → Stf V} (h : cl k = true)
    (hn : ∀ v, Within sim keep F (n v) cl) : Within sim keep F (getCleanS k n) cl := by
  refine ⟨h, fun r => ?_⟩
  cases r with
  | none => trivial
  | some v => exact hn v

theorem within_mutS {k : Key} {f : V → Option V} {n : Stf V} (h : F.write k = true)
    (hk : keep k → ∀ v v', f v = some v' → sim k v v')
    (hn : Within sim keep F n cl) : Within sim keep F (mutS k f n) cl := by
  refine ⟨h, fun h => ⟨rfl, hk h⟩, fun r => ?_⟩
  cases r with
  | error e => trivial
  | ok u => exact hn

theorem within_check {b : Bool} {n : Stf V} (hn : Within sim keep F n cl) :
    Within sim keep F (check b n) cl := by
  unfold check
  cases b with
  | false => exact within_fail _
  | true => exact hn

theorem within_each {A : Type} {l : List A} {body : A → Stf V → Stf V} {n : Stf V}
    (hb : ∀ a n, Within sim keep F n cl → Within sim keep F (body a n) cl)
    (hn : Within sim keep F n cl) : Within sim keep F (each l body n) cl := by
  induction l with
  | nil => exact hn
  | cons a l ih => exact hb a _ ih

theorem within_collect {A : Type} {l : List A} {body : A → (V → Stf V) → Stf V} {acc : List V}
    {n : List V → Stf V}
    (hb : ∀ a n, (∀ v, Within sim keep F (n v) cl) → Within sim keep F (body a n) cl)
    (hn : ∀ acc, Within sim keep F (n acc) cl) : Within sim keep F (collect l body acc n) cl := by
  induction l generalizing acc with
  | nil => exact hn acc
  | cons a l ih => exact hb a _ fun v => ih

theorem within_disputes {p : DisputesIn V} {n : Stf V}
    (h : p.empty = false → cl .disputes = true ∧ cl .active = true ∧ cl .past = true)
    (hn : Within sim keep F n cl) : Within sim keep F (validateDisputes p n) cl := by
  unfold validateDisputes
  cases he : p.empty with
  | true => exact hn
  | false =>
    obtain ⟨h1, h2, h3⟩ := h he
    simp only [Bool.false_eq_true, if_false]
    refine within_check (within_getCleanS h1 fun d => within_getCleanS h2 fun a =>
      within_getCleanS h3 fun q => within_check ?_)
    split
    · exact hn
    · exact within_getCleanS h1 fun d' => within_check hn

end

/-- The tasks of the first phase keep to their keys. -/
theorem pre_within {H X : Type} (p : PreIn H X) (sim : Key → Val H X → Val H X → Prop)
    (keep : Key → Prop) (hk : ∀ k, ¬ keep k) (i : PreTask) :
    Within sim keep (preFoot p.progressed p.disputes.empty i) (preTasks p i)
      (preFoot p.progressed p.disputes.empty i).clean := by
  cases i with
  | disputes =>
    refine within_disputes (fun he => ?_) (within_mutS rfl (fun h => absurd h (hk _)) ⟨Or.inl rfl, fun r => ?_⟩)
    · simp [preFoot, he]
    · cases r with
      | none => trivial
      | some st =>
        refine within_getS (Or.inr rfl) fun d => ?_
        split <;> trivial
  | entropy => exact within_mutS rfl (fun h => absurd h (hk _)) trivial
  | past =>
    simp only [preTasks, pastTask]
    split
    · next hp =>
      exact within_getCleanS (by simp [preFoot, hp]) fun a =>
        within_mutS (by simp [preFoot, hp]) (fun h => absurd h (hk _)) trivial
    · trivial
  | active =>
    simp only [preTasks, activeTask]
    split
    · next hp =>
      exact within_getCleanS (by simp [preFoot, hp]) fun a =>
        within_mutS (by simp [preFoot, hp]) (fun h => absurd h (hk _)) trivial
    · trivial
  | history =>
    refine within_getCleanS rfl fun h => ?_
    split
    · trivial
    · exact within_mutS rfl (fun h => absurd h (hk _)) trivial

theorem pre_apart (a b : Bool) : Apart (preFoot a b) := by
  refine ⟨?_, ?_, ?_⟩
  · intro i j k hij hw
    cases i <;> cases j <;> first
      | exact absurd rfl hij
      | (simp [preFoot] at hw ⊢; try (first | (subst hw; simp) | (obtain ⟨-, hw⟩ := hw; subst hw; simp)))
  · intro i k h; cases i <;> cases h
  · intro i j k _ h; cases i <;> cases h

theorem end_apart : Apart endFoot := by
  refine ⟨?_, ?_, ?_⟩
  · intro i j k hij hw
    cases i <;> cases j <;> first
      | exact absurd rfl hij
      | (cases k <;> first | (simp [endFoot]; done) | (simp [endFoot] at hw; done))
  · intro i k h
    cases i <;> cases k <;> first | rfl | cases h
  · intro i j k hij h
    cases i <;> cases k <;> first
      | (simp [endFoot] at h; done)
      | (cases j <;> first | exact absurd rfl hij | simp [endFoot])

theorem mid_apart : Apart midFoot := by
  refine ⟨?_, ?_, ?_⟩
  · intro i j k hij hw
    cases i <;> cases j <;> first
      | exact absurd rfl hij
      | (cases k <;> first | (simp [midFoot]; done) | (simp [midFoot] at hw; done))
  · intro i k h
    cases i <;> cases h
  · intro i j k hij h
    cases i <;> cases h

/-- The tasks of the last phase keep to their keys. -/
theorem end_within {V : Type} (p : EndIn V) (sim : Key → V → V → Prop)
    (keep : Key → Prop) (hk : ∀ k, ¬ keep k) (i : EndTask) :
    Within sim keep (endFoot i) (endTasks p i) (endFoot i).clean := by
  cases i with
  | authPool =>
    exact within_getS (Or.inl rfl) fun q => within_mutS rfl (fun h => absurd h (hk _)) trivial
  | lastAcc =>
    refine within_getS (Or.inl rfl) fun t => within_each (fun svc n hn => ?_) trivial
    refine ⟨Or.inr (Or.inl rfl), fun r => ?_⟩
    cases r with
    | none => exact hn
    | some m => exact within_mutS rfl (fun h => absurd h (hk _)) hn
  | stats =>
    have hrest : Within sim keep (endFoot .stats) (getS .active fun a =>
        if p.keysOk a then
          mutS .stats (fun st => some (p.count a st)) <|
          mutS .stats (fun st => some (p.perBlock st)) (.done (.ok []))
        else fail .other : Stf V) (endFoot .stats).clean := by
      refine within_getS (Or.inl rfl) fun a => ?_
      split
      · exact within_mutS rfl (fun h => absurd h (hk _))
          (within_mutS rfl (fun h => absurd h (hk _)) trivial)
      · trivial
    simp only [endTasks, statsTask]
    split
    · exact within_getS (Or.inr rfl) fun st => within_mutS rfl (fun h => absurd h (hk _)) hrest
    · exact hrest
  | preimages =>
    refine within_check (within_each (fun x n hn => ?_) (within_getS (Or.inl rfl) fun t => ?_))
    · refine ⟨rfl, fun r => ?_⟩
      cases r with
      | some _ => trivial
      | none =>
        refine ⟨rfl, fun l => ?_⟩
        cases l with
        | none => trivial
        | some l => exact within_check hn
    · have : ∀ cl, Within sim keep (endFoot .preimages)
          (each p.preimages (integratePreimage p.unset p.push t) (.done (.ok []))) cl := by
        generalize p.preimages = xs
        induction xs with
        | nil => intro _; trivial
        | cons x xs ih =>
          intro cl
          refine ⟨Or.inr (Or.inl rfl), fun r => ⟨Or.inr (Or.inl rfl), fun l => ?_⟩⟩
          simp only []
          split
          · refine ⟨rfl, fun h => absurd h (hk _), fun q => ?_⟩
            cases q with
            | error e => cases e <;> trivial
            | ok u =>
              refine ⟨rfl, rfl, fun q => ?_⟩
              cases q with
              | error e => trivial
              | ok u => exact ih _
          · exact ih cl
      exact this _

theorem within_useEntropy {H X : Type} {keep : Key → Prop} {F : Foot Key} {cl : Key → Bool}
    {third : Bool} {e : Val H X} {n : H → Stf (Val H X)}
    (hn : ∀ h, Within (sameHistory (H := H) (X := X)) keep F (n h) cl) :
    Within (sameHistory (H := H) (X := X)) keep F (useEntropy third e n) cl := by
  cases e with
  | entropy a b c d => exact hn _
  | other x => trivial

theorem useEntropy_same {H X : Type} {third : Bool} {v v' : Val H X} {n : H → Stf (Val H X)}
    (h : sameHistory .entropy v v') : useEntropy third v n = useEntropy third v' n := by
  rcases h with h | ⟨_, a, b, e1, e2, e3, h1, h2⟩
  · rw [h]
  · rw [h1, h2]; rfl

theorem within_verified {V : Type} {sim : Key → V → V → Prop} {keep : Key → Prop} {F : Foot Key}
    {cl : Key → Bool} {r : Option V} {n : V → Stf V}
    (hn : ∀ v, Within sim keep F (n v) cl) : Within sim keep F (verified r n) cl := by
  cases r with
  | none => trivial
  | some v => exact hn v

theorem within_credential {H X C : Type} {keep : Key → Prop} {cl : Key → Bool}
    (p : GuaranteesIn H (Val H X) C) (g : GuaranteeIn (Val H X) C) (c : C)
    {n : Val H X → Stf (Val H X)}
    (hn : ∀ v, Within sameHistory keep (midFoot .reports) (n v) cl) :
    Within sameHistory keep (midFoot .reports) (validateCredential p g c n) cl := by
  refine within_getS (Or.inl rfl) fun t => ?_
  split
  · refine within_getS (Or.inl rfl) fun t' => within_viewS rfl ?_ fun e =>
      within_useEntropy fun h => within_getS (Or.inl rfl) fun s => within_getS (Or.inl rfl) fun d =>
      within_verified hn
    intro v v' h
    exact useEntropy_same h
  · refine within_getS (Or.inl rfl) fun t' => within_getS (Or.inl rfl) fun d =>
      within_viewS rfl ?_ fun e => ?_
    · intro v v' h
      split
      · exact useEntropy_same h
      · exact useEntropy_same h
    · split
      · exact within_useEntropy fun h => within_getS (Or.inl rfl) fun s => within_verified hn
      · exact within_useEntropy fun h => within_getS (Or.inl rfl) fun s => within_verified hn

theorem within_digest {H X : Type} {keep : Key → Prop} {cl : Key → Bool} {ok : Nat → Val H X → Bool}
    (svc : Nat) (n : Stf (Val H X)) (hn : Within sameHistory keep (midFoot .reports) n cl) :
    Within sameHistory keep (midFoot .reports) (digestCheck ok svc n) cl := by
  refine ⟨Or.inl rfl, fun r => ?_⟩
  cases r with
  | none => trivial
  | some m => exact within_check hn

theorem within_guarantees {H X C : Type} {keep : Key → Prop}
    (p : GuaranteesIn H (Val H X) C) {n : List (Val H X) → Stf (Val H X)}
    (hn : ∀ l, Within sameHistory keep (midFoot .reports) (n l) (midFoot .reports).clean) :
    Within sameHistory keep (midFoot .reports) (validateGuarantees p n)
      (midFoot .reports).clean := by
  unfold validateGuarantees
  split
  · exact hn _
  · refine within_check (within_getS (Or.inr rfl) fun r => within_getCleanS rfl fun r0 =>
      within_getCleanS rfl fun pool => within_getS (Or.inl rfl) fun hist =>
      within_getCleanS rfl fun q => within_getCleanS rfl fun ah => ?_)
    generalize ([] : List (Val H X)) = keys
    generalize p.entries = gs
    induction gs generalizing keys with
    | nil => exact hn _
    | cons g gs ih =>
      exact within_check (within_each within_digest (within_check (within_each within_digest
        (within_check (within_collect (within_credential p g) fun keys' => ih keys')))))

/-- The tasks of the middle phase keep to their keys. -/
theorem mid_within {H X A C : Type} (p : MidIn H X A C) (keep : MidTask → Key → Prop)
    (hk : ∀ k, ¬ keep .reports k) (i : MidTask) :
    Within sameHistory (keep i) (midFoot i) (midTasks p i) (midFoot i).clean := by
  cases i with
  | entropy =>
    refine within_mutS rfl (fun _ v v' h => ?_) trivial
    cases v with
    | entropy a b c d =>
      simp only [accumulateEntropy, Option.map_eq_some_iff] at h
      obtain ⟨x, _, hx⟩ := h
      exact Or.inr ⟨rfl, a, x, b, c, d, rfl, hx.symm⟩
    | other x => cases h
  | reports =>
    refine within_disputes (fun _ => ⟨rfl, rfl, rfl⟩) (within_mutS rfl (fun h => absurd h (hk _)) ?_)
    refine within_check (within_each (fun a n hn => ?_) ?_)
    · exact within_check (within_getCleanS rfl fun s => within_check
        (within_getS (Or.inr rfl) fun r => within_check hn))
    · refine within_getS (Or.inr rfl) fun r => ?_
      split
      · trivial
      · refine within_getS (Or.inl rfl) fun t => ?_
        split
        · trivial
        · exact within_mutS rfl (fun h => absurd h (hk _)) (within_guarantees _ fun keys =>
            within_mutS rfl (fun h => absurd h (hk _)) trivial)

end Fastroll.Conc
