import Verif.Reports.Steps
/-! Indices out of bounds and missing reports do not occur. -/
namespace Fastroll.Reports
variable {σ : Type}

/-- Not one of the two errors the code treats as impossible. -/
def Sane {α : Type} (x : Except Err α) : Prop := x ≠ .error .panic ∧ x ≠ .error .missing

theorem sane_ok {α : Type} {x : α} : Sane (.ok x : Except Err α) := ⟨(fun h => by cases h), (fun h => by cases h)⟩

theorem sane_err {α β : Type} {e : Err} (h : Sane (.error e : Except Err α)) : Sane (.error e : Except Err β) :=
  ⟨fun h' => h.1 (by injection h' with h'; rw [h']), fun h' => h.2 (by injection h' with h'; rw [h'])⟩

theorem sane_of {α : Type} {e : Err} (h1 : e ≠ .panic) (h2 : e ≠ .missing) : Sane (.error e : Except Err α) :=
  ⟨fun h => h1 (by injection h), fun h => h2 (by injection h)⟩

theorem checkBits_sane {bs : List Bool} {ps : List (Option Pending)} (h : bs.length ≤ ps.length) : Sane (checkBits bs ps) := by
  induction bs generalizing ps with
  | nil => exact sane_ok
  | cons b bs ih =>
    cases ps with
    | nil => simp at h
    | cons p ps =>
      have e : checkBits (b :: bs) (p :: ps) = if b && p.isNone then .error .notPending else checkBits bs ps := by cases b <;> rfl
      rw [e]
      split
      · exact sane_of (by decide) (by decide)
      · exact ih (by simpa using h)

theorem checkAssurances_sane {E : Env σ} {parent : Nat} {pend : List (Option Pending)} {xt : List (Assurance σ)} (h : ∀ a ∈ xt, a.bits.length ≤ pend.length) :
    Sane (checkAssurances E parent pend xt) := by
  induction xt with
  | nil => exact sane_ok
  | cons a xt ih =>
    have ha : Sane (checkAssurance E parent pend a) := by
      unfold checkAssurance
      split
      · exact sane_of (by decide) (by decide)
      · split
        · exact sane_of (by decide) (by decide)
        · split
          · exact sane_of (by decide) (by decide)
          · exact checkBits_sane (h a List.mem_cons_self)
    unfold checkAssurances
    split
    · rename_i e; rw [e] at ha; exact ha
    · exact ih fun a ha => h a (List.mem_cons_of_mem _ ha)

theorem validateAssurances_sane {E : Env σ} {parent : Nat} {pend : List (Option Pending)} {xt : List (Assurance σ)} (h : ∀ a ∈ xt, a.bits.length ≤ pend.length) :
    Sane (validateAssurances E parent pend xt) := by
  unfold validateAssurances
  split
  · exact sane_ok
  split
  · exact sane_of (by decide) (by decide)
  split
  · exact sane_of (by decide) (by decide)
  · exact checkAssurances_sane h

theorem checkGas_sane {svc : Nat → Option (Nat × Nat)} {ds : List Digest} : Sane (checkGas svc ds) := by
  induction ds with
  | nil => exact sane_ok
  | cons d ds ih =>
    unfold checkGas
    split
    · exact sane_of (by decide) (by decide)
    · split
      · exact sane_of (by decide) (by decide)
      · exact ih

theorem checkCode_sane {svc : Nat → Option (Nat × Nat)} {ds : List Digest} : Sane (checkCode svc ds) := by
  induction ds with
  | nil => exact sane_ok
  | cons d ds ih =>
    unfold checkCode
    split
    · exact sane_of (by decide) (by decide)
    · split
      · exact sane_of (by decide) (by decide)
      · exact ih

theorem checkLookup_sane {ms es : List (Nat × Nat)} : Sane (checkLookup ms es) := by
  induction es with
  | nil => exact sane_ok
  | cons d ds ih =>
    unfold checkLookup
    split
    · exact sane_of (by decide) (by decide)
    · split
      · exact sane_of (by decide) (by decide)
      · exact ih

theorem checkPrereqs_sane {pkgs : List Nat} {hist : List Hist} {hs : List Nat} : Sane (checkPrereqs pkgs hist hs) := by
  induction hs with
  | nil => exact sane_ok
  | cons d ds ih =>
    unfold checkPrereqs
    split
    · exact sane_of (by decide) (by decide)
    · exact ih

theorem checkAnchor_sane {hist : List Hist} {r : Report} : Sane (checkAnchor hist r) := by
  unfold checkAnchor
  split
  · exact sane_of (by decide) (by decide)
  split
  · exact sane_of (by decide) (by decide)
  split
  · exact sane_of (by decide) (by decide)
  · exact sane_ok

theorem checkLookupAnchor_sane {P : Par} {E : Env σ} {slot : Nat} {r : Report} : Sane (checkLookupAnchor P E slot r) := by
  unfold checkLookupAnchor
  split
  · exact sane_of (by decide) (by decide)
  split
  · exact sane_ok
  split
  · exact sane_ok
  · exact sane_of (by decide) (by decide)

theorem checkReport_sane {X : Ctx σ} {r : Report} : Sane (checkReport X r) := by
  unfold checkReport
  split
  · exact sane_of (by decide) (by decide)
  split
  · exact sane_of (by decide) (by decide)
  have h1 := checkGas_sane (svc := X.E.service) (ds := r.digests)
  split
  · rename_i e; rw [e] at h1; exact h1
  split
  · split
    · exact sane_of (by decide) (by decide)
    split
    · exact sane_of (by decide) (by decide)
    have h2 := checkAnchor_sane (hist := X.hist) (r := r)
    split
    · rename_i e; rw [e] at h2; exact h2
    have h3 := checkLookupAnchor_sane (P := X.P) (E := X.E) (slot := X.slot) (r := r)
    split
    · rename_i e; rw [e] at h3; exact h3
    split
    · exact sane_of (by decide) (by decide)
    split
    · exact sane_of (by decide) (by decide)
    split
    · exact sane_of (by decide) (by decide)
    have h4 := checkLookup_sane (ms := X.hist.flatMap Hist.packages ++ X.reports.map fun r => (r.pkg, r.seg)) (es := r.lookup)
    split
    · rename_i e; rw [e] at h4; exact h4
    have h5 := checkPrereqs_sane (pkgs := X.reports.map Report.pkg) (hist := X.hist) (hs := r.prereqs)
    split
    · rename_i e; rw [e] at h5; exact h5
    · exact checkCode_sane
  · exact sane_of (by decide) (by decide)

theorem checkCreds_sane {X : Ctx σ} {r : Report} {slot : Nat} {cs : List (Cred σ)} (h : (assignment X slot).keys.length ≤ (assignment X slot).cores.length) :
    Sane (checkCreds X r slot cs) := by
  induction cs with
  | nil => exact sane_ok
  | cons c cs ih =>
    have hc : Sane (checkCred X r slot c) := by
      unfold checkCred
      split
      · exact sane_of (by decide) (by decide)
      rename_i key ek
      split
      · exact sane_of (by decide) (by decide)
      split
      · exact sane_of (by decide) (by decide)
      split
      · exact sane_of (by decide) (by decide)
      split
      · exact sane_of (by decide) (by decide)
      split
      · rename_i en
        have := (List.getElem?_eq_some_iff.1 ek).1
        have := List.getElem?_eq_none_iff.1 en
        omega
      split
      · exact sane_of (by decide) (by decide)
      · exact sane_ok
    unfold checkCreds
    split
    · rename_i e; rw [e] at hc; exact sane_err hc
    split
    · rename_i e; rw [e] at ih; exact ih
    · exact sane_ok

theorem validateGuarantees_sane {X : Ctx σ} {gs : List (Guarantee σ)} (h1 : X.E.current.keys.length ≤ X.E.current.cores.length)
    (h2 : X.E.previous.keys.length ≤ X.E.previous.cores.length) : Sane (validateGuarantees X gs) := by
  have ha : ∀ slot, (assignment X slot).keys.length ≤ (assignment X slot).cores.length := by
    intro slot
    unfold assignment
    split
    · exact h1
    · exact h2
  have hc : Sane (checkGuarantees X gs) := by
    clear h1 h2
    induction gs with
    | nil => exact sane_ok
    | cons g gs ih =>
      unfold checkGuarantees
      have hr := checkReport_sane (X := X) (r := g.report)
      split
      · rename_i e; rw [e] at hr; exact sane_err hr
      have hv : Sane (validateCreds X g) := by
        unfold validateCreds
        split
        · exact sane_of (by decide) (by decide)
        split
        · exact sane_of (by decide) (by decide)
        split
        · exact sane_of (by decide) (by decide)
        · exact checkCreds_sane (ha _)
      split
      · rename_i e; rw [e] at hv; exact sane_err hv
      split
      · rename_i e; rw [e] at ih; exact sane_err ih
      · exact sane_ok
  unfold validateGuarantees
  split
  · exact sane_ok
  split
  · exact sane_of (by decide) (by decide)
  split
  · exact sane_of (by decide) (by decide)
  split
  · exact sane_of (by decide) (by decide)
  · exact hc

end Fastroll.Reports
