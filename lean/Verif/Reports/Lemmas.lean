import Verif.Reports.Spec
import Verif.Judge.Lemmas
/-! Lemmas on assurances, pending reports and guarantees. -/
namespace Fastroll.Reports
open Fastroll.Judge (sortedBy noDup sortedBy_iff nodup_of_noDup noDup_of_nodup)
variable {σ : Type}

theorem increasing_iff {l : List Nat} : Spec.Increasing l ↔ (l.Pairwise (· ≤ ·) ∧ l.Nodup) := Judge.increasing_iff

/-! ## Assurances -/

theorem checkBits_iff {bs : List Bool} {ps : List (Option Pending)} :
    checkBits bs ps = .ok () ↔ ∀ c : Nat, bs[c]? = some true → ∃ p, ps[c]? = some (some p) := by
  induction bs generalizing ps with
  | nil => simp [checkBits]
  | cons b bs ih =>
    cases ps with
    | nil =>
      cases b with
      | true =>
        simp only [checkBits]
        exact ⟨(fun h => by cases h), fun h => by obtain ⟨p, hp⟩ := h 0 rfl; simp at hp⟩
      | false =>
        simp only [checkBits]
        rw [ih]
        constructor
        · intro h c hc
          cases c with
          | zero => simp at hc
          | succ c => obtain ⟨p, hp⟩ := h c (by simpa using hc); simp at hp
        · intro h c hc
          obtain ⟨p, hp⟩ := h (c + 1) (by simpa using hc)
          simp at hp
    | cons q ps =>
      have e : checkBits (b :: bs) (q :: ps) = if b && q.isNone then .error .notPending else checkBits bs ps := by cases b <;> rfl
      rw [e]
      by_cases c : (b && q.isNone) = true
      · rw [if_pos c]
        refine ⟨(fun h => by cases h), fun h => ?_⟩
        simp only [Bool.and_eq_true] at c
        obtain ⟨p, hp⟩ := h 0 (by simp [c.1])
        simp only [List.getElem?_cons_zero, Option.some.injEq] at hp
        rw [hp] at c; simp at c
      · rw [if_neg c, ih]
        constructor
        · intro h i hi
          cases i with
          | zero =>
            simp only [List.getElem?_cons_zero, Option.some.injEq] at hi ⊢
            rw [hi] at c
            cases q with
            | none => simp at c
            | some p => exact ⟨p, rfl⟩
          | succ i => simpa using h i (by simpa using hi)
        · intro h i hi
          simpa using h (i + 1) (by simpa using hi)

theorem checkAssurance_iff {E : Env σ} {parent : Nat} {pend : List (Option Pending)} {a : Assurance σ} :
    checkAssurance E parent pend a = .ok () ↔ Spec.AssuranceOk E parent pend a := by
  unfold checkAssurance Spec.AssuranceOk
  by_cases c : a.parent = parent
  · rw [if_neg (by simpa using c)]
    cases e : E.judge.active[a.voter]? with
    | none => simp
    | some key =>
      dsimp only
      by_cases c2 : E.verAvail key parent a.bits a.sig = true
      · rw [if_neg (by simp [c2]), checkBits_iff]
        exact ⟨fun h => ⟨c, ⟨key, rfl, c2⟩, h⟩, fun h => h.2.2⟩
      · rw [if_pos (by simpa using c2)]
        refine ⟨(fun h => by cases h), fun h => ?_⟩
        obtain ⟨k, ek, hk⟩ := h.2.1
        exact absurd (by rw [Option.some.inj ek]; exact hk) c2
  · rw [if_pos (by simpa using c)]
    exact ⟨(fun h => by cases h), fun h => absurd h.1 c⟩

theorem checkAssurances_iff {E : Env σ} {parent : Nat} {pend : List (Option Pending)} {xt : List (Assurance σ)} :
    checkAssurances E parent pend xt = .ok () ↔ ∀ a ∈ xt, Spec.AssuranceOk E parent pend a := by
  induction xt with
  | nil => exact ⟨fun _ v hv => absurd hv List.not_mem_nil, fun _ => rfl⟩
  | cons a xt ih =>
    unfold checkAssurances
    rw [List.forall_mem_cons, ← checkAssurance_iff]
    cases e : checkAssurance E parent pend a with
    | error _ => exact ⟨(fun h => by cases h), fun h => by cases h.1⟩
    | ok u => cases u; dsimp only; rw [ih]; simp

theorem validateAssurances_iff {E : Env σ} {parent : Nat} {pend : List (Option Pending)} {xt : List (Assurance σ)} :
    validateAssurances E parent pend xt = .ok () ↔ (Spec.Increasing (xt.map Assurance.voter) ∧ ∀ a ∈ xt, Spec.AssuranceOk E parent pend a) := by
  unfold validateAssurances
  by_cases c1 : xt.isEmpty = true
  · rw [if_pos c1]
    have := List.isEmpty_iff.1 c1
    rw [this]
    simp [Spec.Increasing]
  rw [if_neg c1]
  by_cases c2 : (!sortedBy Assurance.voter xt) = true
  · rw [if_pos c2]
    refine ⟨(fun h => by cases h), fun h => ?_⟩
    rw [sortedBy_iff.2 (increasing_iff.1 h.1).1] at c2
    simp at c2
  rw [if_neg c2]
  by_cases c3 : (!noDup (xt.map Assurance.voter) []) = true
  · rw [if_pos c3]
    refine ⟨(fun h => by cases h), fun h => ?_⟩
    rw [noDup_of_nodup (increasing_iff.1 h.1).2] at c3
    simp at c3
  rw [if_neg c3, checkAssurances_iff]
  exact ⟨fun h => ⟨increasing_iff.2 ⟨sortedBy_iff.1 (by simpa using c2), nodup_of_noDup (by simpa using c3)⟩, h⟩, fun h => h.2⟩

/-! ## Counting -/

theorem addBits_get {ns : List Nat} {bs : List Bool} {ms : List Nat} (h : addBits ns bs = some ms) (c : Nat) :
    ms[c]? = ns[c]?.map fun n => n + (if bs[c]? = some true then 1 else 0) := by
  induction ns generalizing bs ms c with
  | nil =>
    cases bs with
    | nil => unfold addBits at h; injection h with h; rw [← h]; simp
    | cons b bs => cases h
  | cons n ns ih =>
    cases bs with
    | nil => unfold addBits at h; injection h with h; rw [← h]; simp
    | cons b bs =>
      unfold addBits at h
      obtain ⟨ks, hk, e⟩ := Option.map_eq_some_iff.1 h
      rw [← e]
      cases c with
      | zero => cases b <;> simp
      | succ c => simpa using ih hk c

theorem addBits_some {ns : List Nat} {bs : List Bool} : (∃ ms, addBits ns bs = some ms) ↔ bs.length ≤ ns.length := by
  induction ns generalizing bs with
  | nil => cases bs <;> simp [addBits]
  | cons n ns ih =>
    cases bs with
    | nil => simp [addBits]
    | cons b bs =>
      simp only [addBits, List.length_cons, Nat.add_le_add_iff_right, ← ih]
      constructor
      · rintro ⟨ms, h⟩
        obtain ⟨ks, hk, _⟩ := Option.map_eq_some_iff.1 h
        exact ⟨ks, hk⟩
      · rintro ⟨ms, h⟩
        exact ⟨_, by rw [h]; rfl⟩

theorem counts_get {xt : List (Assurance σ)} {ns ms : List Nat} (h : counts xt ns = some ms) (c : Nat) :
    ms[c]? = ns[c]?.map fun n => n + (Spec.assurers xt c).length := by
  induction xt generalizing ns with
  | nil => unfold counts at h; injection h with h; rw [← h]; simp [Spec.assurers]
  | cons a xt ih =>
    unfold counts at h
    obtain ⟨ks, hk, hm⟩ := Option.bind_eq_some_iff.1 h
    rw [ih hm, addBits_get hk c]
    cases ns[c]? with
    | none => rfl
    | some n =>
      simp only [Option.map_some, Option.some.injEq, Spec.assurers, List.length_map, List.filter_cons]
      by_cases cc : a.bits[c]? = some true <;> simp [cc]
      omega

theorem addBits_length {ns : List Nat} {bs : List Bool} {ms : List Nat} (h : addBits ns bs = some ms) : ms.length = ns.length := by
  induction ns generalizing bs ms with
  | nil =>
    cases bs with
    | nil => unfold addBits at h; injection h with h; rw [← h]
    | cons b bs => cases h
  | cons n ns ih =>
    cases bs with
    | nil => unfold addBits at h; injection h with h; rw [← h]
    | cons b bs =>
      unfold addBits at h
      obtain ⟨ks, hk, e⟩ := Option.map_eq_some_iff.1 h
      rw [← e]; simp [ih hk]

theorem counts_some {xt : List (Assurance σ)} {ns : List Nat} : (∃ ms, counts xt ns = some ms) ↔ ∀ a ∈ xt, a.bits.length ≤ ns.length := by
  induction xt generalizing ns with
  | nil => simp [counts]
  | cons a xt ih =>
    unfold counts
    rw [List.forall_mem_cons, ← addBits_some]
    cases e : addBits ns a.bits with
    | none => simp
    | some ks =>
      have := addBits_length e
      simp only [Option.bind_some, ih, this]
      simp

theorem mem_reached {q : Nat} {ns : List Nat} {i c : Nat} : c ∈ reached q ns i ↔ ∃ j n, c = i + j ∧ ns[j]? = some n ∧ q ≤ n := by
  induction ns generalizing i with
  | nil => simp [reached]
  | cons n ns ih =>
    have hs : c ∈ reached q ns (i + 1) ↔ ∃ j m, c = i + (j + 1) ∧ (n :: ns)[j + 1]? = some m ∧ q ≤ m := by
      rw [ih]
      simp only [List.getElem?_cons_succ]
      constructor
      · rintro ⟨j, m, e, h⟩; exact ⟨j, m, by omega, h⟩
      · rintro ⟨j, m, e, h⟩; exact ⟨j, m, by omega, h⟩
    unfold reached
    split
    · rename_i hq
      rw [List.mem_cons, hs]
      constructor
      · rintro (e | ⟨j, m, h⟩)
        · exact ⟨0, n, by omega, rfl, hq⟩
        · exact ⟨j + 1, m, h⟩
      · rintro ⟨j, m, e, h⟩
        cases j with
        | zero => exact Or.inl (by omega)
        | succ j => exact Or.inr ⟨j, m, e, h⟩
    · rename_i hq
      rw [hs]
      constructor
      · rintro ⟨j, m, h⟩; exact ⟨j + 1, m, h⟩
      · rintro ⟨j, m, e, h1, h2⟩
        cases j with
        | zero => simp only [List.getElem?_cons_zero, Option.some.injEq] at h1; omega
        | succ j => exact ⟨j, m, e, h1, h2⟩

theorem reached_up {q : Nat} {ns : List Nat} {i : Nat} : Spec.Increasing (reached q ns i) := by
  induction ns generalizing i with
  | nil => exact List.Pairwise.nil
  | cons n ns ih =>
    unfold reached
    split
    · refine List.pairwise_cons.2 ⟨fun c hc => ?_, ih⟩
      obtain ⟨j, _, e, _⟩ := mem_reached.1 hc
      omega
    · exact ih

theorem super_le {V n : Nat} : Judge.super V ≤ n ↔ Spec.Supermajority V n := by
  unfold Judge.super Spec.Supermajority
  omega

theorem mem_available {P : Par} {xt : List (Assurance σ)} {cs : List Nat} (h : availableCores P xt = some cs) (c : Nat) :
    c ∈ cs ↔ c < P.C ∧ Spec.Supermajority P.V (Spec.assurers xt c).length := by
  unfold availableCores at h
  obtain ⟨ns, hn, e⟩ := Option.map_eq_some_iff.1 h
  rw [← e, mem_reached, ← super_le]
  have hc := counts_get hn c
  rw [List.getElem?_replicate] at hc
  constructor
  · rintro ⟨j, n, ej, hj, hq⟩
    have ej : c = j := by omega
    subst ej
    rw [hc] at hj
    by_cases hl : c < P.C
    · rw [if_pos hl] at hj
      simp only [Option.map_some, Option.some.injEq] at hj
      exact ⟨hl, by omega⟩
    · rw [if_neg hl] at hj; simp at hj
  · rintro ⟨hl, hq⟩
    rw [if_pos hl] at hc
    exact ⟨c, _, by omega, hc, by simpa using hq⟩

theorem available_up {P : Par} {xt : List (Assurance σ)} {cs : List Nat} (h : availableCores P xt = some cs) : Spec.Increasing cs := by
  unfold availableCores at h
  obtain ⟨ns, hn, e⟩ := Option.map_eq_some_iff.1 h
  rw [← e]; exact reached_up

theorem available_some {P : Par} {xt : List (Assurance σ)} : (∃ cs, availableCores P xt = some cs) ↔ ∀ a ∈ xt, a.bits.length ≤ P.C := by
  unfold availableCores
  have := counts_some (xt := xt) (ns := List.replicate P.C 0)
  rw [List.length_replicate] at this
  rw [← this]
  constructor
  · rintro ⟨cs, h⟩
    obtain ⟨ns, hn, _⟩ := Option.map_eq_some_iff.1 h
    exact ⟨ns, hn⟩
  · rintro ⟨ns, h⟩
    exact ⟨_, by rw [h]; rfl⟩

/-! ## Removal -/

theorem collect_ok {pend : List (Option Pending)} {cs : List Nat} {rs : List Report} (h : collect pend cs = .ok rs) :
    rs.map some = cs.map fun c => (pend[c]?.bind id).map Pending.report := by
  induction cs generalizing rs with
  | nil => unfold collect at h; injection h with h; rw [← h]; rfl
  | cons c cs ih =>
    unfold collect at h
    split at h
    · rename_i p e
      split at h
      · cases h
      · rename_i rs' e'
        injection h with h
        rw [← h, List.map_cons, List.map_cons, ih e', e]
        rfl
    · cases h

theorem collect_some {pend : List (Option Pending)} {cs : List Nat} (h : ∀ c ∈ cs, ∃ p, pend[c]? = some (some p)) : ∃ rs, collect pend cs = .ok rs := by
  induction cs with
  | nil => exact ⟨[], rfl⟩
  | cons c cs ih =>
    obtain ⟨p, hp⟩ := h c List.mem_cons_self
    obtain ⟨rs, hr⟩ := ih fun c hc => h c (List.mem_cons_of_mem _ hc)
    exact ⟨p.report :: rs, by unfold collect; rw [hp, hr]⟩

theorem clear_length {pend : List (Option Pending)} {cs : List Nat} : (clear pend cs).length = pend.length := by
  unfold clear
  induction cs generalizing pend with
  | nil => rfl
  | cons c cs ih => rw [List.foldl_cons, ih, List.length_set]

theorem clear_get {pend : List (Option Pending)} {cs : List Nat} (c : Nat) :
    (clear pend cs)[c]? = if c ∈ cs then pend[c]?.map fun _ => none else pend[c]? := by
  unfold clear
  induction cs generalizing pend with
  | nil => simp
  | cons d cs ih =>
    rw [List.foldl_cons, ih]
    by_cases e : d = c
    · subst e
      by_cases hl : d < pend.length <;> simp [List.getElem?_set, hl]
    · rw [List.getElem?_set_ne e]
      by_cases m : c ∈ cs
      · simp [m]
      · have : c ∉ d :: cs := by simp [m]; exact fun h => e h.symm
        rw [if_neg m, if_neg this]

theorem clear_at {pend : List (Option Pending)} {cs : List Nat} {c : Nat} {p : Pending} :
    Spec.At (clear pend cs) c p ↔ Spec.At pend c p ∧ c ∉ cs := by
  unfold Spec.At
  rw [clear_get]
  by_cases m : c ∈ cs
  · simp [m]
  · simp [m]

theorem mem_timedOut {P : Par} {slot : Nat} {ps : List (Option Pending)} {i c : Nat} :
    c ∈ timedOut P slot ps i ↔ ∃ j p, c = i + j ∧ ps[j]? = some (some p) ∧ p.slot + P.timeout ≤ slot := by
  induction ps generalizing i with
  | nil => simp [timedOut]
  | cons q ps ih =>
    have hs : c ∈ timedOut P slot ps (i + 1) ↔ ∃ j p, c = i + (j + 1) ∧ (q :: ps)[j + 1]? = some (some p) ∧ p.slot + P.timeout ≤ slot := by
      rw [ih]
      simp only [List.getElem?_cons_succ]
      constructor
      · rintro ⟨j, m, e, h⟩; exact ⟨j, m, by omega, h⟩
      · rintro ⟨j, m, e, h⟩; exact ⟨j, m, by omega, h⟩
    cases q with
    | none =>
      unfold timedOut
      rw [hs]
      constructor
      · rintro ⟨j, m, h⟩; exact ⟨j + 1, m, h⟩
      · rintro ⟨j, m, e, h1, h2⟩
        cases j with
        | zero => simp at h1
        | succ j => exact ⟨j, m, e, h1, h2⟩
    | some p =>
      unfold timedOut
      split
      · rename_i hq
        rw [List.mem_cons, hs]
        constructor
        · rintro (e | ⟨j, m, h⟩)
          · exact ⟨0, p, by omega, rfl, hq⟩
          · exact ⟨j + 1, m, h⟩
        · rintro ⟨j, m, e, h⟩
          cases j with
          | zero => exact Or.inl (by omega)
          | succ j => exact Or.inr ⟨j, m, e, h⟩
      · rename_i hq
        rw [hs]
        constructor
        · rintro ⟨j, m, h⟩; exact ⟨j + 1, m, h⟩
        · rintro ⟨j, m, e, h1, h2⟩
          cases j with
          | zero =>
            simp only [List.getElem?_cons_zero, Option.some.injEq] at h1
            rw [← h1] at h2
            exact absurd h2 hq
          | succ j => exact ⟨j, m, e, h1, h2⟩

theorem mem_timedOut' {P : Par} {slot : Nat} {ps : List (Option Pending)} {c : Nat} :
    c ∈ timedOut P slot ps 0 ↔ ∃ p, Spec.At ps c p ∧ p.slot + P.timeout ≤ slot := by
  rw [mem_timedOut]
  constructor
  · rintro ⟨j, p, e, h⟩; rw [Nat.zero_add] at e; rw [e]; exact ⟨p, h⟩
  · rintro ⟨p, h⟩; exact ⟨c, p, by omega, h⟩

/-! ## Elimination -/

theorem removeHash_length {hash : Report → Nat} {h : Nat} {ps : List (Option Pending)} : (removeHash hash h ps).length = ps.length := by
  induction ps with
  | nil => rfl
  | cons q ps ih =>
    cases q with
    | none => simp [removeHash, ih]
    | some p => unfold removeHash; split <;> simp [ih]

/-- What is left was there. -/
theorem removeHash_at {hash : Report → Nat} {h : Nat} {ps : List (Option Pending)} {c : Nat} {p : Pending} (H : Spec.At (removeHash hash h ps) c p) :
    Spec.At ps c p := by
  unfold Spec.At at *
  induction ps generalizing c with
  | nil => exact H
  | cons q ps ih =>
    cases q with
    | none =>
      unfold removeHash at H
      cases c with
      | zero => simpa using H
      | succ c => simpa using ih (by simpa using H)
    | some q =>
      unfold removeHash at H
      split at H
      · cases c with
        | zero => simp at H
        | succ c => simpa using H
      · cases c with
        | zero => simpa using H
        | succ c => simpa using ih (by simpa using H)

/-- What goes has the hash. -/
theorem removeHash_keep {hash : Report → Nat} {h : Nat} {ps : List (Option Pending)} {c : Nat} {p : Pending} (H : Spec.At ps c p)
    (hne : hash p.report ≠ h) : Spec.At (removeHash hash h ps) c p := by
  unfold Spec.At at *
  induction ps generalizing c with
  | nil => exact H
  | cons q ps ih =>
    cases q with
    | none =>
      unfold removeHash
      cases c with
      | zero => simpa using H
      | succ c => simpa using ih (by simpa using H)
    | some q =>
      unfold removeHash
      split
      · rename_i e
        cases c with
        | zero =>
          simp only [List.getElem?_cons_zero, Option.some.injEq] at H
          rw [H] at e; exact absurd e hne
        | succ c => simpa using H
      · cases c with
        | zero => simpa using H
        | succ c => simpa using ih (by simpa using H)

/-- A report with the hash that is left is shadowed by one on an earlier core. -/
theorem removeHash_left {hash : Report → Nat} {h : Nat} {ps : List (Option Pending)} {c : Nat} {p : Pending}
    (H : Spec.At (removeHash hash h ps) c p) (he : hash p.report = h) : ∃ c' p', c' < c ∧ Spec.At ps c' p' ∧ hash p'.report = h := by
  unfold Spec.At at *
  induction ps generalizing c with
  | nil => simp [removeHash] at H
  | cons q ps ih =>
    cases q with
    | none =>
      unfold removeHash at H
      cases c with
      | zero => simp at H
      | succ c =>
        obtain ⟨c', p', h1, h2, h3⟩ := ih (by simpa using H)
        exact ⟨c' + 1, p', by omega, by simpa using h2, h3⟩
    | some q =>
      unfold removeHash at H
      split at H
      · rename_i e
        cases c with
        | zero => simp at H
        | succ c => exact ⟨0, q, by omega, rfl, e⟩
      · rename_i e
        cases c with
        | zero =>
          simp only [List.getElem?_cons_zero, Option.some.injEq] at H
          rw [H] at e; exact absurd he e
        | succ c =>
          obtain ⟨c', p', h1, h2, h3⟩ := ih (by simpa using H)
          exact ⟨c' + 1, p', by omega, by simpa using h2, h3⟩

def removeAll (hash : Report → Nat) (hs : List Nat) (ps : List (Option Pending)) : List (Option Pending) := hs.foldl (fun ps h => removeHash hash h ps) ps

theorem removeAll_length {hash : Report → Nat} {hs : List Nat} {ps : List (Option Pending)} : (removeAll hash hs ps).length = ps.length := by
  unfold removeAll
  induction hs generalizing ps with
  | nil => rfl
  | cons h hs ih => rw [List.foldl_cons, ih, removeHash_length]

theorem removeAll_at {hash : Report → Nat} {hs : List Nat} {ps : List (Option Pending)} {c : Nat} {p : Pending} (H : Spec.At (removeAll hash hs ps) c p) :
    Spec.At ps c p := by
  unfold removeAll at H
  induction hs generalizing ps with
  | nil => exact H
  | cons h hs ih => exact removeHash_at (ih H)

theorem removeAll_keep {hash : Report → Nat} {hs : List Nat} {ps : List (Option Pending)} {c : Nat} {p : Pending} (H : Spec.At ps c p)
    (hne : hash p.report ∉ hs) : Spec.At (removeAll hash hs ps) c p := by
  unfold removeAll
  induction hs generalizing ps with
  | nil => exact H
  | cons h hs ih =>
    rw [List.mem_cons, not_or] at hne
    exact ih (removeHash_keep H hne.1) hne.2

theorem removeAll_left {hash : Report → Nat} {hs : List Nat} {ps : List (Option Pending)} {c : Nat} {p : Pending}
    (H : Spec.At (removeAll hash hs ps) c p) (he : hash p.report ∈ hs) : ∃ c' p', c' < c ∧ Spec.At ps c' p' ∧ hash p'.report = hash p.report := by
  unfold removeAll at H
  induction hs generalizing ps with
  | nil => exact absurd he List.not_mem_nil
  | cons h hs ih =>
    rw [List.foldl_cons] at H
    by_cases e : hash p.report = h
    · obtain ⟨c', p', h1, h2, h3⟩ := removeHash_left (removeAll_at (hs := hs) H) e
      exact ⟨c', p', h1, h2, by rw [h3, e]⟩
    · rcases List.mem_cons.1 he with e' | he
      · exact absurd e' e
      · obtain ⟨c', p', h1, h2, h3⟩ := ih H he
        exact ⟨c', p', h1, removeHash_at h2, h3⟩

theorem mem_condemned {V : Nat} {xt : Judge.Xt σ} {h : Nat} :
    h ∈ Judge.split V .bad xt.verdicts ++ Judge.split V .wonky xt.verdicts ↔ Spec.Condemned V xt h := by
  rw [List.mem_append, Judge.mem_split, Judge.mem_split]
  unfold Spec.Condemned
  constructor
  · rintro (⟨v, hv, e, h⟩ | ⟨v, hv, e, h⟩)
    · exact ⟨v, hv, e, Or.inl (Judge.eval_bad.1 h)⟩
    · exact ⟨v, hv, e, Or.inr (Judge.eval_wonky.1 h).1⟩
  · rintro ⟨v, hv, e, h⟩
    by_cases c : Judge.Spec.ayes v = 0
    · exact Or.inl ⟨v, hv, e, Judge.eval_bad.2 c⟩
    · rcases h with h | h
      · exact absurd h c
      · refine Or.inr ⟨v, hv, e, Judge.eval_wonky.2 ⟨h, ?_⟩⟩
        change Judge.Spec.ayes v = V / 3 at h
        omega

/-! ## Placement -/

theorem place_length {slot : Nat} {pend : List (Option Pending)} {xt : List (Guarantee σ)} : (place slot pend xt).length = pend.length := by
  unfold place
  induction xt generalizing pend with
  | nil => rfl
  | cons g xt ih => rw [List.foldl_cons, ih, List.length_set]

theorem place_other {slot : Nat} {pend : List (Option Pending)} {xt : List (Guarantee σ)} {c : Nat} (h : ∀ g ∈ xt, g.report.core ≠ c) :
    (place slot pend xt)[c]? = pend[c]? := by
  unfold place
  induction xt generalizing pend with
  | nil => rfl
  | cons g xt ih =>
    rw [List.foldl_cons, ih fun g hg => h g (List.mem_cons_of_mem _ hg), List.getElem?_set_ne (h g List.mem_cons_self)]

theorem place_at {slot : Nat} {pend : List (Option Pending)} {xt : List (Guarantee σ)} (hn : (xt.map fun g => g.report.core).Nodup) {g : Guarantee σ}
    (hg : g ∈ xt) (hl : g.report.core < pend.length) : Spec.At (place slot pend xt) g.report.core ⟨g.report, slot⟩ := by
  unfold Spec.At
  induction xt generalizing pend with
  | nil => exact absurd hg List.not_mem_nil
  | cons a xt ih =>
    rw [List.map_cons, List.nodup_cons] at hn
    rcases List.mem_cons.1 hg with e | hg
    · subst e
      have : ∀ a ∈ xt, a.report.core ≠ g.report.core := fun a ha e => hn.1 (List.mem_map.2 ⟨a, ha, e⟩)
      have := place_other (slot := slot) (pend := pend.set g.report.core (some ⟨g.report, slot⟩)) this
      unfold place at this ⊢
      rw [List.foldl_cons, this, List.getElem?_set_self hl]
    · unfold place at ih ⊢
      rw [List.foldl_cons]
      exact ih hn.2 hg (by rw [List.length_set]; exact hl)

/-! ## Guarantees -/

theorem checkGas_iff {svc : Nat → Option (Nat × Nat)} {ds : List Digest} :
    checkGas svc ds = .ok () ↔ ∀ d ∈ ds, ∃ code minGas, svc d.service = some (code, minGas) ∧ minGas ≤ d.gas := by
  induction ds with
  | nil => exact ⟨fun _ v hv => absurd hv List.not_mem_nil, fun _ => rfl⟩
  | cons d ds ih =>
    unfold checkGas
    rw [List.forall_mem_cons]
    cases e : svc d.service with
    | none => simp
    | some x =>
      obtain ⟨code, mg⟩ := x
      dsimp only
      by_cases c : d.gas < mg
      · rw [if_pos c]
        refine ⟨(fun h => by cases h), fun h => ?_⟩
        obtain ⟨_, m, e1, e2⟩ := h.1
        injection e1 with e1; injection e1 with _ e1
        omega
      · rw [if_neg c, ih]
        exact ⟨fun h => ⟨⟨code, mg, rfl, by omega⟩, h⟩, fun h => h.2⟩

theorem checkCode_iff {svc : Nat → Option (Nat × Nat)} {ds : List Digest} :
    checkCode svc ds = .ok () ↔ ∀ d ∈ ds, ∃ code minGas, svc d.service = some (code, minGas) ∧ code = d.code := by
  induction ds with
  | nil => exact ⟨fun _ v hv => absurd hv List.not_mem_nil, fun _ => rfl⟩
  | cons d ds ih =>
    unfold checkCode
    rw [List.forall_mem_cons]
    cases e : svc d.service with
    | none => simp
    | some x =>
      obtain ⟨code, mg⟩ := x
      dsimp only
      by_cases c : code = d.code
      · rw [if_neg (by simpa using c), ih]
        exact ⟨fun h => ⟨⟨code, mg, rfl, c⟩, h⟩, fun h => h.2⟩
      · rw [if_pos c]
        refine ⟨(fun h => by cases h), fun h => ?_⟩
        obtain ⟨_, m, e1, e2⟩ := h.1
        injection e1 with e1; injection e1 with e1 _
        exact absurd (by rw [e1]; exact e2) c

theorem checkAnchor_iff {hist : List Hist} {r : Report} :
    checkAnchor hist r = .ok () ↔ ∃ e, (hist.find? fun e => e.header == r.anchor) = some e ∧ e.root = r.anchorRoot ∧ e.mmr = r.anchorMmr := by
  unfold checkAnchor
  cases e : hist.find? fun e => e.header == r.anchor with
  | none => simp
  | some x =>
    dsimp only
    by_cases c1 : x.root = r.anchorRoot
    · rw [if_neg (by simpa using c1)]
      by_cases c2 : x.mmr = r.anchorMmr
      · rw [if_neg (by simpa using c2)]
        exact ⟨fun _ => ⟨x, rfl, c1, c2⟩, fun _ => rfl⟩
      · rw [if_pos c2]
        refine ⟨(fun h => by cases h), fun ⟨y, e1, _, e2⟩ => ?_⟩
        exact absurd (by rw [Option.some.inj e1]; exact e2) c2
    · rw [if_pos c1]
      refine ⟨(fun h => by cases h), fun ⟨y, e1, e2, _⟩ => ?_⟩
      exact absurd (by rw [Option.some.inj e1]; exact e2) c1

theorem checkLookupAnchor_iff {P : Par} {E : Env σ} {slot : Nat} {r : Report} :
    checkLookupAnchor P E slot r = .ok () ↔ (slot ≤ r.lookupSlot + P.maxAge ∧ ∀ anc, E.ancestors = some anc → anc r.lookupSlot r.lookupHash = true) := by
  unfold checkLookupAnchor
  by_cases c : r.lookupSlot < slot - P.maxAge
  · rw [if_pos c]
    exact ⟨(fun h => by cases h), fun h => by have := h.1; omega⟩
  · rw [if_neg c]
    cases E.ancestors with
    | none => exact ⟨fun _ => ⟨by omega, fun _ h => by cases h⟩, fun _ => rfl⟩
    | some anc =>
      dsimp only
      by_cases c2 : anc r.lookupSlot r.lookupHash = true
      · rw [if_pos c2]
        exact ⟨fun _ => ⟨by omega, fun a h => by rw [← Option.some.inj h]; exact c2⟩, fun _ => rfl⟩
      · rw [if_neg c2]
        exact ⟨(fun h => by cases h), fun h => absurd (h.2 anc rfl) c2⟩

theorem inHist_iff {hist : List Hist} {p : Nat} : inHist hist p = true ↔ ∃ m ∈ Spec.recent hist, m.1 = p := by
  unfold inHist Spec.recent
  simp only [List.any_eq_true, List.contains_eq_mem, List.mem_map, decide_eq_true_eq, List.mem_flatMap]
  constructor
  · rintro ⟨e, he, m, hm, em⟩; exact ⟨m, ⟨e, he, hm⟩, em⟩
  · rintro ⟨m, ⟨e, he, hm⟩, em⟩; exact ⟨e, he, m, hm, em⟩

theorem mem_pendingPkgs {pend : List (Option Pending)} {k : Nat} : k ∈ pendingPkgs pend ↔ ∃ c p, Spec.At pend c p ∧ p.report.pkg = k := by
  unfold pendingPkgs Spec.At
  simp only [List.mem_map, List.mem_filterMap, id_eq]
  constructor
  · rintro ⟨p, ⟨o, ho, e⟩, ep⟩
    obtain ⟨c, hc⟩ := List.getElem?_of_mem ho
    exact ⟨c, p, by rw [hc, e], ep⟩
  · rintro ⟨c, p, h, e⟩
    exact ⟨p, ⟨some p, List.mem_of_getElem? h, rfl⟩, e⟩

theorem checkLookup_iff {ms es : List (Nat × Nat)} : checkLookup ms es = .ok () ↔ ∀ l ∈ es, (ms.find? fun m => m.1 == l.1) = some l := by
  induction es with
  | nil => exact ⟨fun _ v hv => absurd hv List.not_mem_nil, fun _ => rfl⟩
  | cons l es ih =>
    unfold checkLookup
    rw [List.forall_mem_cons]
    cases e : ms.find? fun m => m.1 == l.1 with
    | none => simp
    | some m =>
      dsimp only
      have h1 : m.1 = l.1 := by simpa using List.find?_some e
      by_cases c : m.2 = l.2
      · rw [if_neg (by simpa using c), ih]
        exact ⟨fun h => ⟨by rw [Prod.ext h1 c], h⟩, fun h => h.2⟩
      · rw [if_pos c]
        refine ⟨(fun h => by cases h), fun h => ?_⟩
        exact absurd (by rw [Option.some.inj h.1]) c

theorem checkPrereqs_iff {pkgs : List Nat} {hist : List Hist} {hs : List Nat} :
    checkPrereqs pkgs hist hs = .ok () ↔ ∀ h ∈ hs, h ∈ pkgs ∨ ∃ m ∈ Spec.recent hist, m.1 = h := by
  induction hs with
  | nil => exact ⟨fun _ v hv => absurd hv List.not_mem_nil, fun _ => rfl⟩
  | cons x hs ih =>
    unfold checkPrereqs
    rw [List.forall_mem_cons]
    by_cases c : (!pkgs.contains x && !inHist hist x) = true
    · rw [if_pos c]
      refine ⟨(fun h => by cases h), fun h => ?_⟩
      simp only [Bool.and_eq_true, Bool.not_eq_true', List.contains_eq_mem, decide_eq_false_iff_not] at c
      rcases h.1 with h | h
      · exact absurd h c.1
      · rw [inHist_iff.2 h] at c; simp at c
    · rw [if_neg c, ih]
      refine ⟨fun h => ⟨?_, h⟩, fun h => h.2⟩
      simp only [Bool.and_eq_true, Bool.not_eq_true', List.contains_eq_mem, decide_eq_false_iff_not] at c
      by_cases m : x ∈ pkgs
      · exact Or.inl m
      · refine Or.inr (inHist_iff.1 ?_)
        cases e : inHist hist x with
        | true => rfl
        | false => exact absurd ⟨m, e⟩ c

theorem checkReport_iff {X : Ctx σ} {r : Report} (hm : X.P.maxGas < 2 ^ 64 - 1) :
    checkReport X r = .ok () ↔ Spec.ReportOk X.P X.E X.slot X.pend X.pend0 X.pools X.hist X.reports r := by
  have hg : totalGas r.digests > X.P.maxGas ↔ ¬ (r.digests.map Digest.gas).sum ≤ X.P.maxGas := by
    unfold totalGas
    split <;> omega
  unfold checkReport
  by_cases c1 : totalBytes r > X.P.maxBytes
  · rw [if_pos c1]
    exact ⟨(fun h => by cases h), fun h => by have := h.size; unfold totalBytes at c1; omega⟩
  rw [if_neg c1]
  by_cases c2 : totalGas r.digests > X.P.maxGas
  · rw [if_pos c2]
    exact ⟨(fun h => by cases h), fun h => absurd h.gas (hg.1 c2)⟩
  rw [if_neg c2]
  have e3 := checkGas_iff (svc := X.E.service) (ds := r.digests)
  cases h3 : checkGas X.E.service r.digests with
  | error x =>
    refine ⟨(fun h => by cases h), fun h => ?_⟩
    have := e3.2 fun d hd => by obtain ⟨a, b, h1, h2, _⟩ := h.services d hd; exact ⟨a, b, h1, h2⟩
    rw [h3] at this; cases this
  | ok u =>
    cases u
    have g3 := e3.1 h3
    dsimp only
    cases h4 : X.pend[r.core]? with
    | none => exact ⟨(fun h => by cases h), fun h => by have := h.free; rw [h4] at this; cases this⟩
    | some p =>
      cases h5 : X.pools[r.core]? with
      | none => exact ⟨(fun h => by cases h), fun h => by obtain ⟨_, e, _⟩ := h.authorized; rw [h5] at e; cases e⟩
      | some pool =>
        dsimp only
        by_cases c4 : p.isSome = true
        · rw [if_pos c4]
          refine ⟨(fun h => by cases h), fun h => ?_⟩
          have := h.free; rw [h4] at this; injection this with this; rw [this] at c4; cases c4
        rw [if_neg c4]
        by_cases c5 : (!pool.contains r.auth) = true
        · rw [if_pos c5]
          refine ⟨(fun h => by cases h), fun h => ?_⟩
          obtain ⟨q, e, hq⟩ := h.authorized
          rw [h5] at e; injection e with e; rw [← e] at hq
          simp [hq] at c5
        rw [if_neg c5]
        have e6 := checkAnchor_iff (hist := X.hist) (r := r)
        cases h6 : checkAnchor X.hist r with
        | error x => exact ⟨(fun h => by cases h), fun h => by have := e6.2 h.anchored; rw [h6] at this; cases this⟩
        | ok u =>
          cases u
          dsimp only
          have e7 := checkLookupAnchor_iff (P := X.P) (E := X.E) (slot := X.slot) (r := r)
          cases h7 : checkLookupAnchor X.P X.E X.slot r with
          | error x => exact ⟨(fun h => by cases h), fun h => by have := e7.2 ⟨h.lookupAge, h.lookupKnown⟩; rw [h7] at this; cases this⟩
          | ok u =>
            cases u
            dsimp only
            by_cases c8 : inHist X.hist r.pkg = true
            · rw [if_pos c8]
              refine ⟨(fun h => by cases h), fun h => ?_⟩
              obtain ⟨m, hm, e⟩ := inHist_iff.1 c8
              exact absurd e (h.newRecent m hm)
            rw [if_neg c8]
            have m9 : (X.E.accumulated ++ X.E.queued ++ pendingPkgs X.pend0).contains r.pkg = true ↔
                ¬ (r.pkg ∉ X.E.accumulated ∧ r.pkg ∉ X.E.queued ∧ ∀ c p, Spec.At X.pend0 c p → p.report.pkg ≠ r.pkg) := by
              rw [List.contains_eq_mem, decide_eq_true_eq, List.mem_append, List.mem_append, mem_pendingPkgs]
              constructor
              · rintro ((h | h) | ⟨c, p, h, e⟩) ⟨n1, n2, n3⟩
                · exact n1 h
                · exact n2 h
                · exact n3 c p h e
              · intro h
                by_cases n1 : r.pkg ∈ X.E.accumulated
                · exact Or.inl (Or.inl n1)
                by_cases n2 : r.pkg ∈ X.E.queued
                · exact Or.inl (Or.inr n2)
                refine Or.inr (Classical.byContradiction fun hn => h ⟨n1, n2, fun c p hp e => hn ⟨c, p, hp, e⟩⟩)
            by_cases c9 : (X.E.accumulated ++ X.E.queued ++ pendingPkgs X.pend0).contains r.pkg = true
            · rw [if_pos c9]
              exact ⟨(fun h => by cases h), fun h => absurd h.newPipeline (m9.1 c9)⟩
            rw [if_neg c9]
            by_cases c10 : r.prereqs.length + r.lookup.length > X.P.maxDeps
            · rw [if_pos c10]
              exact ⟨(fun h => by cases h), fun h => by have := h.deps; omega⟩
            rw [if_neg c10]
            have e11 := checkLookup_iff (ms := X.hist.flatMap Hist.packages ++ X.reports.map fun r => (r.pkg, r.seg)) (es := r.lookup)
            cases h11 : checkLookup (X.hist.flatMap Hist.packages ++ X.reports.map fun r => (r.pkg, r.seg)) r.lookup with
            | error x => exact ⟨(fun h => by cases h), fun h => by have := e11.2 h.lookup; rw [h11] at this; cases this⟩
            | ok u =>
              cases u
              dsimp only
              have e12 := checkPrereqs_iff (pkgs := X.reports.map Report.pkg) (hist := X.hist) (hs := r.prereqs)
              simp only [List.mem_map] at e12
              cases h12 : checkPrereqs (X.reports.map Report.pkg) X.hist r.prereqs with
              | error x => exact ⟨(fun h => by cases h), fun h => by have := e12.2 h.prereqs; rw [h12] at this; cases this⟩
              | ok u =>
                cases u
                dsimp only
                rw [checkCode_iff]
                constructor
                · intro h
                  refine ⟨by unfold totalBytes at c1; omega, Classical.not_not.1 fun hn => c2 (hg.2 hn), ?_, ?_, ⟨pool, h5, by simpa using c5⟩, e6.1 h6,
                    (e7.1 h7).1, (e7.1 h7).2, fun m hm e => c8 (inHist_iff.2 ⟨m, hm, e⟩), Classical.not_not.1 fun hn => c9 (m9.2 hn), by omega,
                    e11.1 h11, e12.1 h12⟩
                  · intro d hd
                    obtain ⟨a, b, h1, h2⟩ := g3 d hd
                    obtain ⟨a', b', h1', h2'⟩ := h d hd
                    rw [h1] at h1'; injection h1' with h1'; injection h1' with i1 i2
                    exact ⟨a, b, h1, h2, by rw [i1]; exact h2'⟩
                  · rw [h4]
                    cases p with
                    | none => rfl
                    | some q => exact absurd rfl c4
                · intro h d hd
                  obtain ⟨a, b, h1, _, h2⟩ := h.services d hd
                  exact ⟨a, b, h1, h2⟩

theorem assignment_eq (X : Ctx σ) (slot : Nat) (a : Assignment) :
    (slot / X.P.rotation = X.slot / X.P.rotation ∧ a = X.E.current ∨ slot / X.P.rotation ≠ X.slot / X.P.rotation ∧ a = X.E.previous) ↔ a = assignment X slot := by
  unfold assignment
  by_cases c : slot / X.P.rotation = X.slot / X.P.rotation
  · rw [if_pos c.symm]; simp [c]
  · rw [if_neg (fun h => c h.symm)]; simp [c]

theorem checkCred_iff {X : Ctx σ} {r : Report} {slot : Nat} {c : Cred σ} {key : Nat} :
    checkCred X r slot c = .ok key ↔ ((assignment X slot).keys[c.voter]? = some key ∧ (assignment X slot).cores[c.voter]? = some r.core ∧ key ≠ 0 ∧
      X.E.judge.ver key (.guarantee (X.E.hash r)) c.sig = true ∧ slot ≤ X.slot ∧ X.P.rotation * (X.slot / X.P.rotation - 1) ≤ slot) := by
  unfold checkCred
  cases e : (assignment X slot).keys[c.voter]? with
  | none => simp
  | some k =>
    dsimp only
    by_cases c1 : k = 0
    · rw [if_pos c1]
      refine ⟨(fun h => by cases h), fun h => ?_⟩
      injection h.1 with h1; exact absurd (by rw [← h1]; exact c1) h.2.2.1
    rw [if_neg c1]
    by_cases c2 : (!X.E.judge.ver k (.guarantee (X.E.hash r)) c.sig) = true
    · rw [if_pos c2]
      refine ⟨(fun h => by cases h), fun h => ?_⟩
      injection h.1 with h1
      rw [h1, h.2.2.2.1] at c2; simp at c2
    rw [if_neg c2]
    by_cases c3 : slot > X.slot
    · rw [if_pos c3]
      exact ⟨(fun h => by cases h), fun h => by have := h.2.2.2.2.1; omega⟩
    rw [if_neg c3]
    generalize X.P.rotation * (X.slot / X.P.rotation - 1) = w
    by_cases c4 : slot < w
    · rw [if_pos c4]
      exact ⟨(fun h => by cases h), fun h => by have := h.2.2.2.2.2; omega⟩
    rw [if_neg c4]
    cases e5 : (assignment X slot).cores[c.voter]? with
    | none => simp
    | some core =>
      dsimp only
      by_cases c5 : core = r.core
      · rw [if_neg (by simpa using c5)]
        constructor
        · intro h
          injection h with h
          rw [← h]
          exact ⟨rfl, by rw [c5], c1, by simpa using c2, by omega, by omega⟩
        · intro h
          injection h.1 with h1
          rw [h1]
      · rw [if_pos c5]
        refine ⟨(fun h => by cases h), fun h => ?_⟩
        injection h.2.1 with h1; exact absurd h1 c5

theorem checkCred_ok_iff {X : Ctx σ} {r : Report} {slot : Nat} {c : Cred σ} :
    (∃ key, checkCred X r slot c = .ok key) ↔ (Spec.CredOk X.P X.E X.slot r slot c ∧ slot ≤ X.slot ∧ X.P.rotation * (X.slot / X.P.rotation - 1) ≤ slot) := by
  unfold Spec.CredOk
  simp only [assignment_eq]
  constructor
  · rintro ⟨key, h⟩
    obtain ⟨h1, h2, h3, h4, h5, h6⟩ := checkCred_iff.1 h
    exact ⟨⟨_, key, rfl, h1, h2, h3, h4⟩, h5, h6⟩
  · rintro ⟨⟨a, key, e, h1, h2, h3, h4⟩, h5, h6⟩
    rw [e] at h1 h2
    exact ⟨key, checkCred_iff.2 ⟨h1, h2, h3, h4, h5, h6⟩⟩

theorem checkCreds_ok_iff {X : Ctx σ} {r : Report} {slot : Nat} {cs : List (Cred σ)} :
    (∃ keys, checkCreds X r slot cs = .ok keys) ↔ ∀ c ∈ cs, ∃ key, checkCred X r slot c = .ok key := by
  induction cs with
  | nil => exact ⟨fun _ v hv => absurd hv List.not_mem_nil, fun _ => ⟨[], rfl⟩⟩
  | cons c cs ih =>
    unfold checkCreds
    rw [List.forall_mem_cons, ← ih]
    cases e : checkCred X r slot c with
    | error x => exact ⟨(fun ⟨_, h⟩ => by cases h), fun ⟨⟨_, h⟩, _⟩ => by cases h⟩
    | ok key =>
      dsimp only
      cases e2 : checkCreds X r slot cs with
      | error x => exact ⟨(fun ⟨_, h⟩ => by cases h), fun ⟨_, ⟨_, h⟩⟩ => by cases h⟩
      | ok keys => exact ⟨fun _ => ⟨⟨key, rfl⟩, ⟨keys, rfl⟩⟩, fun _ => ⟨_, rfl⟩⟩

theorem validateCreds_ok_iff {X : Ctx σ} {g : Guarantee σ} :
    (∃ keys, validateCreds X g = .ok keys) ↔ ((g.creds.length = 2 ∨ g.creds.length = 3) ∧ Spec.Increasing (g.creds.map Cred.voter) ∧
      (∀ c ∈ g.creds, Spec.CredOk X.P X.E X.slot g.report g.slot c) ∧ g.slot ≤ X.slot ∧ X.P.rotation * (X.slot / X.P.rotation - 1) ≤ g.slot) := by
  unfold validateCreds
  by_cases c1 : g.creds.length = 2 ∨ g.creds.length = 3
  · rw [if_neg (fun h => h c1)]
    by_cases c2 : (!sortedBy Cred.voter g.creds) = true
    · rw [if_pos c2]
      refine ⟨(fun ⟨_, h⟩ => by cases h), fun h => ?_⟩
      rw [sortedBy_iff.2 (increasing_iff.1 h.2.1).1] at c2
      simp at c2
    rw [if_neg c2]
    by_cases c3 : (!noDup (g.creds.map Cred.voter) []) = true
    · rw [if_pos c3]
      refine ⟨(fun ⟨_, h⟩ => by cases h), fun h => ?_⟩
      rw [noDup_of_nodup (increasing_iff.1 h.2.1).2] at c3
      simp at c3
    rw [if_neg c3, checkCreds_ok_iff]
    simp only [checkCred_ok_iff]
    constructor
    · intro h
      refine ⟨c1, increasing_iff.2 ⟨sortedBy_iff.1 (by simpa using c2), nodup_of_noDup (by simpa using c3)⟩, fun c hc => (h c hc).1, ?_⟩
      cases e : g.creds with
      | nil => rw [e] at c1; simp at c1
      | cons c cs => exact (h c (by rw [e]; exact List.mem_cons_self)).2
    · intro h c hc
      exact ⟨h.2.2.1 c hc, h.2.2.2⟩
  · rw [if_pos c1]
    exact ⟨(fun ⟨_, h⟩ => by cases h), fun h => absurd h.1 c1⟩

theorem checkGuarantees_ok_iff {X : Ctx σ} {gs : List (Guarantee σ)} :
    (∃ keys, checkGuarantees X gs = .ok keys) ↔ ∀ g ∈ gs, checkReport X g.report = .ok () ∧ ∃ keys, validateCreds X g = .ok keys := by
  induction gs with
  | nil => exact ⟨fun _ v hv => absurd hv List.not_mem_nil, fun _ => ⟨[], rfl⟩⟩
  | cons g gs ih =>
    unfold checkGuarantees
    rw [List.forall_mem_cons, ← ih]
    cases e : checkReport X g.report with
    | error x => exact ⟨(fun ⟨_, h⟩ => by cases h), fun ⟨⟨h, _⟩, _⟩ => by cases h⟩
    | ok u =>
      cases u
      dsimp only
      cases e2 : validateCreds X g with
      | error x => exact ⟨(fun ⟨_, h⟩ => by cases h), fun ⟨⟨_, ⟨_, h⟩⟩, _⟩ => by cases h⟩
      | ok keys =>
        dsimp only
        cases e3 : checkGuarantees X gs with
        | error x => exact ⟨(fun ⟨_, h⟩ => by cases h), fun ⟨_, ⟨_, h⟩⟩ => by cases h⟩
        | ok keys' => exact ⟨fun _ => ⟨⟨rfl, keys, rfl⟩, keys', rfl⟩, fun _ => ⟨_, rfl⟩⟩

theorem validateGuarantees_ok_iff {X : Ctx σ} {gs : List (Guarantee σ)} (hm : X.P.maxGas < 2 ^ 64 - 1) (hr : X.reports = gs.map Guarantee.report) :
    (∃ keys, validateGuarantees X gs = .ok keys) ↔ Spec.GuaranteesOk X.P X.E X.slot X.pend X.pend0 X.pools X.hist gs := by
  have main : (∃ keys, checkGuarantees X gs = .ok keys) ↔
      ∀ g ∈ gs, Spec.GuaranteeOk X.P X.E X.slot X.pend X.pend0 X.pools X.hist (gs.map Guarantee.report) g := by
    rw [checkGuarantees_ok_iff]
    simp only [checkReport_iff hm, validateCreds_ok_iff, hr]
    exact ⟨fun h g hg => ⟨(h g hg).1, (h g hg).2.1, (h g hg).2.2.1, (h g hg).2.2.2.1, (h g hg).2.2.2.2.1, (h g hg).2.2.2.2.2⟩,
      fun h g hg => ⟨(h g hg).report, (h g hg).count, (h g hg).up, (h g hg).creds, (h g hg).notFuture, (h g hg).notOld⟩⟩
  unfold validateGuarantees
  by_cases c0 : gs.isEmpty = true
  · rw [if_pos c0]
    have := List.isEmpty_iff.1 c0
    refine ⟨fun _ => ⟨?_, ?_, ?_⟩, fun _ => ⟨[], rfl⟩⟩ <;> rw [this] <;> simp [Spec.Increasing]
  rw [if_neg c0]
  by_cases c1 : (!sortedBy (fun g : Guarantee σ => g.report.core) gs) = true
  · rw [if_pos c1]
    refine ⟨(fun ⟨_, h⟩ => by cases h), fun h => ?_⟩
    rw [sortedBy_iff.2 (increasing_iff.1 h.up).1] at c1
    simp at c1
  rw [if_neg c1]
  by_cases c2 : (!noDup (gs.map fun g => g.report.core) []) = true
  · rw [if_pos c2]
    refine ⟨(fun ⟨_, h⟩ => by cases h), fun h => ?_⟩
    rw [noDup_of_nodup (increasing_iff.1 h.up).2] at c2
    simp at c2
  rw [if_neg c2]
  by_cases c3 : (!noDup (gs.map fun g => g.report.pkg) []) = true
  · rw [if_pos c3]
    refine ⟨(fun ⟨_, h⟩ => by cases h), fun h => ?_⟩
    rw [noDup_of_nodup h.packages] at c3
    simp at c3
  rw [if_neg c3, main]
  exact ⟨fun h => ⟨increasing_iff.2 ⟨sortedBy_iff.1 (by simpa using c1), nodup_of_noDup (by simpa using c2)⟩, nodup_of_noDup (by simpa using c3), h⟩,
    fun h => h.each⟩

end Fastroll.Reports
