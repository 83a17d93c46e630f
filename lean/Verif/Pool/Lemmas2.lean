import Verif.Pool.Lemmas

/-
The invariant of the threads: the shared data is that of the calls that have taken effect, in the
order in which they took effect.
-/
namespace Fastroll.Pool

/-- The answer of a thread, once it is known. -/
def ansOf : Pc → Option Ans
  | .unlock a | .unlock' a | .done a => some a
  | _ => none

/-- The invariant; `lin` are the threads whose calls have taken effect, in order. -/
structure Inv (o : Bool) (max : Nat) (op : Nat → Op) (s : St) (lin : List Nat) : Prop where
  locks : Locks o op s
  q : ∀ t, isAdd (op t) = false → s.pc t ≠ .store ∧ s.pc t ≠ .note
  nodup : lin.Nodup
  mem : ∀ t, t ∈ lin ↔ (ansOf (s.pc t)).isSome = true
  ans : (calls max empty (lin.map op)).2.map some = lin.map fun t => ansOf (s.pc t)
  stor : ∀ t, s.pc t = .store → full max s.data = false
  data : (∀ t, s.pc t ≠ .note) → s.data = (calls max empty (lin.map op)).1
  part : ∀ t e slot, s.pc t = .note → op t = .add e slot →
    full max (calls max empty (lin.map op)).1 = false ∧
    s.data = store (calls max empty (lin.map op)).1 e

theorem Inv.init (o : Bool) (max : Nat) (op : Nat → Op) : Inv o max op Pool.init [] where
  locks := ⟨by simp [Pool.init, hold], by simp [Pool.init, hold], by simp [Pool.init],
    by simp [Pool.init]⟩
  q _ _ := by simp [Pool.init]
  nodup := List.nodup_nil
  mem t := by simp [Pool.init, ansOf]
  ans := rfl
  stor t h := by simp [Pool.init] at h
  data _ := rfl
  part t e slot h := by simp [Pool.init] at h

/-- A step that neither touches the data nor finds an answer. -/
theorem Inv.quiet {o : Bool} {max : Nat} {op : Nat → Op} {s s' : St} {lin : List Nat}
    (h : Inv o max op s lin) (t : Nat) (p : Pc) (hl : Locks o op s')
    (hd : s'.data = s.data) (hp : s'.pc = upd s.pc t p)
    (ha : ansOf p = ansOf (s.pc t)) (h1 : p ≠ .store ∨ (isAdd (op t) = true ∧ full max s.data = false))
    (h2 : p ≠ .note) (h3 : s.pc t ≠ .note) : Inv o max op s' lin := by
  have hA : ∀ u, ansOf (s'.pc u) = ansOf (s.pc u) := by
    intro u
    rw [hp]
    unfold upd
    split
    · next e => rw [e, ha]
    · rfl
  have hN : ∀ u, s'.pc u = .note ↔ s.pc u = .note := by
    intro u
    rw [hp]
    unfold upd
    split
    · next e => rw [e]; exact ⟨fun x => absurd x h2, fun x => absurd x h3⟩
    · rfl
  have hS : ∀ u, s'.pc u = .store → s.pc u = .store ∨ (u = t ∧ p = .store) := by
    intro u
    rw [hp]
    unfold upd
    split
    · next e => exact fun x => .inr ⟨e, x⟩
    · exact .inl
  refine ⟨hl, ?_, h.nodup, ?_, ?_, ?_, ?_, ?_⟩
  · intro u hu
    refine ⟨fun x => ?_, fun x => (h.q u hu).2 ((hN u).mp x)⟩
    rcases hS u x with y | ⟨rfl, y⟩
    · exact (h.q u hu).1 y
    · rcases h1 with z | z
      · exact z y
      · rw [hu] at z; simp at z
  · intro u; rw [hA]; exact h.mem u
  · rw [h.ans]; simp only [hA]
  · intro u hu
    rw [hd]
    rcases hS u hu with y | ⟨rfl, y⟩
    · exact h.stor u y
    · rcases h1 with z | z
      · exact absurd y z
      · exact z.2
  · intro hn
    rw [hd]
    exact h.data fun u hu => hn u ((hN u).mpr hu)
  · intro u e slot hu he
    rw [hd]
    exact h.part u e slot ((hN u).mp hu) he

/-- A step at which the call of a thread takes effect. -/
theorem Inv.effect {o : Bool} {max : Nat} {op : Nat → Op} {s s' : St} {lin : List Nat}
    (h : Inv o max op s lin) (t : Nat) (a : Ans) (hl : Locks o op s')
    (hp : s'.pc = upd s.pc t (.unlock a)) (hb : ansOf (s.pc t) = none)
    (hd : s'.data = (call max (calls max empty (lin.map op)).1 (op t)).1)
    (ha : a = (call max (calls max empty (lin.map op)).1 (op t)).2)
    (h1 : ∀ u, u ≠ t → s.pc u ≠ .note)
    (h2 : ∀ u, u ≠ t → s.pc u = .store → full max s'.data = false) :
    Inv o max op s' (lin ++ [t]) := by
  have ht : t ∉ lin := fun x => by
    have := (h.mem t).mp x
    rw [hb] at this
    simp at this
  have hN : ∀ u, s'.pc u ≠ .note := by
    intro u
    rw [hp]
    unfold upd
    split
    · simp
    · next e => exact h1 u e
  refine ⟨hl, ?_, ?_, ?_, ?_, ?_, ?_, ?_⟩
  · intro u hu
    refine ⟨?_, hN u⟩
    rw [hp]
    unfold upd
    split
    · simp
    · exact (h.q u hu).1
  · rw [List.nodup_append]
    refine ⟨h.nodup, by simp, ?_⟩
    intro x hx y hy
    rw [List.mem_singleton] at hy
    rw [hy]
    exact fun e => ht (e ▸ hx)
  · intro u
    rw [hp, List.mem_append, List.mem_singleton, h.mem]
    unfold upd
    split
    · next e => simp [e, ansOf]
    · next e => simp [e]
  · rw [List.map_append, List.map_cons, List.map_nil, calls_append, List.map_append, h.ans,
      List.map_append]
    congr 1
    · apply List.map_congr_left
      intro u hu
      rw [hp]
      unfold upd
      rw [if_neg (fun (e : u = t) => ht (e ▸ hu))]
    · simp [hp, upd, ansOf, ha]
  · intro u hu
    rw [hp] at hu
    unfold upd at hu
    split at hu
    · simp at hu
    · next e => exact h2 u e hu
  · intro _
    rw [List.map_append, List.map_cons, List.map_nil, calls_append, hd]
  · intro u _ _ hu
    exact absurd hu (hN u)

theorem Inv.step {o : Bool} {max : Nat} {op : Nat → Op} {s s' : St} {lin : List Nat} {t : Nat}
    (h : Inv o max op s lin) (hs : step o max op s t = some s') :
    Inv o max op s' lin ∨ Inv o max op s' (lin ++ [t]) := by
  unfold Pool.step at hs
  have hf : first o (op t) ≠ second o (op t) := by unfold second; cases first o (op t) <;> simp
  have hf' : second o (op t) = !first o (op t) := rfl
  cases hpc : s.pc t with
  | start =>
    rw [hpc] at hs
    simp only [Option.map_eq_some_iff] at hs
    obtain ⟨l, hl, rfl⟩ := hs
    refine .inl (h.quiet t .one (h.locks.take hl ?_ ?_ ?_) rfl rfl ?_ ?_ ?_ ?_) <;>
      simp [hpc, hold, ansOf]
  | one =>
    rw [hpc] at hs
    simp only [Option.map_eq_some_iff] at hs
    obtain ⟨l, hl, rfl⟩ := hs
    refine .inl (h.quiet t .both (h.locks.take hl ?_ ?_ ?_) rfl rfl ?_ ?_ ?_ ?_) <;>
      simp [hpc, hold, ansOf, hf']
  | unlock a =>
    rw [hpc] at hs
    simp only [Option.some.injEq] at hs
    subst hs
    refine .inl (h.quiet t (.unlock' a) (h.locks.drop ?_ ?_ ?_) rfl rfl ?_ ?_ ?_ ?_) <;>
      simp [hpc, hold, ansOf, hf']
  | unlock' a =>
    rw [hpc] at hs
    simp only [Option.some.injEq] at hs
    subst hs
    refine .inl (h.quiet t (.done a) (h.locks.drop ?_ ?_ ?_) rfl rfl ?_ ?_ ?_ ?_) <;>
      simp [hpc, hold, ansOf, hf']
  | done a => rw [hpc] at hs; simp at hs
  | both =>
    rw [hpc] at hs
    simp only [Option.some.injEq] at hs
    have hN : ∀ u, s.pc u ≠ .note := by
      intro u hu
      have hau : isAdd (op u) = true := by
        cases hq : isAdd (op u) with
        | true => rfl
        | false => exact absurd hu (h.q u hq).2
      have := h.locks.excl (b := false) (t := u) (u := t) hau (by rw [hu]; rfl)
        (by rw [hpc]; rfl)
      subst this
      rw [hpc] at hu
      simp at hu
    have hd := h.data hN
    cases hop : op t with
    | add e slot =>
      rw [hop] at hs
      have hx : ∀ u, hold o (op u) (s.pc u) false = true → u = t := fun u hu =>
        h.locks.excl (by rw [hop]; rfl) (by rw [hpc]; rfl) hu
      simp only [work] at hs
      cases hfull : full max s.data with
      | true =>
        rw [hfull] at hs
        simp only [if_true] at hs
        subst hs
        refine .inr (h.effect t .full (h.locks.same _ _ _ ?_) rfl ?_ ?_ ?_ ?_ ?_)
        · simp [hpc, hold]
        · simp [hpc, ansOf]
        · rw [← hd, hop]; simp [call, hfull, St.move]
        · rw [← hd, hop]; simp [call, hfull]
        · exact fun u _ => hN u
        · intro u hu1 hu2
          exact absurd (hx u (by rw [hu2]; rfl)) hu1
      | false =>
        rw [hfull] at hs
        simp only [if_false, Bool.false_eq_true] at hs
        subst hs
        refine .inl (h.quiet t .store (h.locks.same _ _ _ ?_) rfl rfl ?_ (.inr ⟨?_, hfull⟩) ?_ ?_)
          <;> simp [hpc, hold, ansOf, hop, isAdd]
    | query ty slot =>
      rw [hop] at hs
      simp only [work] at hs
      subst hs
      refine .inr (h.effect t (.entries (query s.data ty slot)) (h.locks.same _ _ _ ?_) rfl
        ?_ ?_ ?_ ?_ ?_)
      · simp [hpc, hold]
      · simp [hpc, ansOf]
      · rw [← hd, hop]; rfl
      · rw [← hd, hop]; rfl
      · exact fun u _ => hN u
      · exact fun u _ hu => h.stor u hu
  | store =>
    rw [hpc] at hs
    simp only [Option.some.injEq] at hs
    cases hop : op t with
    | query ty slot => exact absurd hpc (h.q t (by rw [hop]; rfl)).1
    | add e slot =>
      rw [hop] at hs
      simp only [work] at hs
      subst hs
      have hx : ∀ u, hold o (op u) (s.pc u) false = true → u = t := fun u hu =>
        h.locks.excl (by rw [hop]; rfl) (by rw [hpc]; rfl) hu
      have hN : ∀ u, s.pc u ≠ .note := by
        intro u hu
        have := hx u (by rw [hu]; rfl)
        subst this
        rw [hpc] at hu
        simp at hu
      have hd := h.data hN
      have hA : ∀ u, ansOf (upd s.pc t .note u) = ansOf (s.pc u) := by
        intro u
        unfold upd
        split
        · next e => rw [e, hpc]; rfl
        · rfl
      refine .inl ⟨h.locks.same _ _ _ (by simp [hpc, hold]), ?_, h.nodup, ?_, ?_, ?_, ?_, ?_⟩
      · intro u hu
        simp only [St.move, upd]
        split
        · next e => rw [e, hop] at hu; simp [isAdd] at hu
        · exact h.q u hu
      · intro u
        simp only [St.move, hA]
        exact h.mem u
      · simp only [St.move, hA]
        exact h.ans
      · intro u hu
        simp only [St.move, upd] at hu
        split at hu
        · simp at hu
        · next e => exact absurd (hx u (by rw [hu]; rfl)) e
      · intro hn
        exact absurd (by simp [St.move, upd]) (hn t)
      · intro u e' slot' hu he
        simp only [St.move, upd] at hu
        split at hu
        · next eq =>
          rw [eq, hop] at he
          cases he
          rw [← hd]
          exact ⟨h.stor t hpc, rfl⟩
        · exact absurd hu (hN u)
  | note =>
    rw [hpc] at hs
    simp only [Option.some.injEq] at hs
    cases hop : op t with
    | query ty slot => exact absurd hpc (h.q t (by rw [hop]; rfl)).2
    | add e slot =>
      rw [hop] at hs
      simp only [work] at hs
      subst hs
      have hx : ∀ u, hold o (op u) (s.pc u) false = true → u = t := fun u hu =>
        h.locks.excl (by rw [hop]; rfl) (by rw [hpc]; rfl) hu
      have hd := h.part t e slot hpc hop
      refine .inr (h.effect t .added (h.locks.same _ _ _ ?_) rfl ?_ ?_ ?_ ?_ ?_)
      · simp [hpc, hold]
      · simp [hpc, ansOf]
      · rw [hop]
        simp only [call, hd.1, Bool.false_eq_true, if_false, hd.2, St.move]
      · rw [hop]
        simp only [call, hd.1, Bool.false_eq_true, if_false]
      · intro u hu1 hu2
        exact absurd (hx u (by rw [hu2]; rfl)) hu1
      · intro u hu1 hu2
        exact absurd (hx u (by rw [hu2]; rfl)) hu1

theorem Inv.runs {o : Bool} {max : Nat} {op : Nat → Op} {s s' : St} {lin : List Nat}
    {ts : List Nat} (h : Inv o max op s lin) (hs : runs o max op s ts = some s') :
    ∃ more, Inv o max op s' (lin ++ more) := by
  induction ts generalizing s lin with
  | nil =>
    simp only [Pool.runs, Option.some.injEq] at hs
    subst hs
    exact ⟨[], by rw [List.append_nil]; exact h⟩
  | cons t ts ih =>
    simp only [Pool.runs, Option.bind_eq_some_iff] at hs
    obtain ⟨s1, h1, h2⟩ := hs
    rcases h.step h1 with g | g
    · exact ih g h2
    · obtain ⟨m, hm⟩ := ih g h2
      exact ⟨t :: m, by simpa using hm⟩

theorem Locks.free {o : Bool} {op : Nat → Op} {s : St} (h : Locks o op s) {b : Bool} {t : Nat}
    (hb : ∀ u, hold o (op u) (s.pc u) b = false) : acquire (s.lock b) t (op t) ≠ none := by
  have h1 : (s.lock b).writer = none := by
    cases hw : (s.lock b).writer with
    | none => rfl
    | some u =>
      have := ((h.w b u).mp hw).2
      rw [hb u] at this
      simp at this
  have h2 : (s.lock b).readers = [] := by
    cases hr : (s.lock b).readers with
    | nil => rfl
    | cons u us =>
      have := ((h.r b u).mp (by rw [hr]; simp)).2
      rw [hb u] at this
      simp at this
  cases op t <;> simp [acquire, Lock.canWrite, Lock.canRead, h1, h2]

/-- If all calls take the locks in the same order, some thread can move. -/
theorem Locks.progress {o : Bool} {max : Nat} {op : Nat → Op} {s : St} (h : Locks o op s)
    (hf : ∀ t, first o (op t) = false) (hd : ∃ t, ∀ a, s.pc t ≠ .done a) :
    ∃ u, Pool.step o max op s u ≠ none := by
  by_cases h1 : ∃ u, hold o (op u) (s.pc u) true = true
  · obtain ⟨u, hu⟩ := h1
    refine ⟨u, ?_⟩
    unfold Pool.step
    cases hpc : s.pc u <;> simp [hpc, hold, hf] at hu ⊢
  · have h1' : ∀ u, hold o (op u) (s.pc u) true = false := fun u => by
      cases hh : hold o (op u) (s.pc u) true with
      | false => rfl
      | true => exact absurd ⟨u, hh⟩ h1
    by_cases h2 : ∃ u, hold o (op u) (s.pc u) false = true
    · obtain ⟨u, hu⟩ := h2
      have hfree := h.free (t := u) h1'
      refine ⟨u, ?_⟩
      have h1u := h1' u
      unfold Pool.step second
      cases hpc : s.pc u <;> simp [hpc, hold, hf] at hu h1u ⊢
      exact hfree
    · have h2' : ∀ u, hold o (op u) (s.pc u) false = false := fun u => by
        cases hh : hold o (op u) (s.pc u) false with
        | false => rfl
        | true => exact absurd ⟨u, hh⟩ h2
      obtain ⟨t, ht⟩ := hd
      have hfree := h.free (t := t) h2'
      refine ⟨t, ?_⟩
      have h2t := h2' t
      unfold Pool.step
      cases hpc : s.pc t <;> simp [hpc, hold, hf] at ht h2t ⊢
      exact hfree

/-- If there are only queries, everybody can move. -/
theorem Locks.queries {o : Bool} {max : Nat} {op : Nat → Op} {s : St} (h : Locks o op s)
    (hq : ∀ t, isAdd (op t) = false) {t : Nat} (ht : ∀ a, s.pc t ≠ .done a) :
    Pool.step o max op s t ≠ none := by
  have h1 : ∀ b, (s.lock b).writer = none := by
    intro b
    cases hw : (s.lock b).writer with
    | none => rfl
    | some u =>
      have := ((h.w b u).mp hw).1
      rw [hq u] at this
      simp at this
  have h2 : ∀ b, acquire (s.lock b) t (op t) ≠ none := by
    intro b
    have := hq t
    cases hop : op t with
    | add e slot => rw [hop] at this; simp [isAdd] at this
    | query ty slot => simp [acquire, Lock.canRead, h1]
  unfold Pool.step
  cases hpc : s.pc t <;> simp [hpc] at ht ⊢
  · exact h2 _
  · exact h2 _

/-- Two threads hold what the other needs. -/
def Stuck (s : St) (i j : Nat) : Prop := s.pc i = .one ∧ s.pc j = .one

theorem Stuck.step {max : Nat} {op : Nat → Op} {s s' : St} {i j t : Nat} {lin : List Nat}
    (h : Inv true max op s lin) (hi : isAdd (op i) = true) (hj : isAdd (op j) = false)
    (hs : Stuck s i j) (h1 : Pool.step true max op s t = some s') :
    Stuck s' i j ∧ s'.data = s.data ∧
      ∀ u, (s.pc u = .start ∨ s.pc u = .one) → (s'.pc u = .start ∨ s'.pc u = .one) := by
  have hw : (s.lock false).writer = some i :=
    (h.locks.w false i).mpr ⟨hi, by
      rw [hs.1]
      cases hop : op i with
      | add e slot => rfl
      | query ty slot => rw [hop] at hi; simp [isAdd] at hi⟩
  have hr : j ∈ (s.lock true).readers :=
    (h.locks.r true j).mpr ⟨hj, by
      rw [hs.2]
      cases hop : op j with
      | add e slot => rw [hop] at hj; simp [isAdd] at hj
      | query ty slot => rfl⟩
  have hx : ∀ u, hold true (op u) (s.pc u) false = true → u = i := fun u hu =>
    h.locks.excl hi (by
      rw [hs.1]
      cases hop : op i with
      | add e slot => rfl
      | query ty slot => rw [hop] at hi; simp [isAdd] at hi) hu
  have ha0 : ∀ u, acquire (s.lock false) u (op u) = none := by
    intro u
    cases op u <;> simp [acquire, Lock.canWrite, Lock.canRead, hw]
  have ha1 : ∀ u, isAdd (op u) = true → acquire (s.lock true) u (op u) = none := by
    intro u hu
    cases hop : op u with
    | add e slot =>
      have : (s.lock true).readers ≠ [] := fun e => by rw [e] at hr; simp at hr
      simp [acquire, Lock.canWrite, this]
    | query ty slot => rw [hop] at hu; simp [isAdd] at hu
  have hti : t ≠ i := by
    rintro rfl
    unfold Pool.step at h1
    rw [hs.1] at h1
    have : second true (op t) = true := by
      cases hop : op t with
      | add e slot => rfl
      | query ty slot => rw [hop] at hi; simp [isAdd] at hi
    simp only [this, ha1 t hi, Option.map_none] at h1
    simp at h1
  have hsec : ∀ u, isAdd (op u) = false → second true (op u) = false := by
    intro u hu
    cases hop : op u with
    | add e slot => rw [hop] at hu; simp [isAdd] at hu
    | query ty slot => rfl
  have key : ∀ p, s'.pc = upd s.pc t p → s'.data = s.data → s.pc t ≠ .one →
      (s.pc t = .start → p = .one) → Stuck s' i j ∧ s'.data = s.data ∧
      ∀ u, (s.pc u = .start ∨ s.pc u = .one) → (s'.pc u = .start ∨ s'.pc u = .one) := by
    intro p hp hd h3 h4
    have htj : t ≠ j := fun e => h3 (e ▸ hs.2)
    refine ⟨⟨?_, ?_⟩, hd, ?_⟩
    · rw [hp]; simp only [upd]; rw [if_neg (Ne.symm hti)]; exact hs.1
    · rw [hp]; simp only [upd]; rw [if_neg (Ne.symm htj)]; exact hs.2
    · intro u hu
      rw [hp]
      simp only [upd]
      split
      · next e =>
        rw [e] at hu
        rcases hu with g | g
        · exact .inr (h4 g)
        · exact absurd g h3
      · exact hu
  unfold Pool.step at h1
  cases hpc : s.pc t with
  | start =>
    rw [hpc] at h1
    simp only [Option.map_eq_some_iff] at h1
    obtain ⟨l, hl, rfl⟩ := h1
    exact key .one rfl rfl (by rw [hpc]; simp) (fun _ => rfl)
  | one =>
    rw [hpc] at h1
    exfalso
    cases hb : isAdd (op t) with
    | true =>
      refine hti (hx t ?_)
      rw [hpc]
      cases hop : op t with
      | add e slot => rfl
      | query ty slot => rw [hop] at hb; simp [isAdd] at hb
    | false =>
      rw [hsec t hb, ha0 t] at h1
      simp at h1
  | unlock a => exact absurd (hx t (by rw [hpc]; rfl)) hti
  | both => exact absurd (hx t (by rw [hpc]; rfl)) hti
  | store => exact absurd (hx t (by rw [hpc]; rfl)) hti
  | note => exact absurd (hx t (by rw [hpc]; rfl)) hti
  | unlock' a =>
    rw [hpc] at h1
    simp only [Option.some.injEq] at h1
    subst h1
    exact key (.done a) rfl rfl (by rw [hpc]; simp) (fun g => by rw [hpc] at g; simp at g)
  | done a => rw [hpc] at h1; simp at h1

theorem Stuck.runs {max : Nat} {op : Nat → Op} {s s' : St} {i j : Nat} {lin ts : List Nat}
    (h : Inv true max op s lin) (hi : isAdd (op i) = true) (hj : isAdd (op j) = false)
    (hs : Stuck s i j) (h1 : Pool.runs true max op s ts = some s') :
    Stuck s' i j ∧ s'.data = s.data ∧
      ∀ u, (s.pc u = .start ∨ s.pc u = .one) → (s'.pc u = .start ∨ s'.pc u = .one) := by
  induction ts generalizing s lin with
  | nil =>
    simp only [Pool.runs, Option.some.injEq] at h1
    subst h1
    exact ⟨hs, rfl, fun _ h => h⟩
  | cons t ts ih =>
    simp only [Pool.runs, Option.bind_eq_some_iff] at h1
    obtain ⟨s1, h2, h3⟩ := h1
    obtain ⟨a, b, c⟩ := Stuck.step h hi hj hs h2
    have : ∃ lin', Inv true max op s1 lin' := by
      rcases h.step h2 with g | g
      · exact ⟨_, g⟩
      · exact ⟨_, g⟩
    obtain ⟨lin', g⟩ := this
    obtain ⟨d, e, f⟩ := ih g a h3
    exact ⟨d, e.trans b, fun u hu => f u (c u hu)⟩

end Fastroll.Pool
