import Verif.Conc.Spec

namespace Fastroll.Conc

open Fastroll.StateCache (Mut Status upd addKey)
open Fastroll.Conc.Paper (alone Foot Within Apart)

section
variable {K V R : Type} [DecidableEq K]

/-- The cache has no more to say about the key than the database. -/
def Sh.Cold (s : Sh K V) (k : K) : Prop :=
  s.cache k = none ∨ ∃ e, s.cache k = some e ∧ e.status = .clean ∧ s.db k = some e.value ∧
    (e.raw = true ∨ e.snapshot = e.value)

theorem cold_cur {s : Sh K V} {k : K} (h : s.Cold k) : s.cur k = s.db k := by
  rcases h with h | ⟨e, h, hs, hd, _⟩
  · simp only [Sh.cur, h]
  · simp only [Sh.cur, h, Entry.now, hs, hd]
    simp

theorem cold_prior {s : Sh K V} {k : K} (h : s.Cold k) : s.prior k = s.db k := by
  rcases h with h | ⟨e, h, hs, hd, hr⟩
  · simp only [Sh.prior, h]
  · simp only [Sh.prior, h]
    cases hraw : e.raw with
    | true => simp
    | false =>
      rw [hraw] at hr
      rcases hr with hr | hr
      · exact absurd hr (by decide)
      · simp [hr, hd]

theorem cold_of_raw {s : Sh K V} (hok : s.Ok) {k : K} {e : Entry V} (h : s.cache k = some e)
    (hr : e.raw = true) : s.Cold k :=
  Or.inr ⟨e, h, (hok k e h hr).1, (hok k e h hr).2, Or.inl hr⟩

/-- The call a suspended task is in. -/
def Wait.task (k : K) : Wait K V R → Task K V R
  | .clean n => .getClean k n
  | .plain n => .get k n
  | .alter m f n => .withMut k m f n
  | .add v n => .add k v n

end

section
variable {I K V R : Type} [DecidableEq I] [DecidableEq K]

variable (S : Setup I K V R)

/-- The state as task `i` alone would have it. -/
def Setup.own (i : I) (s : Sh K V) (k : K) : Option V :=
  if (S.F i).write k = true then s.cur k else S.s0.cur k

/-- What task `i` alone would come to from here. -/
def Setup.out (i : I) (s : Sh K V) : Pc K V R → R × (K → Option V)
  | .ready t => alone S.s0.prior t (S.own i s)
  | .fetch k w => alone S.s0.prior (w.task k) (S.own i s)
  | .insert k _ w => alone S.s0.prior (w.task k) (S.own i s)
  | .lock k m f n => alone S.s0.prior (.withMut k m f n) (S.own i s)
  | .mark k e n => alone S.s0.prior (n (.ok ())) (Paper.put (S.own i s) k e.now)
  | .put k e n => alone S.s0.prior (n (.ok ())) (Paper.put (S.own i s) k e.now)

/-- Values that a viewer takes for the same. -/
def simO (sim : V → V → Prop) : Option V → Option V → Prop
  | none, none => True
  | some v, some v' => sim v v'
  | _, _ => False

/-- An entry that is about to be stored. -/
def Setup.Stored (i : I) (cl : K → Bool) (k : K) (e : Entry V)
    (n : Except Err Unit → Task K V R) : Prop :=
  (S.F i).write k = true ∧ (∀ r, Within (S.sim) (S.keep i) (S.F i) (n r) cl) ∧ e.raw = false ∧
  (cl k = true → S.s0.prior k = some e.snapshot) ∧
  ((S.F i).make k = false → S.s0.prior k = some e.snapshot) ∧
  (S.keep i k → simO (S.sim k) (S.s0.cur k) e.now)

/-- What holds of task `i` at a point of its program. -/
def Setup.Good (i : I) (s : Sh K V) (cl : K → Bool) : Pc K V R → Prop
  | .ready t => Within S.sim (S.keep i) (S.F i) t cl
  | .fetch k w => Within S.sim (S.keep i) (S.F i) (w.task k) cl ∧ s.Cold k ∧
      (∀ j, j ≠ i → (S.F j).write k = false) ∧ (∀ m f n, w = .alter m f n → m ≠ .add)
  | .insert k v w => Within S.sim (S.keep i) (S.F i) (w.task k) cl ∧ s.Cold k ∧
      (∀ j, j ≠ i → (S.F j).write k = false) ∧ (∀ m f n, w = .alter m f n → m ≠ .add) ∧
      s.db k = some v
  | .lock k m f n => Within S.sim (S.keep i) (S.F i) (.withMut k m f n) cl ∧ m ≠ .add ∧
      ∃ e, s.cache k = some e ∧ e.raw = false ∧ e.status ≠ .dirty .remove
  | .mark k e n => S.Stored i cl k e n
  | .put k e n => S.Stored i cl k e n

/-- The invariant of a run. -/
structure Setup.Inv (y : Sys I K V R) : Prop where
  ok : y.sh.Ok
  db : y.sh.db = S.s0.db
  unwritten : ∀ k, (∀ i, (S.F i).write k = false) → y.sh.cur k = S.s0.cur k
  warm : ∀ k, S.s0.Warm k → y.sh.Warm k
  prior : ∀ k, (∀ i, (S.F i).make k = false) → y.sh.prior k = S.s0.prior k
  view : ∀ i j k, i ≠ j → (S.F i).write k = true → (S.F j).view k = true →
    simO (S.sim k) (S.s0.cur k) (y.sh.cur k)
  thread : ∀ i, ∃ cl : K → Bool,
    (∀ k, cl k = true → (S.F i).clean k = true ∧ y.sh.prior k = S.s0.prior k) ∧
    S.Good i y.sh cl (y.pc i) ∧ S.out i y.sh (y.pc i) = alone S.s0.prior (S.t i) S.s0.cur

variable {S}

theorem simO_refl {sim : V → V → Prop} (h : ∀ v, sim v v) (o : Option V) : simO sim o o := by
  cases o with
  | none => trivial
  | some v => exact h v

/-- Nobody else writes what is not warm and can be looked up. -/
theorem Setup.Fit.others (H : S.Fit) {y : Sys I K V R} (hy : S.Inv y) {i : I} {k : K}
    (hc : y.sh.Cold k) (hm : y.sh.cache k = none ∨ ∃ e, y.sh.cache k = some e ∧ e.raw = true)
    (hk : (S.F i).clean k = true ∨ (S.F i).read k = true ∨ (S.F i).write k = true ∨
      (S.F i).view k = true) : ∀ j, j ≠ i → (S.F j).write k = false := by
  intro j hj
  cases hw : (S.F j).write k with
  | false => rfl
  | true =>
    have hnw : ¬ y.sh.Warm k := by
      rintro ⟨e, he, hr⟩
      rcases hm with hm | ⟨e', he', hr'⟩
      · rw [hm] at he; cases he
      · rw [he'] at he; cases he; rw [hr] at hr'; cases hr'
    rcases hk with h | h | h | h
    · exact absurd (hy.warm k (H.warm j i k hj hw (Or.inl h))) hnw
    · rw [(H.apart.write j i k hj hw).2] at h; cases h
    · rw [(H.apart.write j i k hj hw).1] at h; cases h
    · exact absurd (hy.warm k (H.warm j i k hj hw (Or.inr h))) hnw

/-- A read gives what the task alone would read, as far as the task can tell. -/
theorem Setup.Fit.read_ok (H : S.Fit) {y : Sys I K V R} (hy : S.Inv y) {i : I} {k : K}
    {n : Option V → Task K V R} {cl : K → Bool}
    (hw : Within S.sim (S.keep i) (S.F i) (.get k n) cl) :
    n (y.sh.cur k) = n (S.own i y.sh k) := by
  unfold Setup.own
  cases hwi : (S.F i).write k with
  | true => simp
  | false =>
    simp only [Bool.false_eq_true, if_false]
    by_cases hall : ∀ j, (S.F j).write k = false
    · rw [hy.unwritten k hall]
    · have ⟨j, hj⟩ : ∃ j, (S.F j).write k = true := by
        apply Classical.byContradiction
        intro hn
        exact hall fun j => by
          cases h : (S.F j).write k with
          | false => rfl
          | true => exact absurd ⟨j, h⟩ hn
      have hji : j ≠ i := by
        intro e; subst e; rw [hwi] at hj; cases hj
      rcases hw.1 with h | h | ⟨h, hn⟩
      · rw [(H.apart.write j i k hji hj).2] at h; cases h
      · rw [hwi] at h; cases h
      · have := hy.view j i k hji hj h
        cases h0 : S.s0.cur k with
        | none =>
          rw [h0] at this
          cases h1 : y.sh.cur k with
          | none => rfl
          | some v => rw [h1] at this; exact this.elim
        | some u =>
          rw [h0] at this
          cases h1 : y.sh.cur k with
          | none => rw [h1] at this; exact this.elim
          | some v => rw [h1] at this; exact (hn u v this).symm

theorem own_write {i : I} {s : Sh K V} {k : K} (h : (S.F i).write k = true) :
    S.own i s k = s.cur k := by unfold Setup.own; simp [h]

/-! ### The step of the task itself -/

/-- The look-up being over, the task goes on as it would alone. -/
theorem Setup.Fit.resume_ok (H : S.Fit) {y : Sys I K V R} (hy : S.Inv y) {i : I} {k : K}
    {w : Wait K V R} {cl : K → Bool} {r : Option V}
    (hcl : ∀ k, cl k = true → (S.F i).clean k = true ∧ y.sh.prior k = S.s0.prior k)
    (hw : Within S.sim (S.keep i) (S.F i) (w.task k) cl)
    (hadd : ∀ m f n, w = .alter m f n → m ≠ .add)
    (hc : ∀ n, w = .clean n → r = S.s0.prior k)
    (hr : (∀ n, w ≠ .clean n) → r = y.sh.cur k)
    (hlock : ∀ m f n, w = .alter m f n → r.isSome → ∃ e, y.sh.cache k = some e ∧ e.raw = false ∧
      e.status ≠ .dirty .remove) :
    ∃ cl' : K → Bool, (∀ k, cl' k = true → cl k = true) ∧ S.Good i y.sh cl' (resume k w r) ∧
      S.out i y.sh (resume k w r) = alone S.s0.prior (w.task k) (S.own i y.sh) := by
  cases w with
  | clean n =>
    refine ⟨cl, fun _ h => h, ?_, ?_⟩
    · exact hw.2 r
    · rw [hc n rfl]; rfl
  | plain n =>
    refine ⟨cl, fun _ h => h, hw.2 r, ?_⟩
    rw [hr (fun _ h => by cases h)]
    show alone S.s0.prior (n (y.sh.cur k)) _ = alone S.s0.prior (n (S.own i y.sh k)) _
    rw [H.read_ok hy hw]
  | alter m f n =>
    have hne := hadd m f n rfl
    have hr := hr (fun _ h => by cases h)
    have ho : S.own i y.sh k = r := by rw [own_write hw.1, hr]
    cases r with
    | none =>
      refine ⟨cl, fun _ h => h, hw.2.2 _, ?_⟩
      show _ = alone S.s0.prior (.withMut k m f n) _
      simp only [alone, if_neg hne, ho]
      rfl
    | some v =>
      exact ⟨cl, fun _ h => h, ⟨hw, hne, hlock m f n rfl rfl⟩, rfl⟩
  | add v n =>
    have hr := hr (fun _ h => by cases h)
    have ho : S.own i y.sh k = r := by rw [own_write hw.1, hr]
    cases r with
    | some u =>
      refine ⟨fun x => cl x && decide (x ≠ k), fun _ h => by simp at h; exact h.1, hw.2.2 _, ?_⟩
      show _ = alone S.s0.prior (.add k v n) _
      simp only [alone, ho]
      rfl
    | none =>
      refine ⟨fun x => cl x && decide (x ≠ k), fun _ h => by simp at h; exact h.1,
        ⟨hw.1, hw.2.2, rfl, ?_, ?_, ?_⟩, ?_⟩
      · intro h; simp at h
      · intro h; rw [hw.2.1] at h; cases h
      · rintro ⟨j, hj, hv⟩
        rw [(H.apart.alone i j k (Ne.symm hj) hw.2.1).2] at hv; cases hv
      · show _ = alone S.s0.prior (.add k v n) _
        simp only [alone, ho]
        rfl

theorem Setup.Fit.lookup_ok (H : S.Fit) {y : Sys I K V R} (hy : S.Inv y) {i : I} {k : K}
    {w : Wait K V R} {cl : K → Bool}
    (hcl : ∀ k, cl k = true → (S.F i).clean k = true ∧ y.sh.prior k = S.s0.prior k)
    (hw : Within S.sim (S.keep i) (S.F i) (w.task k) cl)
    (hadd : ∀ m f n, w = .alter m f n → m ≠ .add)
    (hplain : ∀ n, w ≠ .clean n) :
    ∃ cl' : K → Bool, (∀ k, cl' k = true → cl k = true) ∧ S.Good i y.sh cl' (lookup y.sh k w) ∧
      S.out i y.sh (lookup y.sh k w) = alone S.s0.prior (w.task k) (S.own i y.sh) := by
  have hk : (S.F i).clean k = true ∨ (S.F i).read k = true ∨ (S.F i).write k = true ∨
      (S.F i).view k = true := by
    cases w with
    | clean n => exact absurd rfl (hplain n)
    | plain n =>
      rcases hw.1 with h | h | h
      · exact Or.inr (Or.inl h)
      · exact Or.inr (Or.inr (Or.inl h))
      · exact Or.inr (Or.inr (Or.inr h.1))
    | alter m f n => exact Or.inr (Or.inr (Or.inl hw.1))
    | add v n => exact Or.inr (Or.inr (Or.inl hw.1))
  unfold lookup
  cases hcache : y.sh.cache k with
  | none =>
    have hcold : y.sh.Cold k := Or.inl hcache
    exact ⟨cl, fun _ h => h, ⟨hw, hcold, H.others hy hcold (Or.inl hcache) hk, hadd⟩, rfl⟩
  | some e =>
    simp only []
    by_cases hrem : e.status = .dirty .remove
    · rw [if_pos hrem]
      refine H.resume_ok hy hcl hw hadd (fun n h => absurd h (hplain n)) (fun _ => ?_) ?_
      · simp [Sh.cur, hcache, Entry.now, hrem]
      · intro m f n _ h; cases h
    · rw [if_neg hrem]
      cases hraw : e.raw with
      | true =>
        have hcold := cold_of_raw hy.ok hcache hraw
        exact ⟨cl, fun _ h => h, ⟨hw, hcold,
          H.others hy hcold (Or.inr ⟨e, hcache, hraw⟩) hk, hadd, (hy.ok k e hcache hraw).2⟩, rfl⟩
      | false =>
        refine H.resume_ok hy hcl hw hadd (fun n h => absurd h (hplain n)) (fun _ => ?_) ?_
        · simp [Sh.cur, hcache, Entry.now, hrem]
        · intro m f n _ _; exact ⟨e, hcache, hraw, hrem⟩

end

end Fastroll.Conc
