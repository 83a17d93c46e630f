import Verif.Conc.Lemmas3

namespace Fastroll.Conc

open Fastroll.StateCache (Mut Status upd addKey)

/-! ### Every task comes to an end -/

section
variable {I K V R : Type} [DecidableEq I] [DecidableEq K]

/-- The system after `n` steps of an infinite schedule. -/
def Sys.after (y : Sys I K V R) (σ : Nat → I) : Nat → Sys I K V R
  | 0 => y
  | n + 1 => (y.after σ n).step (σ n)

theorem after_run (y : Sys I K V R) (σ : Nat → I) (n : Nat) :
    y.after σ n = y.run ((List.range n).map σ) := by
  induction n with
  | zero => rfl
  | succ n ih =>
    rw [List.range_succ, List.map_append]
    show (y.after σ n).step (σ n) = List.foldl Sys.step y _
    rw [List.foldl_append, ih]
    rfl

variable (y : Sys I K V R) (σ : Nat → I) (i : I)

/-- From this point of the program the task comes to an end. -/
def Ends (p : Pc K V R) : Prop :=
  ∀ n, (y.after σ n).pc i = p → ∃ m, ((y.after σ m).pc i).result.isSome

variable {y σ i}

theorem pc_step_other {z : Sys I K V R} {j : I} (h : i ≠ j) : (z.step j).pc i = z.pc i := by
  show upd z.pc j _ i = z.pc i
  rw [upd_other _ _ h]

theorem pc_step_self {z : Sys I K V R} : (z.step i).pc i = (step z.sh (z.pc i)).2 := by
  show upd z.pc i _ i = _
  rw [upd_same]

/-- The task waits unchanged until it is its turn. -/
theorem turn (hf : ∀ n, ∃ m, n ≤ m ∧ σ m = i) {p : Pc K V R} {n : Nat}
    (h : (y.after σ n).pc i = p) :
    ∃ m s, (y.after σ m).pc i = (step s p).2 := by
  obtain ⟨m, hm, hi⟩ := hf n
  obtain ⟨d, rfl⟩ := Nat.exists_eq_add_of_le hm
  clear hm
  induction d generalizing n with
  | zero =>
    refine ⟨n + 1, (y.after σ n).sh, ?_⟩
    show ((y.after σ n).step (σ n)).pc i = _
    rw [show σ n = i from hi, pc_step_self, h]
  | succ d ih =>
    by_cases hn : σ n = i
    · refine ⟨n + 1, (y.after σ n).sh, ?_⟩
      show ((y.after σ n).step (σ n)).pc i = _
      rw [hn, pc_step_self, h]
    · refine ih (n := n + 1) ?_ ?_
      · show ((y.after σ n).step (σ n)).pc i = _
        rw [pc_step_other (fun e => hn e.symm)]; exact h
      · rw [← hi]; congr 1; omega

theorem Ends.adv (hf : ∀ n, ∃ m, n ≤ m ∧ σ m = i) {p : Pc K V R}
    (h : ∀ s, Ends y σ i (step s p).2) : Ends y σ i p := by
  intro n hn
  obtain ⟨m, s, hm⟩ := turn hf hn
  exact h s m hm

section
variable (hf : ∀ n, ∃ m, n ≤ m ∧ σ m = i)
include hf

theorem ends_put {k : K} {e : Entry V} {n : Except Err Unit → Task K V R}
    (h : ∀ r, Ends y σ i (.ready (n r))) : Ends y σ i (.put k e n) :=
  Ends.adv hf fun _ => h _

theorem ends_mark {k : K} {e : Entry V} {n : Except Err Unit → Task K V R}
    (h : ∀ r, Ends y σ i (.ready (n r))) : Ends y σ i (.mark k e n) :=
  Ends.adv hf fun _ => ends_put hf h

theorem ends_lock {k : K} {m : Mut} {f : V → Option V} {n : Except Err Unit → Task K V R}
    (h : ∀ r, Ends y σ i (.ready (n r))) : Ends y σ i (.lock k m f n) := by
  refine Ends.adv hf fun s => ?_
  show Ends y σ i (change s k m f n)
  unfold change
  split
  · exact h _
  · split
    · exact h _
    · split
      · exact h _
      · split
        · exact ends_mark hf h
        · exact ends_put hf h

/-- All the ways on from a look-up come to an end. -/
def WaitEnds (y : Sys I K V R) (σ : Nat → I) (i : I) : Wait K V R → Prop
  | .clean n => ∀ r, Ends y σ i (.ready (n r))
  | .plain n => ∀ r, Ends y σ i (.ready (n r))
  | .alter _ _ n => ∀ r, Ends y σ i (.ready (n r))
  | .add _ n => ∀ r, Ends y σ i (.ready (n r))

theorem ends_resume {k : K} {w : Wait K V R} (h : WaitEnds y σ i w) (r : Option V) :
    Ends y σ i (resume k w r) := by
  cases w with
  | clean n => exact h r
  | plain n => exact h r
  | alter m f n =>
    cases r with
    | none => exact h _
    | some v => exact ends_lock hf h
  | add v n =>
    cases r with
    | none => exact ends_mark hf h
    | some v => exact h _

theorem ends_insert {k : K} {v : V} {w : Wait K V R} (h : WaitEnds y σ i w) :
    Ends y σ i (.insert k v w) :=
  Ends.adv hf fun _ => ends_resume hf h _

theorem ends_fetch {k : K} {w : Wait K V R} (h : WaitEnds y σ i w) :
    Ends y σ i (.fetch k w) := by
  refine Ends.adv hf fun s => ?_
  simp only [step]
  split
  · exact ends_resume hf h _
  · exact ends_insert hf h

theorem ends_lookup {k : K} {w : Wait K V R} (h : WaitEnds y σ i w) (s : Sh K V) :
    Ends y σ i (lookup s k w) := by
  unfold lookup
  split
  · exact ends_fetch hf h
  · split
    · exact ends_resume hf h _
    · split
      · exact ends_insert hf h
      · exact ends_resume hf h _

theorem ends_ready (t : Task K V R) : Ends y σ i (.ready t) := by
  induction t with
  | done r => intro n hn; exact ⟨n, by rw [hn]; rfl⟩
  | getClean k n ih =>
    refine Ends.adv hf fun s => ?_
    show Ends y σ i (lookupClean s k n)
    unfold lookupClean
    split
    · exact ends_fetch hf (w := .clean n) ih
    · split
      · exact ends_fetch hf (w := .clean n) ih
      · exact ih _
  | get k n ih => exact Ends.adv hf fun s => ends_lookup hf (w := .plain n) ih s
  | withMut k m f n ih =>
    refine Ends.adv hf fun s => ?_
    simp only [step]
    split
    · exact ih _
    · exact ends_lookup hf (w := .alter m f n) ih s
  | add k v n ih => exact Ends.adv hf fun s => ends_lookup hf (w := .add v n) ih s

end

/-- A finished task stays finished. -/
theorem finished_stays {z : Sys I K V R} {j i : I} {r : R} (h : (z.pc i).result = some r) :
    ((z.step j).pc i).result = some r := by
  by_cases hij : i = j
  · subst hij
    rw [pc_step_self]
    cases hp : z.pc i with
    | ready t =>
      rw [hp] at h
      cases t with
      | done r' => exact h
      | getClean _ _ => cases h
      | get _ _ => cases h
      | withMut _ _ _ _ => cases h
      | add _ _ _ => cases h
    | fetch _ _ => rw [hp] at h; cases h
    | insert _ _ _ => rw [hp] at h; cases h
    | lock _ _ _ _ => rw [hp] at h; cases h
    | mark _ _ _ => rw [hp] at h; cases h
    | put _ _ _ => rw [hp] at h; cases h
  · rw [pc_step_other hij]; exact h

theorem after_stays {i : I} {m n : Nat} (hmn : m ≤ n)
    (h : ((y.after σ m).pc i).result.isSome) : ((y.after σ n).pc i).result.isSome := by
  obtain ⟨d, rfl⟩ := Nat.exists_eq_add_of_le hmn
  clear hmn
  induction d with
  | zero => exact h
  | succ d ih =>
    obtain ⟨r, hr⟩ := Option.isSome_iff_exists.mp ih
    exact Option.isSome_iff_exists.mpr ⟨r, finished_stays (j := σ (m + d)) hr⟩

/-- All tasks of a list are finished at one time. -/
theorem after_all (hf : ∀ i n, ∃ m, n ≤ m ∧ σ m = i) (s : Sh K V) (t : I → Task K V R)
    (l : List I) : ∃ n, ∀ i ∈ l, (((Sys.spawn s t).after σ n).pc i).result.isSome := by
  induction l with
  | nil => exact ⟨0, fun i h => by cases h⟩
  | cons i l ih =>
    obtain ⟨n, hn⟩ := ih
    obtain ⟨m, hm⟩ := ends_ready (y := Sys.spawn s t) (hf i) (t i) 0 rfl
    refine ⟨max n m, fun j hj => ?_⟩
    rcases List.mem_cons.mp hj with h | h
    · subst h; exact after_stays (Nat.le_max_right n m) hm
    · exact after_stays (Nat.le_max_left n m) (hn j h)

/-! ### What is warm stays warm -/

theorem Setup.Inv.warm_step {S : Setup I K V R} {y : Sys I K V R} (hy : S.Inv y)
    (i : I) {k : K} (h : y.sh.Warm k) : (y.step i).sh.Warm k := by
  obtain ⟨cl, _, hg, _⟩ := hy.thread i
  unfold Sys.step
  cases hp : y.pc i with
  | ready t =>
    cases t with
    | done r => exact h
    | getClean k n => exact h
    | get k n => exact h
    | withMut x m f n =>
      simp only [Conc.step]
      split <;> exact h
    | add k v n => exact h
  | fetch x w =>
    simp only [Conc.step]
    split <;> exact h
  | insert x v w => exact inserted_warm h
  | lock x m f n => exact h
  | mark x e n => exact h
  | put x e n =>
    rw [hp] at hg
    exact stored_warm hg.2.2.1 h

end

/-! ### The entropy is cached when its task has succeeded -/

section
variable {H X : Type}

/-- Where the entropy task of the first phase can be. -/
inductive EntropyAt (b : Bool) (s : Sh Key (Val H X)) : Pc Key (Val H X) (Out (Val H X)) → Prop
  | start (n) (hn : n = fun r => match r with
      | .error e => fail (.state e)
      | .ok _ => .done (.ok [])) : EntropyAt b s (.ready (.withMut .entropy .update (rotate b) n))
  | fetch (n) (hn : n = fun r => match r with
      | .error e => fail (.state e)
      | .ok _ => .done (.ok [])) : EntropyAt b s (.fetch .entropy (.alter .update (rotate b) n))
  | insert (v : Val H X) (n) (hn : n = fun r => match r with
      | .error e => fail (.state e)
      | .ok _ => .done (.ok [])) : EntropyAt b s (.insert .entropy v (.alter .update (rotate b) n))
  | lock (n) (hn : n = fun r => match r with
      | .error e => fail (.state e)
      | .ok _ => .done (.ok [])) : EntropyAt b s (.lock .entropy .update (rotate b) n)
  | mark (e : Entry (Val H X)) (n) (hn : n = fun r => match r with
      | .error e => fail (.state e)
      | .ok _ => .done (.ok [])) : EntropyAt b s (.mark .entropy e n)
  | put (e : Entry (Val H X)) (n) (hn : n = fun r => match r with
      | .error e => fail (.state e)
      | .ok _ => .done (.ok [])) : EntropyAt b s (.put .entropy e n)
  | failed (e : TErr) : EntropyAt b s (.ready (.done (.error e)))
  | ok (h : s.Warm .entropy) : EntropyAt b s (.ready (.done (.ok [])))

theorem entropyAt_step {b : Bool} {s : Sh Key (Val H X)} {p : Pc Key (Val H X) (Out (Val H X))}
    (h : EntropyAt b s p) (hraw : ∀ e n, p = .put .entropy e n → e.raw = false) :
    EntropyAt b (step s p).1 (step s p).2 := by
  cases h with
  | start n hn =>
    simp only [step, reduceCtorEq, if_false]
    unfold lookup
    split
    · exact .fetch n hn
    · split
      · subst hn; exact .failed _
      · split
        · exact .insert _ n hn
        · exact .lock n hn
  | fetch n hn =>
    simp only [step]
    split
    · subst hn; exact .failed _
    · exact .insert _ n hn
  | insert v n hn => exact .lock n hn
  | lock n hn =>
    show EntropyAt b s (change s .entropy .update (rotate b) n)
    unfold change
    split
    · subst hn; exact .failed _
    · split
      · subst hn; exact .failed _
      · split
        · subst hn; exact .failed _
        · split
          · exact .mark _ n hn
          · exact .put _ n hn
  | mark e n hn => exact .put e n hn
  | put e n hn =>
    have := hraw e n rfl
    subst hn
    refine .ok ⟨e, ?_, this⟩
    simp [step, upd_same]
  | failed e => exact .failed e
  | ok h => exact .ok h

theorem entropyAt_other {b : Bool} {s s' : Sh Key (Val H X)}
    {p : Pc Key (Val H X) (Out (Val H X))}
    (h : EntropyAt b s p) (hw : s.Warm .entropy → s'.Warm .entropy) : EntropyAt b s' p := by
  cases h with
  | start n hn => exact .start n hn
  | fetch n hn => exact .fetch n hn
  | insert v n hn => exact .insert v n hn
  | lock n hn => exact .lock n hn
  | mark e n hn => exact .mark e n hn
  | put e n hn => exact .put e n hn
  | failed e => exact .failed e
  | ok h => exact .ok (hw h)

end

end Fastroll.Conc
