import Verif.Conc.Lemmas

namespace Fastroll.Conc

open Fastroll.StateCache (Mut Status upd addKey)
open Fastroll.Conc.Paper (alone Foot Within Apart)

section
variable {I K V R : Type} [DecidableEq I] [DecidableEq K] {S : Setup I K V R}

theorem upd_same {A B : Type} [DecidableEq A] (f : A → B) (a : A) (b : B) : upd f a b a = b := by
  simp [upd]

theorem upd_other {A B : Type} [DecidableEq A] (f : A → B) {a x : A} (b : B) (h : x ≠ a) :
    upd f a b x = f x := by simp [upd, h]

/-- What one has to show about a task to keep the invariant. -/
def Setup.Thread (S : Setup I K V R) (i : I) (s : Sh K V) (p : Pc K V R) : Prop :=
  ∃ cl : K → Bool, (∀ k, cl k = true → (S.F i).clean k = true ∧ s.prior k = S.s0.prior k) ∧
    S.Good i s cl p ∧ S.out i s p = alone S.s0.prior (S.t i) S.s0.cur

theorem Setup.Inv.same {y : Sys I K V R} (hy : S.Inv y) (d : List K) {i : I} {p : Pc K V R}
    (h : S.Thread i y.sh p) : S.Inv ⟨⟨y.sh.db, y.sh.cache, d⟩, upd y.pc i p⟩ := by
  refine ⟨hy.ok, hy.db, hy.unwritten, hy.warm, hy.prior, hy.view, fun j => ?_⟩
  by_cases hj : j = i
  · subst hj
    show S.Thread j _ (upd y.pc j p j)
    rw [upd_same]; exact h
  · show S.Thread j _ (upd y.pc i p j)
    rw [upd_other _ _ hj]; exact hy.thread j

theorem Setup.Inv.same' {y : Sys I K V R} (hy : S.Inv y) {i : I} {p : Pc K V R}
    (h : S.Thread i y.sh p) : S.Inv ⟨y.sh, upd y.pc i p⟩ := by
  have := hy.same y.sh.dirty h
  exact this

/-- The thread condition from a lookup result. -/
theorem Setup.thread_of {y : Sys I K V R} {i : I} {cl : K → Bool} {p p' : Pc K V R}
    (hcl : ∀ k, cl k = true → (S.F i).clean k = true ∧ y.sh.prior k = S.s0.prior k)
    (ho : S.out i y.sh p = alone S.s0.prior (S.t i) S.s0.cur)
    (h : ∃ cl' : K → Bool, (∀ k, cl' k = true → cl k = true) ∧ S.Good i y.sh cl' p' ∧
      S.out i y.sh p' = S.out i y.sh p) : S.Thread i y.sh p' := by
  obtain ⟨cl', h1, h2, h3⟩ := h
  exact ⟨cl', fun k hk => hcl k (h1 k hk), h2, h3.trans ho⟩

/-! ### Insertion of a clean entry -/

section insert
variable {s : Sh K V} {k : K} {v : V}

/-- The cache after a clean insertion. -/
def inserted (s : Sh K V) (k : K) (v : V) : Sh K V :=
  ⟨s.db, upd s.cache k (some (fresh v)), s.dirty⟩

theorem inserted_cur (hc : s.Cold k) (hv : s.db k = some v) (x : K) :
    (inserted s k v).cur x = s.cur x := by
  by_cases hx : x = k
  · subst hx
    rw [cold_cur hc, hv]
    simp [Sh.cur, inserted, upd_same, Entry.now, fresh]
  · simp only [Sh.cur, inserted, upd_other _ _ hx]

theorem inserted_prior (hc : s.Cold k) (hv : s.db k = some v) (x : K) :
    (inserted s k v).prior x = s.prior x := by
  by_cases hx : x = k
  · subst hx
    rw [cold_prior hc, hv]
    simp [Sh.prior, inserted, upd_same, fresh]
  · simp only [Sh.prior, inserted, upd_other _ _ hx]

theorem inserted_cold (hv : s.db k = some v) {x : K} (h : s.Cold x) : (inserted s k v).Cold x := by
  by_cases hx : x = k
  · subst hx
    refine Or.inr ⟨fresh v, ?_, rfl, hv, Or.inr rfl⟩
    simp [inserted, upd_same]
  · rcases h with h | ⟨e, h, h'⟩
    · exact Or.inl (by simp only [inserted, upd_other _ _ hx]; exact h)
    · exact Or.inr ⟨e, by simp only [inserted, upd_other _ _ hx]; exact h, h'⟩

theorem inserted_warm {x : K} (h : s.Warm x) : (inserted s k v).Warm x := by
  by_cases hx : x = k
  · subst hx
    exact ⟨fresh v, by simp [inserted, upd_same], rfl⟩
  · obtain ⟨e, h, h'⟩ := h
    exact ⟨e, by simp only [inserted, upd_other _ _ hx]; exact h, h'⟩

theorem inserted_ok (h : s.Ok) : (inserted s k v).Ok := by
  intro x e he hr
  by_cases hx : x = k
  · subst hx
    simp only [inserted, upd_same] at he
    cases he
    exact absurd hr (by simp [fresh])
  · simp only [inserted, upd_other _ _ hx] at he
    exact h x e he hr

theorem inserted_own (hc : s.Cold k) (hv : s.db k = some v) (i : I) :
    S.own i (inserted s k v) = S.own i s := by
  funext x
  unfold Setup.own
  rw [inserted_cur hc hv]

theorem inserted_out (hc : s.Cold k) (hv : s.db k = some v) (i : I) (p : Pc K V R) :
    S.out i (inserted s k v) p = S.out i s p := by
  cases p <;> simp only [Setup.out, inserted_own hc hv]

theorem inserted_good (hv : s.db k = some v) {i : I} {cl : K → Bool} {p : Pc K V R}
    (hp : ∀ m f n, p ≠ .lock k m f n) (h : S.Good i s cl p) :
    S.Good i (inserted s k v) cl p := by
  cases p with
  | ready t => exact h
  | fetch x w => exact ⟨h.1, inserted_cold hv h.2.1, h.2.2⟩
  | insert x u w => exact ⟨h.1, inserted_cold hv h.2.1, h.2.2⟩
  | lock x m f n =>
    obtain ⟨h1, h2, e, he, h3⟩ := h
    refine ⟨h1, h2, e, ?_, h3⟩
    have hx : x ≠ k := fun hx => hp m f n (by rw [hx])
    simp only [inserted, upd_other _ _ hx]; exact he
  | mark x e n => exact h
  | put x e n => exact h

/-- A clean insertion changes nothing that anybody can see. -/
theorem Setup.Inv.insert {y : Sys I K V R} (hy : S.Inv y) (hc : y.sh.Cold k)
    (hv : y.sh.db k = some v) (hp : ∀ j m f n, y.pc j ≠ .lock k m f n) :
    S.Inv ⟨inserted y.sh k v, y.pc⟩ := by
  refine ⟨inserted_ok hy.ok, hy.db, ?_, fun x h => inserted_warm (hy.warm x h), ?_, ?_, fun j => ?_⟩
  · intro x hx; rw [inserted_cur hc hv]; exact hy.unwritten x hx
  · intro x hx; rw [inserted_prior hc hv]; exact hy.prior x hx
  · intro i j x hij h1 h2; rw [inserted_cur hc hv]; exact hy.view i j x hij h1 h2
  · obtain ⟨cl, h1, h2, h3⟩ := hy.thread j
    refine ⟨cl, fun x hx => ?_, inserted_good hv (hp j) h2, ?_⟩
    · rw [inserted_prior hc hv]; exact h1 x hx
    · show S.out j (inserted y.sh k v) (y.pc j) = _
      rw [inserted_out hc hv]; exact h3

end insert

/-! ### Storing a changed entry -/

section put
variable {s : Sh K V} {k : K} {e : Entry V}

/-- The cache after a changed entry has been stored. -/
def stored (s : Sh K V) (k : K) (e : Entry V) : Sh K V := ⟨s.db, upd s.cache k (some e), s.dirty⟩

theorem stored_cur_same : (stored s k e).cur k = e.now := by
  simp [Sh.cur, stored, upd_same]

theorem stored_cur_other {x : K} (hx : x ≠ k) : (stored s k e).cur x = s.cur x := by
  simp only [Sh.cur, stored, upd_other _ _ hx]

theorem stored_prior_same (hr : e.raw = false) : (stored s k e).prior k = some e.snapshot := by
  simp [Sh.prior, stored, upd_same, hr]

theorem stored_prior_other {x : K} (hx : x ≠ k) : (stored s k e).prior x = s.prior x := by
  simp only [Sh.prior, stored, upd_other _ _ hx]

theorem stored_warm (hr : e.raw = false) {x : K} (h : s.Warm x) : (stored s k e).Warm x := by
  by_cases hx : x = k
  · subst hx
    exact ⟨e, by simp [stored, upd_same], hr⟩
  · obtain ⟨e', h, h'⟩ := h
    exact ⟨e', by simp only [stored, upd_other _ _ hx]; exact h, h'⟩

theorem stored_ok (hr : e.raw = false) (h : s.Ok) : (stored s k e).Ok := by
  intro x e' he hr'
  by_cases hx : x = k
  · subst hx
    simp only [stored, upd_same] at he
    cases he
    rw [hr] at hr'; cases hr'
  · simp only [stored, upd_other _ _ hx] at he
    exact h x e' he hr'

theorem stored_cold {x : K} (hx : x ≠ k) (h : s.Cold x) : (stored s k e).Cold x := by
  rcases h with h | ⟨e', h, h'⟩
  · exact Or.inl (by simp only [stored, upd_other _ _ hx]; exact h)
  · exact Or.inr ⟨e', by simp only [stored, upd_other _ _ hx]; exact h, h'⟩

theorem stored_own_other {j : I} (h : (S.F j).write k = false) :
    S.own j (stored s k e) = S.own j s := by
  funext x
  unfold Setup.own
  by_cases hx : x = k
  · subst hx; simp [h]
  · rw [stored_cur_other hx]

theorem stored_own_same {i : I} (h : (S.F i).write k = true) :
    S.own i (stored s k e) = Paper.put (S.own i s) k e.now := by
  funext x
  unfold Setup.own Paper.put
  by_cases hx : x = k
  · subst hx; simp [h, stored_cur_same]
  · rw [stored_cur_other hx, if_neg hx]

theorem stored_out_other {j : I} (h : (S.F j).write k = false) (p : Pc K V R) :
    S.out j (stored s k e) p = S.out j s p := by
  cases p <;> simp only [Setup.out, stored_own_other h]

theorem stored_good_other {i j : I} (hij : i ≠ j) (hi : (S.F i).write k = true)
    (h : (S.F j).write k = false) {cl : K → Bool} {p : Pc K V R} (hg : S.Good j s cl p) :
    S.Good j (stored s k e) cl p := by
  cases p with
  | ready t => exact hg
  | fetch x w =>
    obtain ⟨h1, h2, h3, h4⟩ := hg
    refine ⟨h1, stored_cold ?_ h2, h3, h4⟩
    intro hx; subst hx; rw [h3 i hij] at hi; cases hi
  | insert x u w =>
    obtain ⟨h1, h2, h3, h4⟩ := hg
    refine ⟨h1, stored_cold ?_ h2, h3, h4⟩
    intro hx; subst hx; rw [h3 i hij] at hi; cases hi
  | lock x m f n =>
    obtain ⟨h1, h2, e', he, h3⟩ := hg
    refine ⟨h1, h2, e', ?_, h3⟩
    have hx : x ≠ k := by
      intro hx; subst hx; have := h1.1; rw [h] at this; cases this
    simp only [stored, upd_other _ _ hx]; exact he
  | mark x e' n => exact hg
  | put x e' n => exact hg

theorem Setup.Inv.put (H : S.Fit) {y : Sys I K V R} (hy : S.Inv y) {i : I}
    {n : Except Err Unit → Task K V R} {cl : K → Bool}
    (hcl : ∀ k, cl k = true → (S.F i).clean k = true ∧ y.sh.prior k = S.s0.prior k)
    (hs : S.Stored i cl k e n)
    (ho : S.out i y.sh (.put k e n) = alone S.s0.prior (S.t i) S.s0.cur) :
    S.Inv ⟨stored y.sh k e, upd y.pc i (.ready (n (.ok ())))⟩ := by
  obtain ⟨hw, hn, hraw, hclk, hmk, hkeep⟩ := hs
  have others : ∀ j, j ≠ i → (S.F j).write k = false := fun j hj =>
    (H.apart.write i j k (Ne.symm hj) hw).1
  refine ⟨stored_ok hraw hy.ok, hy.db, ?_, fun x h => stored_warm hraw (hy.warm x h), ?_, ?_, ?_⟩
  · intro x hx
    have hxk : x ≠ k := by intro h; subst h; rw [hx i] at hw; cases hw
    rw [show (Sys.mk (stored y.sh k e) (upd y.pc i (.ready (n (.ok ()))))).sh.cur x =
      (stored y.sh k e).cur x from rfl, stored_cur_other hxk]
    exact hy.unwritten x hx
  · intro x hx
    by_cases hxk : x = k
    · subst hxk
      exact (stored_prior_same hraw).trans (hmk (hx i)).symm
    · exact (stored_prior_other hxk).trans (hy.prior x hx)
  · intro a b x hab h1 h2
    by_cases hxk : x = k
    · subst hxk
      have hai : a = i := Classical.byContradiction fun hne => by
        rw [others a hne] at h1; cases h1
      subst hai
      have := hkeep ⟨b, Ne.symm hab, h2⟩
      show simO _ _ ((stored y.sh x e).cur x)
      rw [stored_cur_same]; exact this
    · show simO _ _ ((stored y.sh k e).cur x)
      rw [stored_cur_other hxk]; exact hy.view a b x hab h1 h2
  · intro j
    by_cases hj : j = i
    · subst hj
      show S.Thread j _ (upd y.pc j _ j)
      rw [upd_same]
      refine ⟨cl, fun x hx => ⟨(hcl x hx).1, ?_⟩, hn _, ?_⟩
      · by_cases hxk : x = k
        · subst hxk
          exact (stored_prior_same hraw).trans (hclk hx).symm
        · exact (stored_prior_other hxk).trans (hcl x hx).2
      · show alone S.s0.prior (n (.ok ())) (S.own j (stored y.sh k e)) = _
        rw [stored_own_same hw]; exact ho
    · show S.Thread j _ (upd y.pc i _ j)
      rw [upd_other _ _ hj]
      obtain ⟨cl', h1, h2, h3⟩ := hy.thread j
      refine ⟨cl', fun x hx => ⟨(h1 x hx).1, ?_⟩,
        stored_good_other (Ne.symm hj) hw (others j hj) h2, ?_⟩
      · by_cases hxk : x = k
        · subst hxk
          have hmi : (S.F i).make x = false := by
            cases hmi : (S.F i).make x with
            | false => rfl
            | true =>
              have := (H.apart.alone i j x (Ne.symm hj) hmi).1
              rw [(h1 x hx).1] at this; cases this
          exact (stored_prior_same hraw).trans (hmk hmi).symm
        · exact (stored_prior_other hxk).trans (h1 x hx).2
      · show S.out j (stored y.sh k e) (y.pc j) = _
        rw [stored_out_other (others j hj)]; exact h3

end put

/-! ### All steps -/

theorem Setup.Fit.change_ok (H : S.Fit) {y : Sys I K V R} (hy : S.Inv y) {i : I} {k : K} {m : Mut}
    {f : V → Option V} {n : Except Err Unit → Task K V R} {cl : K → Bool}
    (hcl : ∀ k, cl k = true → (S.F i).clean k = true ∧ y.sh.prior k = S.s0.prior k)
    (hg : S.Good i y.sh cl (.lock k m f n)) :
    ∃ cl' : K → Bool, (∀ k, cl' k = true → cl k = true) ∧
      S.Good i y.sh cl' (change y.sh k m f n) ∧
      S.out i y.sh (change y.sh k m f n) = S.out i y.sh (.lock k m f n) := by
  obtain ⟨hw, hne, e, he, hraw, hrem⟩ := hg
  have hown : S.own i y.sh k = some e.value := by
    rw [own_write hw.1]; simp [Sh.cur, he, Entry.now, hrem]
  have hprior : y.sh.prior k = some e.snapshot := by simp [Sh.prior, he, hraw]
  have hmake : (S.F i).make k = false → S.s0.prior k = some e.snapshot := by
    intro hm
    rw [← hprior]
    refine (hy.prior k fun j => ?_).symm
    by_cases hj : j = i
    · subst hj; exact hm
    · cases hmj : (S.F j).make k with
      | false => rfl
      | true =>
        have := H.apart.make j k hmj
        rw [(H.apart.write i j k (Ne.symm hj) hw.1).1] at this; cases this
  unfold change
  rw [he]
  simp only [hraw, Bool.false_eq_true, if_false]
  have hout : S.out i y.sh (.lock k m f n) = alone S.s0.prior (.withMut k m f n) (S.own i y.sh) := rfl
  cases hf : f e.value with
  | none =>
    refine ⟨cl, fun _ h => h, hw.2.2 _, ?_⟩
    rw [hout]
    simp only [alone, if_neg hne, hown, hf]
    rfl
  | some v =>
    have key : ∀ st : Status, (st = .dirty m ∨ (st = e.status ∧ m = .update)) →
        S.Stored i cl k ⟨false, e.snapshot, v, st⟩ n ∧
        alone S.s0.prior (n (.ok ())) (Paper.put (S.own i y.sh) k
          (Entry.now ⟨false, e.snapshot, v, st⟩)) = S.out i y.sh (.lock k m f n) := by
      intro st hst
      have hnow : Entry.now ⟨false, e.snapshot, v, st⟩ = Paper.kept m v := by
        unfold Entry.now Paper.kept
        rcases hst with h | ⟨h, hm⟩
        · subst h
          by_cases hmr : m = .remove
          · simp [hmr]
          · simp [hmr]
        · subst h; simp only [if_neg hrem, hm]; simp
      refine ⟨⟨hw.1, hw.2.2, rfl, ?_, hmake, ?_⟩, ?_⟩
      · intro h; rw [← (hcl k h).2]; exact hprior
      · rintro hk
        obtain ⟨hmu, hsim⟩ := hw.2.1 hk
        rw [hnow, hmu]
        obtain ⟨j, hj, hv⟩ := hk
        have := hy.view i j k (Ne.symm hj) hw.1 hv
        rw [← own_write (S := S) (i := i) (s := y.sh) hw.1, hown] at this
        unfold Paper.kept
        simp only [reduceCtorEq, if_false]
        cases h0 : S.s0.cur k with
        | none => rw [h0] at this; exact this.elim
        | some u =>
          rw [h0] at this
          exact H.trans k u _ v this (hsim _ _ hf)
      · rw [hout]
        simp only [alone, if_neg hne, hown, hf, hnow]
    simp only []
    by_cases hc : e.status ≠ .dirty .add ∨ m ≠ .update
    · rw [if_pos hc]
      exact ⟨cl, fun _ h => h, (key (.dirty m) (Or.inl rfl)).1, (key (.dirty m) (Or.inl rfl)).2⟩
    · rw [if_neg hc]
      have hm : m = .update := Classical.byContradiction fun h => hc (Or.inr h)
      exact ⟨cl, fun _ h => h, (key e.status (Or.inr ⟨rfl, hm⟩)).1,
        (key e.status (Or.inr ⟨rfl, hm⟩)).2⟩

theorem Setup.Inv.step (H : S.Fit) {y : Sys I K V R} (hy : S.Inv y) (i : I) : S.Inv (y.step i) := by
  obtain ⟨cl, hcl, hg, ho⟩ := hy.thread i
  unfold Sys.step
  cases hp : y.pc i with
  | ready t =>
    rw [hp] at hg ho
    cases t with
    | done r => exact hy.same' ⟨cl, hcl, hg, ho⟩
    | getClean k n =>
      refine hy.same' (Setup.thread_of hcl ho ?_)
      show ∃ cl' : K → Bool, _ ∧ S.Good i y.sh cl' (lookupClean y.sh k n) ∧
        S.out i y.sh (lookupClean y.sh k n) = _
      unfold lookupClean
      have hk : (S.F i).clean k = true := (hcl k hg.1).1
      cases hcache : y.sh.cache k with
      | none =>
        have hcold : y.sh.Cold k := Or.inl hcache
        exact ⟨cl, fun _ h => h, ⟨hg, hcold, H.others hy hcold (Or.inl hcache) (Or.inl hk),
          fun _ _ _ h => by cases h⟩, rfl⟩
      | some e =>
        simp only []
        cases hraw : e.raw with
        | true =>
          have hcold := cold_of_raw hy.ok hcache hraw
          exact ⟨cl, fun _ h => h, ⟨hg, hcold,
            H.others hy hcold (Or.inr ⟨e, hcache, hraw⟩) (Or.inl hk),
            fun _ _ _ h => by cases h⟩, rfl⟩
        | false =>
          refine ⟨cl, fun _ h => h, hg.2 _, ?_⟩
          have : S.s0.prior k = some e.snapshot := by
            rw [← (hcl k hg.1).2]; simp [Sh.prior, hcache, hraw]
          show alone S.s0.prior (n (some e.snapshot)) _ = alone S.s0.prior (n (S.s0.prior k)) _
          rw [this]
    | get k n =>
      refine hy.same' (Setup.thread_of hcl ho ?_)
      exact H.lookup_ok hy (w := .plain n) hcl hg (fun _ _ _ h => by cases h)
        (fun _ h => by cases h)
    | withMut k m f n =>
      show S.Inv ⟨(if m = .add then _ else _ : Sh K V × Pc K V R).1, _⟩
      by_cases hm : m = .add
      · rw [Conc.step, if_pos hm]
        refine hy.same' (Setup.thread_of hcl ho ⟨cl, fun _ h => h, hg.2.2 _, ?_⟩)
        show _ = alone S.s0.prior (.withMut k m f n) _
        simp only [alone, if_pos hm]
        rfl
      · rw [Conc.step, if_neg hm]
        refine hy.same' (Setup.thread_of hcl ho ?_)
        exact H.lookup_ok hy (w := .alter m f n) hcl hg (fun _ _ _ h => by cases h; exact hm)
          (fun _ h => by cases h)
    | add k v n =>
      refine hy.same' (Setup.thread_of hcl ho ?_)
      exact H.lookup_ok hy (w := .add v n) hcl hg (fun _ _ _ h => by cases h)
        (fun _ h => by cases h)
  | fetch k w =>
    rw [hp] at hg ho
    obtain ⟨h1, h2, h3, h4⟩ := hg
    simp only [Conc.step]
    cases hd : y.sh.db k with
    | none =>
      refine hy.same' (Setup.thread_of hcl ho ?_)
      refine H.resume_ok hy hcl h1 h4 (fun n hn => ?_) (fun _ => ?_) (fun _ _ _ _ h => by cases h)
      · subst hn
        rw [← (hcl k h1.1).2, cold_prior h2, hd]
      · rw [cold_cur h2, hd]
    | some v =>
      exact hy.same' (Setup.thread_of hcl ho ⟨cl, fun _ h => h, ⟨h1, h2, h3, h4, hd⟩, rfl⟩)
  | insert k v w =>
    rw [hp] at hg ho
    obtain ⟨h1, h2, h3, h4, hd⟩ := hg
    have hi : S.Inv ⟨inserted y.sh k v, y.pc⟩ := hy.insert h2 hd (by
      intro j m f n hj
      by_cases hji : j = i
      · subst hji; rw [hp] at hj; cases hj
      · obtain ⟨cl', _, hg', _⟩ := hy.thread j
        rw [hj] at hg'
        have := hg'.1.1
        rw [h3 j hji] at this; cases this)
    have hcl' : ∀ x, cl x = true → (S.F i).clean x = true ∧
        (inserted y.sh k v).prior x = S.s0.prior x := fun x hx => by
      rw [inserted_prior h2 hd]; exact hcl x hx
    have ho' : S.out i (inserted y.sh k v) (.insert k v w) =
        alone S.s0.prior (S.t i) S.s0.cur := by rw [inserted_out h2 hd]; exact ho
    refine hi.same' (Setup.thread_of hcl' ho' ?_)
    refine H.resume_ok hi hcl' h1 h4 (fun n hn => ?_) (fun _ => ?_) (fun _ _ _ _ _ => ?_)
    · subst hn
      rw [← (hcl k h1.1).2, cold_prior h2, hd]
    · show _ = (inserted y.sh k v).cur k
      rw [inserted_cur h2 hd, cold_cur h2, hd]
    · exact ⟨fresh v, by simp [inserted, upd_same], rfl, by simp [fresh]⟩
  | lock k m f n =>
    rw [hp] at hg ho
    refine hy.same' (Setup.thread_of hcl ho ?_)
    exact H.change_ok hy hcl hg
  | mark k e n =>
    rw [hp] at hg ho
    exact hy.same _ (Setup.thread_of hcl ho ⟨cl, fun _ h => h, hg, rfl⟩)
  | put k e n =>
    rw [hp] at hg ho
    exact hy.put H hcl hg ho

theorem own_start (i : I) : S.own i S.s0 = S.s0.cur := by
  funext k; unfold Setup.own; split <;> rfl

theorem Setup.Fit.start (H : S.Fit) : S.Inv (Sys.spawn S.s0 S.t) := by
  refine ⟨H.ok, rfl, fun _ _ => rfl, fun _ h => h, fun _ _ => rfl, ?_, fun i => ?_⟩
  · intro i j k _ _ _; exact simO_refl (H.refl k) _
  · refine ⟨(S.F i).clean, fun k hk => ⟨hk, rfl⟩, H.within i, ?_⟩
    show alone S.s0.prior (S.t i) (S.own i S.s0) = _
    rw [own_start]

theorem Setup.Fit.run (H : S.Fit) (sched : List I) : S.Inv ((Sys.spawn S.s0 S.t).run sched) := by
  suffices h : ∀ (l : List I) (y : Sys I K V R), S.Inv y → S.Inv (y.run l) from h sched _ H.start
  intro l
  induction l with
  | nil => intro y hy; exact hy
  | cons i l ih => intro y hy; exact ih _ (hy.step H i)

end

end Fastroll.Conc
