import Verif.Safrole.Spec

/-! # Lemmas: Safrole -/
namespace Fastroll.Safrole

/-! ## The accumulator -/

theorem add_lowest (H : Heap) {E : Nat} {offered kept : List Ticket} (t : Ticket) (h : Lowest E offered kept) :
    Lowest E (t :: offered) (add H E kept t) := by
  obtain ⟨dropped, hp, hl, ho⟩ := h
  have hlen := hp.length_eq
  rw [List.length_append] at hlen
  unfold add
  split
  · next c =>
    have hd : dropped = [] := List.length_eq_zero_iff.1 (by omega)
    subst hd
    refine ⟨[], ?_, ?_, fun _ _ _ h => by cases h⟩
    · simpa using hp
    · simp only [List.length_cons]; omega
  · next c =>
    cases hk : H.peek kept with
    | none =>
      have hk0 : kept = [] := by
        rcases List.eq_nil_or_concat kept with e | ⟨l, x, e⟩
        · exact e
        · obtain ⟨t, ht⟩ := H.peek_some kept (by rw [e]; simp)
          rw [ht] at hk; cases hk
      subst hk0
      refine ⟨t :: dropped, ?_, ?_, fun _ h => by cases h⟩
      · simpa using hp
      · simp only [List.length_nil] at *; omega
    | some mx =>
      have hmem := H.peek_mem _ _ hk
      have hmax := H.peek_max _ _ hk
      have hpos : 0 < kept.length := List.length_pos_of_mem hmem
      simp only
      by_cases ct : t.id < mx.id
      · rw [if_pos ct]
        refine ⟨mx :: dropped, ?_, ?_, ?_⟩
        · have p1 : (t :: kept.erase mx ++ mx :: dropped).Perm (t :: (mx :: kept.erase mx ++ dropped)) := by
            refine List.Perm.cons t ?_
            exact List.perm_middle
          refine p1.trans (List.Perm.cons t ?_)
          exact ((List.perm_cons_erase hmem).symm.append_right dropped).trans hp
        · rw [List.length_cons, List.length_erase_of_mem hmem, List.length_cons]; omega
        · intro x hx y hy
          rcases List.mem_cons.1 hx with ex | hx1
          · subst ex
            rcases List.mem_cons.1 hy with ey | hy
            · subst ey; omega
            · have := ho mx hmem y hy; omega
          · have hx2 := List.mem_of_mem_erase hx1
            rcases List.mem_cons.1 hy with ey | hy
            · rw [ey]; exact hmax x hx2
            · exact ho x hx2 y hy
      · rw [if_neg ct]
        refine ⟨t :: dropped, ?_, ?_, ?_⟩
        · exact List.perm_middle.trans (List.Perm.cons t hp)
        · rw [List.length_cons]; omega
        · intro x hx y hy
          rcases List.mem_cons.1 hy with ey | hy
          · subst ey; have := hmax x hx; omega
          · exact ho x hx y hy

theorem Lowest.perm {E : Nat} {o o' k : List Ticket} (h : Lowest E o k) (hp : o.Perm o') : Lowest E o' k := by
  obtain ⟨d, h1, h2, h3⟩ := h
  exact ⟨d, h1.trans hp, by rw [h2, hp.length_eq], h3⟩

theorem addMany_lowest (H : Heap) {E : Nat} : ∀ (ts offered kept : List Ticket), Lowest E offered kept →
    Lowest E (offered ++ ts) (addMany H E kept ts) := by
  intro ts
  induction ts with
  | nil => intro o k h; rw [List.append_nil]; exact h
  | cons t ts ih =>
    intro o k h
    have := ih (t :: o) (add H E k t) (add_lowest H t h)
    refine this.perm ?_
    exact List.perm_middle.symm

theorem lowest_self {E : Nat} {l : List Ticket} (h : l.length ≤ E) : Lowest E l l :=
  ⟨[], by simp, by omega, fun _ _ _ h => by cases h⟩

/-- Two choices of the lowest agree when identifiers are distinct. -/
theorem lowest_unique {E : Nat} {o k k' : List Ticket} (hd : Distinct o) (h : Lowest E o k) (h' : Lowest E o k') : k.Perm k' := by
  obtain ⟨d, p, l, c⟩ := h
  obtain ⟨d', p', l', c'⟩ := h'
  have hn : o.Nodup := hd.imp fun h e => h (congrArg Ticket.id e)
  have nk : k.Nodup := (p.nodup_iff.2 hn).sublist (List.sublist_append_left ..)
  have nk' : k'.Nodup := (p'.nodup_iff.2 hn).sublist (List.sublist_append_left ..)
  have sub : ∀ (k d k' d' : List Ticket), (k ++ d).Perm o → (k' ++ d').Perm o → k.length = k'.length → k.Nodup → k'.Nodup →
      (∀ x ∈ k, ∀ y ∈ d, x.id ≤ y.id) → (∀ x ∈ k', ∀ y ∈ d', x.id ≤ y.id) → ∀ x ∈ k, x ∈ k' := by
    intro k d k' d' p p' hl nk nk' c c' x hx
    refine Decidable.byContradiction fun hx' => ?_
    -- some element of k' is not in k
    have : ∃ y ∈ k', y ∉ k := by
      refine Classical.byContradiction fun hno => ?_
      have hsub : k' ⊆ k := fun y hy => Classical.byContradiction fun hy' => hno ⟨y, hy, hy'⟩
      have hle : (x :: k').length ≤ k.length := by
        refine (List.nodup_cons.2 ⟨hx', nk'⟩).length_le_of_subset ?_
        intro z hz
        rcases List.mem_cons.1 hz with e | e
        · rw [e]; exact hx
        · exact hsub e
      simp only [List.length_cons] at hle; omega
    obtain ⟨y, hy, hy'⟩ := this
    have hxo : x ∈ o := p.subset (List.mem_append_left _ hx)
    have hyo : y ∈ o := p'.subset (List.mem_append_left _ hy)
    have hxd : x ∈ d' := by
      rcases List.mem_append.1 (p'.symm.subset hxo) with e | e
      · exact absurd e hx'
      · exact e
    have hyd : y ∈ d := by
      rcases List.mem_append.1 (p.symm.subset hyo) with e | e
      · exact absurd e hy'
      · exact e
    have e1 := c x hx y hyd
    have e2 := c' y hy x hxd
    have hne : x ≠ y := fun e => hx' (e ▸ hy)
    obtain ⟨i, hi, ei⟩ := List.mem_iff_getElem.1 hxo
    obtain ⟨j, hj, ej⟩ := List.mem_iff_getElem.1 hyo
    have hP := List.pairwise_iff_getElem.1 hd
    rcases Nat.lt_trichotomy i j with c | c | c
    · have := hP i j hi hj c; rw [ei, ej] at this; omega
    · subst c; exact hne (ei.symm.trans ej)
    · have := hP j i hj hi c; rw [ei, ej] at this; omega
  rw [List.perm_ext_iff_of_nodup nk nk']
  intro x
  exact ⟨sub k d k' d' p p' (by rw [l, l']) nk nk' c c' x, sub k' d' k d p' p (by rw [l, l']) nk' nk c' c x⟩

/-- Sorted lists with the same distinct elements are equal. -/
theorem sorted_unique {l l' : List Ticket} (hd : Distinct l) (hp : l.Perm l') (h : l.Pairwise fun a b => a.id ≤ b.id)
    (h' : l'.Pairwise fun a b => a.id ≤ b.id) : l = l' := by
  have hd' : Distinct l' := by
    refine (hp.pairwise_iff ?_).1 hd
    intro a b h; exact Ne.symm h
  have s : l.Pairwise fun a b => a.id < b.id := (h.and hd).imp fun h => by omega
  have s' : l'.Pairwise fun a b => a.id < b.id := (h'.and hd').imp fun h => by omega
  exact hp.eq_of_pairwise (le := fun a b => a.id < b.id) (fun a b _ _ h1 h2 => by omega) s s'

/-! ## Useless tickets -/

theorem last_max : ∀ {l : List Ticket} {x : Ticket}, inOrder l = true → l.getLast? = some x → ∀ y ∈ l, y.id ≤ x.id := by
  intro l
  induction l with
  | nil => intro x _ h; cases h
  | cons a l ih =>
    intro x ho hl y hy
    cases l with
    | nil =>
      simp only [List.getLast?_singleton, Option.some.injEq] at hl
      subst hl
      rcases List.mem_cons.1 hy with e | e
      · rw [e]; exact Nat.le_refl _
      · cases e
    | cons b l =>
      simp only [inOrder, Bool.and_eq_true, decide_eq_true_eq] at ho
      rw [List.getLast?_cons_cons] at hl
      rcases List.mem_cons.1 hy with e | e
      · subst e
        exact Nat.le_trans ho.1 (ih ho.2 hl b (List.mem_cons_self ..))
      · exact ih ho.2 hl y e

theorem countP_zero {l : List Ticket} {p : Ticket → Bool} (h : ∀ x ∈ l, p x = false) : l.countP p = 0 := by
  rw [List.countP_eq_zero]; intro x hx; rw [h x hx]; simp

theorem countP_all {l : List Ticket} {p : Ticket → Bool} (h : ∀ x ∈ l, p x = true) : l.countP p = l.length :=
  List.countP_eq_length.2 h

/-- In a sorted list, the elements from position `i` on are not below the one there. -/
theorem sorted_from {s : List Ticket} (h : s.Pairwise fun a b => a.id ≤ b.id) {i : Nat} {th : Ticket} (hi : s[i]? = some th) :
    (∀ x ∈ s.drop i, th.id ≤ x.id) ∧ (∀ x ∈ s.take (i + 1), x.id ≤ th.id) := by
  obtain ⟨hlt, e⟩ := List.getElem?_eq_some_iff.1 hi
  have hP := List.pairwise_iff_getElem.1 h
  constructor
  · intro x hx
    obtain ⟨j, hj, ej⟩ := List.mem_iff_getElem.1 hx
    rw [List.getElem_drop] at ej
    rw [List.length_drop] at hj
    by_cases c : j = 0
    · subst c; simp only [Nat.add_zero] at ej; rw [← ej, e]; exact Nat.le_refl _
    · have := hP i (i + j) hlt (by omega) (by omega)
      rw [e, ej] at this; exact this
  · intro x hx
    obtain ⟨j, hj, ej⟩ := List.mem_iff_getElem.1 hx
    rw [List.getElem_take] at ej
    rw [List.length_take] at hj
    by_cases c : j = i
    · subst c; rw [← ej, e]; exact Nat.le_refl _
    · have := hP j i (by omega) hlt (by omega)
      rw [e, ej] at this; exact this

/-- A new ticket is dropped only if the check says useless. -/
theorem useful_kept (H : Heap) {E : Nat} {acc new kept : List Ticket} (hn : new.length ≤ E) (ho : inOrder new = true)
    (hu : useless H E acc new = false) (hk : Lowest E (acc ++ new) kept) : ∀ x ∈ new, x ∈ kept := by
  obtain ⟨d, hp, hl, hle⟩ := hk
  have hlen := hp.length_eq
  rw [List.length_append, List.length_append] at hlen
  rw [List.length_append] at hl
  intro x hx
  rcases List.mem_append.1 (hp.symm.subset (List.mem_append_right acc hx)) with c | c
  · exact c
  · exfalso
    have hdpos : 0 < d.length := List.length_pos_of_mem c
    have hsl : (H.sorted acc).length = acc.length := (H.sorted_perm acc).length_eq
    unfold useless at hu
    have c1 : acc.length + new.length > E := by omega
    rw [if_pos c1] at hu
    simp only [hsl] at hu
    have c2 : acc.length + new.length - E ≤ acc.length := by omega
    rw [if_pos c2] at hu
    have hidx : acc.length - (acc.length + new.length - E) < (H.sorted acc).length := by omega
    have hlast : ∃ l, new.getLast? = some l := by
      cases hq : new.getLast? with
      | none => rw [List.getLast?_eq_none_iff] at hq; subst hq; cases hx
      | some l => exact ⟨l, rfl⟩
    obtain ⟨l, hlast⟩ := hlast
    rw [List.getElem?_eq_getElem hidx, hlast] at hu
    simp only [decide_eq_false_iff_not, Nat.not_le] at hu
    have hxl := last_max ho hlast x hx
    have S := sorted_from (H.sorted_le acc) (List.getElem?_eq_getElem hidx)
    -- count the tickets above `l`
    have ck : kept.countP (fun t => decide (l.id < t.id)) = 0 := countP_zero fun y hy => by
      have := hle y hy x c
      exact decide_eq_false (by omega)
    have ca : acc.length + new.length - E ≤ acc.countP (fun t => decide (l.id < t.id)) := by
      rw [← (H.sorted_perm acc).countP_eq]
      have h1 : ((H.sorted acc).drop (acc.length - (acc.length + new.length - E))).countP (fun t => decide (l.id < t.id)) =
          ((H.sorted acc).drop (acc.length - (acc.length + new.length - E))).length := countP_all fun y hy => by
        have := S.1 y hy
        exact decide_eq_true (by omega)
      have h2 := List.Sublist.countP_le (p := fun t => decide (l.id < t.id)) (List.drop_sublist (acc.length - (acc.length + new.length - E)) (H.sorted acc))
      rw [h1, List.length_drop, hsl] at h2
      omega
    have ct := hp.countP_eq (fun t => decide (l.id < t.id))
    rw [List.countP_append, List.countP_append, ck] at ct
    have hdall : d.countP (fun t => decide (l.id < t.id)) = d.length := by
      have := List.countP_le_length (p := fun t => decide (l.id < t.id)) (l := d)
      omega
    have := List.countP_eq_length.1 hdall x c
    simp only [decide_eq_true_eq] at this
    omega

/-- If the check says useless, the last new ticket is not kept. -/
theorem useless_dropped (H : Heap) {E : Nat} {acc new kept : List Ticket} (hd : Distinct (acc ++ new)) (ho : inOrder new = true)
    (hu : useless H E acc new = true) (hk : Lowest E (acc ++ new) kept) : ∃ x ∈ new, x ∉ kept := by
  obtain ⟨d, hp, hl, hle⟩ := hk
  have hlen := hp.length_eq
  rw [List.length_append, List.length_append] at hlen
  rw [List.length_append] at hl
  have hsl : (H.sorted acc).length = acc.length := (H.sorted_perm acc).length_eq
  unfold useless at hu
  by_cases c1 : acc.length + new.length > E
  · rw [if_pos c1] at hu
    simp only [hsl] at hu
    by_cases c2 : acc.length + new.length - E ≤ acc.length
    · rw [if_pos c2] at hu
      cases hlast : new.getLast? with
      | none => rw [hlast] at hu; split at hu <;> simp_all
      | some l =>
        cases hth : (H.sorted acc)[acc.length - (acc.length + new.length - E)]? with
        | none => rw [hth] at hu; cases hu
        | some th =>
          rw [hth, hlast] at hu
          simp only [decide_eq_true_eq] at hu
          have hlmem : l ∈ new := by
            rw [List.getLast?_eq_some_iff] at hlast
            obtain ⟨ys, e⟩ := hlast; rw [e]; simp
          refine ⟨l, hlmem, fun hlk => ?_⟩
          have S := sorted_from (H.sorted_le acc) hth
          obtain ⟨hlt, _⟩ := List.getElem?_eq_some_iff.1 hth
          -- everything up to `l` is kept
          have cd : d.countP (fun t => decide (t.id ≤ l.id)) = 0 := countP_zero fun y hy => by
            have h1 := hle l hlk y hy
            refine decide_eq_false ?_
            intro h2
            -- `y` and `l` share an identifier
            have hne : y.id ≠ l.id := by
              have hpd : (kept ++ d).Pairwise fun a b => a.id ≠ b.id := (hp.symm.pairwise_iff (fun h => Ne.symm h)).1 hd
              exact Ne.symm ((List.pairwise_append.1 hpd).2.2 l hlk y hy)
            omega
          have ca : acc.length - (acc.length + new.length - E) + 1 ≤ acc.countP (fun t => decide (t.id ≤ l.id)) := by
            rw [← (H.sorted_perm acc).countP_eq]
            have h1 : ((H.sorted acc).take (acc.length - (acc.length + new.length - E) + 1)).countP (fun t => decide (t.id ≤ l.id)) =
                ((H.sorted acc).take (acc.length - (acc.length + new.length - E) + 1)).length := countP_all fun y hy => by
              have := S.2 y hy
              exact decide_eq_true (by omega)
            have h2 := List.Sublist.countP_le (p := fun t => decide (t.id ≤ l.id)) (List.take_sublist (acc.length - (acc.length + new.length - E) + 1) (H.sorted acc))
            rw [h1, List.length_take, hsl] at h2
            omega
          have cn : new.countP (fun t => decide (t.id ≤ l.id)) = new.length := countP_all fun y hy => decide_eq_true (last_max ho hlast y hy)
          have ct := hp.countP_eq (fun t => decide (t.id ≤ l.id))
          rw [List.countP_append, List.countP_append, cd, cn] at ct
          have := List.countP_le_length (p := fun t => decide (t.id ≤ l.id)) (l := kept)
          omega
    · rw [if_neg c2] at hu; cases hu
  · rw [if_neg c1] at hu; cases hu

/-! ## Outside in -/

theorem outsideLoop_spec (v : List Ticket) : ∀ (fuel i : Nat), 2 * i ≤ v.length → v.length - 2 * i ≤ 2 * fuel →
    (outsideLoop v fuel i (v.length - 1 - i)).length = v.length - 2 * i ∧
    (outsideLoop v fuel i (v.length - 1 - i)).Perm ((v.drop i).take (v.length - 2 * i)) ∧
    ∀ j : Nat, (2 * j < v.length - 2 * i → (outsideLoop v fuel i (v.length - 1 - i))[2 * j]? = v[i + j]?) ∧
      (2 * j + 1 < v.length - 2 * i → (outsideLoop v fuel i (v.length - 1 - i))[2 * j + 1]? = v[v.length - 1 - i - j]?) := by
  intro fuel
  induction fuel with
  | zero =>
    intro i h1 h2
    have : v.length - 2 * i = 0 := by omega
    rw [this]
    refine ⟨rfl, by simp [outsideLoop], fun j => ⟨fun h => absurd h (by omega), fun h => absurd h (by omega)⟩⟩
  | succ fuel ih =>
    intro i h1 h2
    by_cases c0 : v.length - 2 * i = 0
    · rw [c0]
      have c : ¬ (i ≤ v.length - 1 - i) ∨ v.length = 0 := by omega
      have : outsideLoop v (fuel + 1) i (v.length - 1 - i) = [] := by
        rcases c with c | c
        · unfold outsideLoop; rw [if_neg c]
        · have hv : v = [] := List.length_eq_zero_iff.1 c
          subst hv
          have : ∀ fuel l r, outsideLoop [] fuel l r = [] := by
            intro fuel
            induction fuel with
            | zero => intros; rfl
            | succ f ih => intro l r; unfold outsideLoop; split <;> simp [ih]
          exact this _ _ _
      rw [this]
      exact ⟨rfl, by simp, fun j => ⟨fun h => absurd h (by omega), fun h => absurd h (by omega)⟩⟩
    · by_cases c1 : v.length - 2 * i = 1
      · -- the middle element
        have hi : i < v.length := by omega
        have e : v.length - 1 - i = i := by omega
        rw [c1, e]
        have hz : outsideLoop v fuel (i + 1) (i - 1) = [] := by
          cases fuel with
          | zero => rfl
          | succ f => unfold outsideLoop; rw [if_neg (by omega)]
        have : outsideLoop v (fuel + 1) i i = [v[i]] := by
          unfold outsideLoop
          rw [if_pos (Nat.le_refl _), if_neg (by simp), hz, List.getElem?_eq_getElem hi]; rfl
        rw [this]
        refine ⟨rfl, ?_, fun j => ⟨fun h => ?_, fun h => absurd h (by omega)⟩⟩
        · rw [List.drop_eq_getElem_cons hi, List.take_succ_cons, List.take_zero]
        · have : j = 0 := by omega
          subst this
          simp [List.getElem?_eq_getElem hi]
      · have hi : i < v.length := by omega
        have hr : v.length - 1 - i < v.length := by omega
        have e1 : v.length - 1 - i - 1 = v.length - 1 - (i + 1) := by omega
        obtain ⟨i1, i2, i3⟩ := ih (i + 1) (by omega) (by omega)
        have he : outsideLoop v (fuel + 1) i (v.length - 1 - i) = v[i] :: v[v.length - 1 - i] :: outsideLoop v fuel (i + 1) (v.length - 1 - (i + 1)) := by
          conv => lhs; unfold outsideLoop
          rw [if_pos (by omega), if_pos (by omega), List.getElem?_eq_getElem hi, List.getElem?_eq_getElem hr, e1]; rfl
        rw [he]
        refine ⟨by simp only [List.length_cons, i1]; omega, ?_, ?_⟩
        · -- permutation
          have hk : v.length - 2 * i = (v.length - 2 * (i + 1)) + 1 + 1 := by omega
          have hs : (v.drop i).take (v.length - 2 * i) = v[i] :: (((v.drop (i + 1)).take (v.length - 2 * (i + 1))) ++ [v[v.length - 1 - i]]) := by
            rw [List.drop_eq_getElem_cons hi, hk, List.take_succ_cons]
            congr 1
            rw [List.take_succ]
            congr 1
            rw [List.getElem?_drop]
            have : i + 1 + (v.length - 2 * (i + 1)) = v.length - 1 - i := by omega
            rw [this, List.getElem?_eq_getElem hr]; rfl
          rw [hs]
          refine List.Perm.cons _ ?_
          exact (List.Perm.cons _ i2).trans (List.perm_append_singleton _ _).symm
        · intro j
          cases j with
          | zero =>
            refine ⟨fun _ => ?_, fun _ => ?_⟩
            · simp [List.getElem?_eq_getElem hi]
            · simp [List.getElem?_eq_getElem hr]
          | succ j =>
            obtain ⟨k1, k2⟩ := i3 j
            refine ⟨fun h => ?_, fun h => ?_⟩
            · have := k1 (by omega)
              rw [show 2 * (j + 1) = 2 * j + 1 + 1 from by omega, List.getElem?_cons_succ, List.getElem?_cons_succ, this]
              congr 1; omega
            · have := k2 (by omega)
              rw [show 2 * (j + 1) + 1 = (2 * j + 1) + 1 + 1 from by omega, List.getElem?_cons_succ, List.getElem?_cons_succ, this]
              congr 1; omega

theorem outsideIn_spec {v : List Ticket} (h : v ≠ []) : ∃ r, outsideIn v = some r ∧ OutsideIn v r ∧ r.Perm v := by
  have hl : v.length ≠ 0 := fun c => h (List.length_eq_zero_iff.1 c)
  obtain ⟨h1, h2, h3⟩ := outsideLoop_spec v v.length 0 (by omega) (by omega)
  simp only [Nat.sub_zero, Nat.mul_zero, Nat.zero_add] at h1 h2 h3
  refine ⟨_, by unfold outsideIn; rw [if_neg hl], ⟨h1, h3⟩, ?_⟩
  simpa using h2

/-! ## Validation -/

theorem newTickets_length : ∀ {xt : List Entry} {ts : List Ticket}, newTickets xt = .ok ts → ts.length = xt.length := by
  intro xt
  induction xt with
  | nil => intro ts h; cases h; rfl
  | cons e es ih =>
    intro ts h
    unfold newTickets at h
    cases ho : e.output with
    | none => rw [ho] at h; cases h
    | some id =>
      rw [ho] at h
      simp only at h
      cases hn : newTickets es with
      | error x => rw [hn] at h; cases h
      | ok l => rw [hn] at h; cases h; simp [ih hn]

theorem noDup_distinct : ∀ {l : List Ticket} {seen : List Nat}, noDupIds l seen = true → Distinct l ∧ ∀ t ∈ l, t.id ∉ seen := by
  intro l
  induction l with
  | nil => intro _ _; exact ⟨List.Pairwise.nil, fun _ h => by cases h⟩
  | cons t l ih =>
    intro seen h
    simp only [noDupIds, Bool.and_eq_true, Bool.not_eq_true', List.contains_eq_mem, decide_eq_false_iff_not] at h
    obtain ⟨h1, h2⟩ := ih h.2
    refine ⟨List.Pairwise.cons (fun b hb e => h2 b hb (by rw [e]; simp)) h1, ?_⟩
    intro u hu
    rcases List.mem_cons.1 hu with c | c
    · rw [c]; exact h.1
    · exact fun e => h2 u c (List.mem_cons_of_mem _ e)

theorem newTickets_iff : ∀ (xt : List Entry) (ts : List Ticket), newTickets xt = .ok ts ↔ (∀ e ∈ xt, e.output.isSome = true) ∧ ts = ticketsOf xt := by
  intro xt
  induction xt with
  | nil =>
    intro ts
    show Except.ok [] = Except.ok ts ↔ _
    constructor
    · intro h; cases h; exact ⟨(fun _ h => by cases h), rfl⟩
    · rintro ⟨_, h⟩; rw [h]; rfl
  | cons e es ih =>
    intro ts
    unfold newTickets
    cases ho : e.output with
    | none =>
      constructor
      · intro h; cases h
      · rintro ⟨h, _⟩
        have := h e (List.mem_cons_self ..)
        rw [ho] at this; cases this
    | some id =>
      simp only
      cases hn : newTickets es with
      | error x =>
        constructor
        · intro h; cases h
        · rintro ⟨h, _⟩
          have := (ih (ticketsOf es)).2 ⟨fun x hx => h x (List.mem_cons_of_mem _ hx), rfl⟩
          rw [hn] at this; cases this
      | ok l =>
        obtain ⟨i1, i2⟩ := (ih l).1 hn
        have hc : ticketsOf (e :: es) = { id, attempt := e.attempt } :: ticketsOf es := by
          unfold ticketsOf; rw [List.filterMap_cons, ho]; rfl
        rw [hc, ← i2]
        constructor
        · intro h
          cases h
          refine ⟨fun x hx => ?_, rfl⟩
          rcases List.mem_cons.1 hx with e | e
          · rw [e, ho]; rfl
          · exact i1 x e
        · rintro ⟨_, h⟩; rw [h]

theorem checkEntries_iff (P : Par) (hp : 0 < P.perVal) : ∀ (xt : List Entry), checkEntries P xt = .ok () ↔ ∀ e ∈ xt, e.attempt < P.perVal ∧ e.verifies = true := by
  intro xt
  induction xt with
  | nil => simp [checkEntries]
  | cons e es ih =>
    unfold checkEntries
    by_cases c1 : e.attempt > P.perVal - 1
    · rw [if_pos c1]
      constructor
      · intro h; cases h
      · intro h; have := (h e (List.mem_cons_self ..)).1; omega
    · rw [if_neg c1]
      by_cases c2 : e.verifies
      · rw [if_neg (by simp [c2]), ih]
        constructor
        · intro h x hx
          rcases List.mem_cons.1 hx with e | e
          · rw [e]; exact ⟨by omega, c2⟩
          · exact h x e
        · intro h x hx; exact h x (List.mem_cons_of_mem _ hx)
      · rw [if_pos (by simp [c2])]
        constructor
        · intro h; cases h
        · intro h; exact absurd (h e (List.mem_cons_self ..)).2 c2

theorem noDup_iff : ∀ (l : List Ticket) (seen : List Nat), noDupIds l seen = true ↔ Distinct l ∧ ∀ t ∈ l, t.id ∉ seen := by
  intro l
  induction l with
  | nil => intro _; simp [noDupIds, Distinct]
  | cons t l ih =>
    intro seen
    refine ⟨fun h => noDup_distinct h, ?_⟩
    rintro ⟨h1, h2⟩
    obtain ⟨h3, h4⟩ := List.pairwise_cons.1 h1
    simp only [noDupIds, Bool.and_eq_true, Bool.not_eq_true', List.contains_eq_mem, decide_eq_false_iff_not]
    refine ⟨h2 t (List.mem_cons_self ..), (ih _).2 ⟨h4, fun u hu c => ?_⟩⟩
    rcases List.mem_cons.1 c with e | e
    · exact h3 u hu e.symm
    · exact h2 u (List.mem_cons_of_mem _ hu) e

theorem ascending_iff : ∀ (l : List Ticket), (inOrder l = true ∧ noDupIds l [] = true) ↔ l.Pairwise fun a b => a.id < b.id := by
  intro l
  constructor
  · rintro ⟨h1, h2⟩
    have hs : l.Pairwise fun a b => a.id ≤ b.id := by
      clear h2
      induction l with
      | nil => exact List.Pairwise.nil
      | cons a l ih =>
        cases l with
        | nil => exact List.pairwise_singleton ..
        | cons b l =>
          simp only [inOrder, Bool.and_eq_true, decide_eq_true_eq] at h1
          have i := ih h1.2
          refine List.Pairwise.cons (fun x hx => ?_) i
          rcases List.mem_cons.1 hx with e | e
          · rw [e]; exact h1.1
          · have := (List.pairwise_cons.1 i).1 x e; omega
    exact (hs.and (noDup_distinct h2).1).imp fun h => by omega
  · intro h
    refine ⟨?_, (noDup_iff l []).2 ⟨h.imp (fun h => by omega), (fun _ _ h => by cases h)⟩⟩
    induction l with
    | nil => rfl
    | cons a l ih =>
      cases l with
      | nil => rfl
      | cons b l =>
        obtain ⟨h1, h2⟩ := List.pairwise_cons.1 h
        simp only [inOrder, Bool.and_eq_true, decide_eq_true_eq]
        exact ⟨Nat.le_of_lt (h1 b (List.mem_cons_self ..)), ih h2⟩

theorem any_contains (acc l : List Ticket) : l.any (contains acc) = true ↔ ∃ t ∈ l, t ∈ acc := by
  rw [List.any_eq_true]
  constructor
  · rintro ⟨t, ht, hc⟩
    unfold contains at hc
    obtain ⟨u, hu, e⟩ := List.any_eq_true.1 hc
    rw [← eq_of_beq e] at ht
    exact ⟨u, ht, hu⟩
  · rintro ⟨t, ht, hm⟩
    exact ⟨t, ht, List.any_eq_true.2 ⟨t, hm, by simp⟩⟩

/-- What an accepted extrinsic satisfies. -/
theorem validate_ok {H : Heap} {P : Par} {phase : Nat} {acc new : List Ticket} {xt : List Entry} (h : validate H P phase acc xt = .ok new) :
    (new = [] ∧ xt = []) ∨ (phase < P.contest ∧ xt.length ≤ P.perXt ∧ newTickets xt = .ok new ∧ inOrder new = true ∧ Distinct new ∧
      (∀ t ∈ new, t ∉ acc) ∧ useless H P.epoch acc new = false ∧ checkEntries P xt = .ok ()) := by
  unfold validate at h
  by_cases c0 : xt.isEmpty
  · rw [if_pos c0] at h; cases h; exact .inl ⟨rfl, List.isEmpty_iff.1 c0⟩
  · rw [if_neg c0] at h
    by_cases c1 : phase ≥ P.contest
    · rw [if_pos c1] at h; cases h
    · rw [if_neg c1] at h
      by_cases c2 : xt.length > P.perXt
      · rw [if_pos c2] at h; cases h
      · rw [if_neg c2] at h
        cases hn : newTickets xt with
        | error x => rw [hn] at h; cases h
        | ok l =>
          rw [hn] at h
          simp only at h
          by_cases c3 : !inOrder l
          · rw [if_pos c3] at h; cases h
          · rw [if_neg c3] at h
            by_cases c4 : !noDupIds l []
            · rw [if_pos c4] at h; cases h
            · rw [if_neg c4] at h
              by_cases c5 : l.any (contains acc)
              · rw [if_pos c5] at h; cases h
              · rw [if_neg c5] at h
                by_cases c6 : useless H P.epoch acc l
                · rw [if_pos c6] at h; cases h
                · rw [if_neg c6] at h
                  cases he : checkEntries P xt with
                  | error x => rw [he] at h; cases h
                  | ok _ =>
                    rw [he] at h
                    cases h
                    right
                    refine ⟨by omega, by omega, rfl, by simpa using c3, (noDup_distinct (by simpa using c4)).1, ?_, by simpa using c6, rfl⟩
                    intro t ht hm
                    refine c5 (List.any_eq_true.2 ⟨t, ht, ?_⟩)
                    unfold contains
                    exact List.any_eq_true.2 ⟨t, hm, by simp⟩

end Fastroll.Safrole
