import Verif.Svc.LemmasRound
import Verif.Svc.LemmasEnum

/-! # Lemmas: tokens over a round -/
namespace Fastroll.Svc
open Fastroll.Pvm

section
variable {κ α : Type} [DecidableEq κ] {f : κ → Option α}

theorem total_filter (w : κ → α → Nat) (L : List κ) : total w f (L.filter fun k => (f k).isSome) = total w f L := by
  induction L with
  | nil => rfl
  | cons k L ih =>
    by_cases c : (f k).isSome
    · rw [List.filter_cons_of_pos (by simpa using c)]
      simp only [total, List.map_cons, List.sum_cons] at ih ⊢; rw [ih]
    · rw [List.filter_cons_of_neg (by simpa using c)]
      have : f k = none := by simpa using c
      simp only [total, List.map_cons, List.sum_cons, this, wt, Nat.zero_add] at ih ⊢; exact ih

theorem total_superset (w : κ → α → Nat) {l L : List κ} (H : Enum f l) (hL : L.Nodup) (hs : ∀ k, (f k).isSome → k ∈ L) :
    total w f L = total w f l := by
  rw [← total_filter]
  have hp : (L.filter fun k => (f k).isSome).Perm l := by
    rw [List.perm_ext_iff_of_nodup (hL.filter _) H.1]
    intro k
    rw [List.mem_filter, H.2 k]
    exact ⟨fun h => h.2, fun h => ⟨hs k h, h⟩⟩
  exact (hp.map _).sum_nat

theorem enum_filter {L : List κ} (hL : L.Nodup) (hs : ∀ k, (f k).isSome → k ∈ L) : Enum f (L.filter fun k => (f k).isSome) :=
  ⟨hL.filter _, fun k => by rw [List.mem_filter]; exact ⟨fun h => h.2, fun h => ⟨hs k h, h⟩⟩⟩
end

theorem sum_map_add {α : Type} (f h : α → Nat) (L : List α) : (L.map fun x => f x + h x).sum = (L.map f).sum + (L.map h).sum := by
  induction L with
  | nil => rfl
  | cons a L ih => simp only [List.map_cons, List.sum_cons, ih]; omega

theorem sum_map_const {α : Type} (n : Nat) (L : List α) : (L.map fun _ => n).sum = L.length * n := by
  induction L with
  | nil => simp
  | cons a L ih => simp only [List.map_cons, List.sum_cons, ih, List.length_cons, Nat.succ_mul]; omega

theorem sum_swap {α β : Type} (f : α → β → Nat) (L : List α) (M : List β) :
    (L.map fun a => (M.map fun b => f a b).sum).sum = (M.map fun b => (L.map fun a => f a b).sum).sum := by
  induction L with
  | nil => simp only [List.map_nil, List.sum_nil]; rw [sum_map_const]; simp
  | cons a L ih => simp only [List.map_cons, List.sum_cons, ih, sum_map_add]

theorem sum_congr {α : Type} {f h : α → Nat} {L : List α} (e : ∀ x ∈ L, f x = h x) : (L.map f).sum = (L.map h).sum := by
  rw [List.map_congr_left e]

/-- If one element may differ from `b` and the others are `b`. -/
theorem sum_one {α : Type} {f : α → Nat} {b : Nat} {R : α → α → Prop} : ∀ {L : List α} {x : α}, x ∈ L → L.Pairwise R →
    (∀ y ∈ L, R x y ∨ R y x → f y = b) → (∀ y, ¬ R y y) → (L.map f).sum + b = f x + L.length * b := by
  intro L
  induction L with
  | nil => intro x hx; cases hx
  | cons a L ih =>
    intro x hx hp he hi
    have hp := List.pairwise_cons.1 hp
    simp only [List.map_cons, List.sum_cons, List.length_cons, Nat.succ_mul]
    rcases List.mem_cons.1 hx with c | c
    · subst c
      rw [sum_congr (h := fun _ => b) (fun y hy => he y (List.mem_cons_of_mem _ hy) (.inl (hp.1 y hy))), sum_map_const]; omega
    · have h1 := ih c hp.2 (fun y hy => he y (List.mem_cons_of_mem _ hy)) hi
      have h2 := he a (List.mem_cons_self ..) (.inr (hp.1 x c))
      omega

def bal (_ : Nat) (m : Meta) : Nat := m.balance

variable {g : Global} {D : Nat → Prop} {env : Env} {metered : Nat → Bool} {u : PState Boxes} {rs : List AccResult} {m : Merged}

theorem mergeResults_transfers {b : Base} (hu : ∀ r ∈ rs, metered r.host = false → r.transfers = []) :
    ∀ (m m' : Merged), mergeResults g env b metered rs m = some m' → inFlight m'.transfers = inFlight m.transfers + (rs.map fun r => inFlight r.transfers).sum := by
  induction rs with
  | nil => intro m m' h; cases h; simp
  | cons r rs ih =>
    intro m m' h
    unfold mergeResults at h
    cases h1 : mergeResult g env b metered m r with
    | none => rw [h1] at h; cases h
    | some m1 =>
      rw [h1] at h
      have i := ih (fun r' hr' => hu r' (List.mem_cons_of_mem _ hr')) m1 m' h
      have : inFlight m1.transfers = inFlight m.transfers + inFlight r.transfers := by
        unfold mergeResult at h1
        cases h2 : mergeOne g b m.st r with
        | none => rw [h2] at h1; cases h1
        | some st =>
          rw [h2] at h1
          simp only at h1
          cases hm : metered r.host with
          | true =>
            rw [hm] at h1
            simp only [if_true] at h1
            cases h3 : provideAll g env r.provided st.u.boxes with
            | none => rw [h3] at h1; cases h1
            | some bs => rw [h3] at h1; cases h1; simp [inFlight]
          | false =>
            rw [hm] at h1
            cases h1
            rw [hu r (List.mem_cons_self ..) hm]
            simp [inFlight]
      rw [i, this, List.map_cons, List.sum_cons]; omega

/-- What `r` may touch. -/
def Mine (a : Global) (r : AccResult) (s : Nat) : Prop := r.host = s ∨ Flips a r s

theorem round_pointwise (O : RoundOk g D u rs) (N : ∀ r ∈ rs, ∀ s, ¬ Mine (view g u.boxes) r s → (Alone (view g u.boxes) r).metas s = (view g u.boxes).metas s)
    (h : mergeRound g env metered u rs = some m) (s : Nat) :
    (rs.map fun r => wt bal s ((Alone (view g u.boxes) r).metas s)).sum + wt bal s ((view g u.boxes).metas s) =
      wt bal s ((view g m.st.u.boxes).metas s) + rs.length * wt bal s ((view g u.boxes).metas s) := by
  unfold mergeRound at h
  cases hm : mergeResults g env (Base.of u) metered rs { st := { u := u } } with
  | none => rw [hm] at h; cases h
  | some m1 =>
    rw [hm] at h
    cases h
    obtain ⟨h1, h2, h3, h4⟩ := mergeResults_spec O rs _ m1 (fun _ h => h) O.hosts (up_start O) hm
    show _ = wt bal s ((view g m1.st.u.boxes).metas s) + _
    by_cases c : ∃ r ∈ rs, Mine (view g u.boxes) r s
    · obtain ⟨r, hr, hmine⟩ := c
      have e : (view g m1.st.u.boxes).metas s = (Alone (view g u.boxes) r).metas s := by
        rcases hmine with e | e
        · subst e; exact h1 r hr
        · exact (h2 r hr s e).2
      rw [e]
      have hp : rs.Pairwise fun r r' => r.host ≠ r'.host ∧ ∀ s, Flips (view g u.boxes) r s → ¬ Flips (view g u.boxes) r' s :=
        (List.pairwise_map.1 O.hosts).and h4
      refine sum_one (R := fun r r' => r.host ≠ r'.host ∧ ∀ s, Flips (view g u.boxes) r s → ¬ Flips (view g u.boxes) r' s)
        (f := fun r => wt bal s ((Alone (view g u.boxes) r).metas s)) hr hp ?_ (fun y h => h.1 rfl)
      intro y hy hR
      have : ¬ Mine (view g u.boxes) y s := by
        intro hm2
        have hne : r.host ≠ y.host := hR.elim (fun h => h.1) (fun h => h.1.symm)
        rcases hmine with e | e
        · subst e
          rcases hm2 with f | f
          · exact hne f.symm
          · exact flips_not_host O hy hr f
        · rcases hm2 with f | f
          · subst f; exact flips_not_host O hr hy e
          · exact hR.elim (fun h => h.2 s e f) (fun h => h.2 s f e)
      show wt bal s _ = _
      rw [N y hy s this]
    · have c' : ∀ r ∈ rs, ¬ Mine (view g u.boxes) r s := fun r hr h => c ⟨r, hr, h⟩
      have e3 : (view g m1.st.u.boxes).metas s = (view g u.boxes).metas s := h3 s (fun r hr => ⟨fun h => c' r hr (.inl h), fun h => c' r hr (.inr h)⟩)
      rw [e3, sum_congr (h := fun _ => wt bal s ((view g u.boxes).metas s)) (fun r hr => by rw [N r hr s (c' r hr)]), sum_map_const]; omega

/-- One list of identifiers for several finite maps. -/
theorem common_list {l0 : List Nat} : ∀ {rs : List AccResult} {a : Global}, (∀ r ∈ rs, ∃ n, Held (Alone a r) n) →
    ∃ L : List Nat, l0 ⊆ L ∧ ∀ r ∈ rs, ∀ k, ((Alone a r).metas k).isSome → k ∈ L := by
  intro rs
  induction rs with
  | nil => intro a _; exact ⟨l0, fun _ h => h, fun _ h => by cases h⟩
  | cons r rs ih =>
    intro a h
    obtain ⟨L, h1, h2⟩ := ih (a := a) fun r' hr' => h r' (List.mem_cons_of_mem _ hr')
    obtain ⟨n, l, hl, _⟩ := h r (List.mem_cons_self ..)
    refine ⟨l ++ L, fun k hk => List.mem_append_right _ (h1 hk), ?_⟩
    intro r' hr' k hk
    rcases List.mem_cons.1 hr' with c | c
    · subst c; exact List.mem_append_left _ ((hl.2 k).2 hk)
    · exact List.mem_append_right _ (h2 r' c k hk)

theorem nodup_eraseDups (l : List Nat) : l.eraseDups.Nodup := by
  induction hn : l.length using Nat.strongRecOn generalizing l with
  | _ n ih =>
    cases l with
    | nil => simp
    | cons a l =>
      rw [List.eraseDups_cons, List.nodup_cons]
      refine ⟨?_, ih _ ?_ _ rfl⟩
      · rw [List.mem_eraseDups]; simp
      · rw [← hn]; simp only [List.length_cons]
        exact Nat.lt_succ_of_le (List.length_filter_le ..)

theorem round_tokens (O : RoundOk g D u rs) (N : ∀ r ∈ rs, ∀ s, ¬ Mine (view g u.boxes) r s → (Alone (view g u.boxes) r).metas s = (view g u.boxes).metas s)
    (hu : ∀ r ∈ rs, metered r.host = false → r.transfers = []) (h : mergeRound g env metered u rs = some m)
    {n0 : Nat} (h0 : Held (view g u.boxes) n0) {got : AccResult → Nat}
    (hr : ∀ r ∈ rs, ∃ n, Held (Alone (view g u.boxes) r) n ∧ n + inFlight r.transfers = n0 + got r) :
    ∃ n, Held (view g m.st.u.boxes) n ∧ n + inFlight m.transfers = n0 + (rs.map got).sum := by
  obtain ⟨l0, e0, s0⟩ := h0
  obtain ⟨L0, c1, c2⟩ := common_list (l0 := l0) (rs := rs) (a := view g u.boxes) fun r hr' => (hr r hr').imp fun _ h => h.1
  have pw := round_pointwise O N h
  have hsum : ∀ (L : List Nat), (rs.map fun r => total bal (Alone (view g u.boxes) r).metas L).sum + total bal (view g u.boxes).metas L =
      total bal (view g m.st.u.boxes).metas L + rs.length * total bal (view g u.boxes).metas L := by
    intro L
    have : ∀ L : List Nat, (L.map fun s => (rs.map fun r => wt bal s ((Alone (view g u.boxes) r).metas s)).sum + wt bal s ((view g u.boxes).metas s)).sum =
        (L.map fun s => wt bal s ((view g m.st.u.boxes).metas s) + rs.length * wt bal s ((view g u.boxes).metas s)).sum :=
      fun L => sum_congr fun s _ => pw s
    have := this L
    rw [sum_map_add, sum_map_add, sum_swap] at this
    unfold total
    rw [this]
    congr 1
    clear this
    induction L with
    | nil => simp
    | cons a L ih => simp only [List.map_cons, List.sum_cons, ih, Nat.mul_add]
  have sup : ∀ k, ((view g m.st.u.boxes).metas k).isSome → k ∈ L0 := by
    intro k hk
    by_cases d : k ∈ L0
    · exact d
    · exfalso
      unfold mergeRound at h
      cases hm : mergeResults g env (Base.of u) metered rs { st := { u := u } } with
      | none => rw [hm] at h; cases h
      | some m1 =>
        rw [hm] at h
        cases h
        obtain ⟨h1, h2, h3, _⟩ := mergeResults_spec O rs _ m1 (fun _ h => h) O.hosts (up_start O) hm
        change ((view g m1.st.u.boxes).metas k).isSome at hk
        by_cases c : ∃ r ∈ rs, Mine (view g u.boxes) r k
        · obtain ⟨r, hr', hmine⟩ := c
          have e : (view g m1.st.u.boxes).metas k = (Alone (view g u.boxes) r).metas k := by
            rcases hmine with e | e
            · subst e; exact h1 r hr'
            · exact (h2 r hr' k e).2
          rw [e] at hk
          exact d (c2 r hr' k hk)
        · have c' : ∀ r ∈ rs, ¬ Mine (view g u.boxes) r k := fun r hr h => c ⟨r, hr, h⟩
          have e3 : (view g m1.st.u.boxes).metas k = (view g u.boxes).metas k := h3 k (fun r hr => ⟨fun h => c' r hr (.inl h), fun h => c' r hr (.inr h)⟩)
          rw [e3] at hk
          exact d (c1 ((e0.2 k).2 hk))
  have nd := nodup_eraseDups L0
  have sup' : ∀ k, ((view g m.st.u.boxes).metas k).isSome → k ∈ L0.eraseDups := fun k hk => List.mem_eraseDups.2 (sup k hk)
  refine ⟨total bal (view g m.st.u.boxes).metas L0.eraseDups, ⟨_, enum_filter nd sup', (total_filter _ _).symm⟩, ?_⟩
  have hs := hsum L0.eraseDups
  have hb : total bal (view g u.boxes).metas L0.eraseDups = n0 := by
    rw [s0]; exact total_superset _ e0 nd fun k hk => List.mem_eraseDups.2 (c1 ((e0.2 k).2 hk))
  rw [hb] at hs
  have ht : inFlight m.transfers = (rs.map fun r => inFlight r.transfers).sum := by
    unfold mergeRound at h
    cases hm : mergeResults g env (Base.of u) metered rs { st := { u := u } } with
    | none => rw [hm] at h; cases h
    | some m1 =>
      rw [hm] at h
      cases h
      have := mergeResults_transfers (b := Base.of u) hu _ m1 hm
      simpa [inFlight] using this
  have hx : (rs.map fun r => total bal (Alone (view g u.boxes) r).metas L0.eraseDups + inFlight r.transfers).sum = (rs.map fun r => n0 + got r).sum := by
    refine sum_congr fun r hr' => ?_
    obtain ⟨n, ⟨l, hl, e⟩, hn⟩ := hr r hr'
    have : total bal (Alone (view g u.boxes) r).metas L0.eraseDups = n := by
      rw [e]; exact total_superset _ hl nd fun k hk => List.mem_eraseDups.2 (c2 r hr' k hk)
    rw [this, hn]
  rw [sum_map_add, sum_map_add, sum_map_const, ← ht] at hx
  omega

end Fastroll.Svc
