import Verif.Delta.LemmasLoop
import Verif.Svc.PropsMerge

/-! # Lemmas: what a faithful round pays, whose word it takes and what it does with tokens -/
namespace Fastroll.Delta
open Fastroll.Pvm Fastroll.Svc
variable {W : World} {R : Round}

theorem Round.Faithful.pays (F : R.Faithful W) (r : AccResult) (hr : r ∈ R.results) :
    r.gas ≤ R.limit r.host ∧ (r.transfers.map Transfer.gas).sum + 10 * r.transfers.length ≤ r.gas := by
  obtain ⟨h1, h2⟩ := F.run r hr
  exact accumulate_pays h1 h2

theorem sum_flat {α : Type} (f : α → List Nat) : ∀ l : List α, (l.flatMap f).sum = (l.map fun x => (f x).sum).sum
  | [] => rfl
  | x :: l => by rw [List.flatMap_cons, List.sum_append_nat, sum_flat f l, List.map_cons, List.sum_cons]

theorem counted_pays (l : List AccResult) (h : ∀ r ∈ l, (r.transfers.map Transfer.gas).sum + 10 * r.transfers.length ≤ r.gas) :
    ((l.flatMap AccResult.transfers).map Transfer.gas).sum + 10 * (l.flatMap AccResult.transfers).length ≤ (l.map AccResult.gas).sum := by
  induction l with
  | nil => exact Nat.le_refl _
  | cons r l ih =>
    have h1 := h r (List.mem_cons_self ..)
    have h2 := ih fun r hr => h r (List.mem_cons_of_mem _ hr)
    rw [List.flatMap_cons, List.map_append, List.sum_append_nat, List.length_append, List.map_cons, List.sum_cons]
    omega

theorem Round.Faithful.sent_paid (F : R.Faithful W) : (R.sent.map Transfer.gas).sum + 10 * R.sent.length ≤ R.used := by
  rw [F.sent]
  exact counted_pays _ fun r hr => (F.pays r (List.mem_filter.1 hr).1).2

theorem Round.Faithful.merge (F : R.Faithful W) : ∃ m, mergeRound W.g W.base (fun s => decide (R.Called s)) R.start R.results = some m ∧ m.st.u = R.finish := by
  have := F.merged
  cases h : mergeRound W.g W.base (fun s => decide (R.Called s)) R.start R.results with
  | none => rw [h] at this; cases this
  | some m => rw [h] at this; exact ⟨m, rfl, by simpa using this⟩

theorem Round.Faithful.settles (F : R.Faithful W) : Settled R.finish := by
  obtain ⟨m, h1, h2⟩ := F.merge
  rw [← h2]; exact C24_round_settled h1

theorem Round.Faithful.authorised (F : R.Faithful W) (hs : Settled R.start) : Authorised R.start R.results R.finish := by
  obtain ⟨m, h1, h2⟩ := F.merge
  rw [← h2]
  exact C24_round_authority hs (fun r hr => ⟨_, _, _, (F.run r hr).2⟩) h1

/-! ## Along the chain -/

theorem chain_settled : ∀ {Rs : List Round} {u : PState Boxes} {ts v}, Chain u ts Rs v → Settled u → (∀ R ∈ Rs, R.Faithful W) →
    (∀ R ∈ Rs, Settled R.start) ∧ Settled v
  | [], u, ts, v, h, hs, _ => ⟨by simp, h.1 ▸ hs⟩
  | R :: Rs, u, ts, v, h, hs, F => by
    obtain ⟨h1, _, h3⟩ := h
    have ih := chain_settled h3 (F R (List.mem_cons_self ..)).settles fun R hR => F R (List.mem_cons_of_mem _ hR)
    refine ⟨fun R' hR' => ?_, ih.2⟩
    rcases List.mem_cons.1 hR' with e | e
    · subst e; rw [h1]; exact hs
    · exact ih.1 R' e

/-- The gas of the transfers and their fee come out of the gas of the block. -/
theorem chain_gas : ∀ {Rs : List Round} {u : PState Boxes} {ts v} {left : Nat} {todo rest : List Acc.Report},
    Chain u ts Rs v → Paced left todo Rs rest → (∀ R ∈ Rs, R.Faithful W) →
    10 * (Rs.map fun R => R.sent.length).sum ≤ left + (ts.map Transfer.gas).sum ∧
    (Rs.map Round.used).sum ≤ left + (Rs.map Round.brought).sum
  | [], u, ts, v, left, todo, rest, _, _, _ => by simp
  | R :: Rs, u, ts, v, left, todo, rest, h, p, F => by
    obtain ⟨h1, h2, h3⟩ := h
    obtain ⟨after, _, _, p1, p2⟩ := p
    obtain ⟨i1, i2⟩ := chain_gas h3 p2 fun R hR => F R (List.mem_cons_of_mem _ hR)
    have hp := (F R (List.mem_cons_self ..)).sent_paid
    have hb : R.brought = (ts.map Transfer.gas).sum := by unfold Round.brought; rw [h2]
    simp only [List.map_cons, List.sum_cons]
    omega

/-! ## Tokens -/

theorem Round.limit_uncalled {s : Nat} (h : ¬ R.Called s) : R.limit s = 0 := by
  unfold Round.Called at h
  have h1 : ¬ ∃ r ∈ R.reports, ∃ d ∈ r.digests, d.svc = s := fun c => h (.inl c)
  have h2 : ¬ ∃ t ∈ R.delivered, t.dst = s := fun c => h (.inr (.inl c))
  have h3 : ¬ ∃ e ∈ R.always, e.1 = s := fun c => h (.inr (.inr c))
  unfold Round.limit
  have e1 : R.always.find? (fun e => e.1 == s) = none := List.find?_eq_none.2 fun e he c => h3 ⟨e, he, by simpa using c⟩
  have e2 : (R.reports.flatMap (·.digests)).filter (fun d => d.svc == s) = [] :=
    List.filter_eq_nil_iff.2 fun d hd c => by
      obtain ⟨r, hr, hd⟩ := List.mem_flatMap.1 hd
      exact h1 ⟨r, hr, d, hd, by simpa using c⟩
  have e3 : R.delivered.filter (fun t => t.dst == s) = [] :=
    List.filter_eq_nil_iff.2 fun t ht c => h2 ⟨t, ht, by simpa using c⟩
  rw [e1, e2, e3]; rfl

theorem Round.Faithful.uncalled (F : R.Faithful W) (r : AccResult) (hr : r ∈ R.results) (h : decide (R.Called r.host) = false) :
    r.transfers = [] := by
  obtain ⟨h1, h2⟩ := F.pays r hr
  rw [Round.limit_uncalled (by simpa using h)] at h1
  cases ht : r.transfers with
  | nil => rfl
  | cons t l => rw [ht, List.length_cons] at h2; omega

theorem inFlight_append (a b : List Transfer) : inFlight (a ++ b) = inFlight a + inFlight b := by
  unfold inFlight; rw [List.map_append, List.sum_append_nat]

theorem inFlight_cons (t : Transfer) (b : List Transfer) : inFlight (t :: b) = t.amount + inFlight b := by
  unfold inFlight; rw [List.map_cons, List.sum_cons]

theorem one_of (x : Nat) (y : Nat) : ∀ hs : List Nat, hs.Nodup → (hs.map fun h => if y = h then x else 0).sum = if y ∈ hs then x else 0
  | [], _ => by simp
  | h :: hs, hn => by
    obtain ⟨h1, h2⟩ := List.nodup_cons.1 hn
    rw [List.map_cons, List.sum_cons, one_of x y hs h2]
    by_cases c : y = h
    · subst c; simp [h1]
    · simp [c]

/-- What is delivered is received by the services that run, or lost. -/
theorem delivered_split (hs : List Nat) (hn : hs.Nodup) : ∀ ts : List Transfer,
    (hs.map fun h => inFlight (ts.filter fun t => t.dst == h)).sum + inFlight (ts.filter fun t => decide (t.dst ∉ hs)) = inFlight ts
  | [] => by
    have : (hs.map fun h => inFlight (([] : List Transfer).filter fun t => t.dst == h)).sum = 0 := by
      clear hn; induction hs with
      | nil => rfl
      | cons h hs ih => rw [List.map_cons, List.sum_cons, ih]; rfl
    rw [this]; rfl
  | t :: ts => by
    have ih := delivered_split hs hn ts
    have e : ∀ h, inFlight ((t :: ts).filter fun t => t.dst == h) = (if t.dst = h then t.amount else 0) + inFlight (ts.filter fun t => t.dst == h) := by
      intro h
      rw [List.filter_cons]
      by_cases c : t.dst = h
      · simp [c, inFlight_cons]
      · simp [c]
    have e2 : (hs.map fun h => inFlight ((t :: ts).filter fun t => t.dst == h)).sum =
        (hs.map fun h => if t.dst = h then t.amount else 0).sum + (hs.map fun h => inFlight (ts.filter fun t => t.dst == h)).sum := by
      rw [← sum_map_add]
      congr 1
      exact List.map_congr_left fun h _ => e h
    rw [e2, one_of _ _ _ hn, inFlight_cons, List.filter_cons]
    by_cases c : t.dst ∈ hs
    · simp only [c, if_true, not_true_eq_false, decide_false, Bool.false_eq_true, if_false]; omega
    · simp only [c, if_false, not_false_eq_true, decide_true, if_true, inFlight_cons]; omega

theorem held_unique {a : Global} {n m : Nat} (h1 : Held a n) (h2 : Held a m) : n = m := by
  obtain ⟨l, ⟨n1, e1⟩, t1⟩ := h1
  obtain ⟨l', ⟨n2, e2⟩, t2⟩ := h2
  have hp : l.Perm l' := (List.perm_ext_iff_of_nodup n1 n2).2 fun k => by rw [e1, e2]
  rw [t1, t2]
  unfold total
  exact (hp.map _).sum_nat

theorem Round.Clean.tokens (C : R.Clean W) (F : R.Faithful W) {n0 : Nat} (h0 : Held (view W.g R.start.boxes) n0) :
    ∃ n, Held (view W.g R.finish.boxes) n ∧ n + inFlight R.sent + R.lost = n0 + inFlight R.delivered := by
  obtain ⟨m, h1, h2⟩ := F.merge
  obtain ⟨D, O⟩ := C.ok
  obtain ⟨n, k1, k2⟩ := C20_round_conserved_partial O C.alone (fun r hr h => F.uncalled r hr h) h1 n0 h0
    (fun r => inFlight (R.delivered.filter fun t => t.dst == r.host)) (fun r hr => by
      obtain ⟨n0', n, k0, k1, k2⟩ := C.conserves r hr
      cases held_unique h0 k0
      exact ⟨n, k1, k2⟩)
  rw [h2] at k1
  refine ⟨n, k1, ?_⟩
  have e1 : inFlight m.transfers = inFlight R.sent := by
    rw [F.sent, (C44_round_reports h1).2.2]; rfl
  have e2 := delivered_split (R.results.map AccResult.host) O.hosts R.delivered
  have e3 : ((R.results.map AccResult.host).map fun h => inFlight (R.delivered.filter fun t => t.dst == h)).sum =
      (R.results.map fun r => inFlight (R.delivered.filter fun t => t.dst == r.host)).sum := by rw [List.map_map]; rfl
  rw [e3] at e2
  unfold Round.lost
  omega

theorem chain_tokens : ∀ {Rs : List Round} {u : PState Boxes} {ts v} {n0 : Nat}, Chain u ts Rs v → (∀ R ∈ Rs, R.Faithful W) →
    (∀ R ∈ Rs, R.Clean W) → Held (view W.g u.boxes) n0 →
    ∃ n, Held (view W.g v.boxes) n ∧ n + (Rs.map Round.lost).sum = n0 + inFlight ts
  | [], u, ts, v, n0, h, _, _, h0 => by
    obtain ⟨e1, e2⟩ := h
    subst e1 e2
    exact ⟨n0, h0, rfl⟩
  | R :: Rs, u, ts, v, n0, h, F, C, h0 => by
    obtain ⟨h1, h2, h3⟩ := h
    rw [← h1] at h0
    obtain ⟨n1, k1, k2⟩ := (C R (List.mem_cons_self ..)).tokens (F R (List.mem_cons_self ..)) h0
    obtain ⟨n, l1, l2⟩ := chain_tokens h3 (fun R hR => F R (List.mem_cons_of_mem _ hR)) (fun R hR => C R (List.mem_cons_of_mem _ hR)) k1
    refine ⟨n, l1, ?_⟩
    rw [List.map_cons, List.sum_cons, ← h2]
    omega

end Fastroll.Delta
