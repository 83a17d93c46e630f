import Verif.Delta.LemmasRound
import Verif.Delta.Ex
import Verif.Svc.PropsAcc

/-! # Properties of the accumulation of a block (C70) -/
namespace Fastroll.Delta
open Fastroll.Pvm Fastroll.Svc

namespace Ex
theorem isOk : (match block W K χ queues [[7]] reports with | .ok _ => true | .error _ => false) = true := by decide +kernel
def final : Summary := match block W K χ queues [[7]] reports with | .ok s => s | .error _ => ⟨0, [], [], [], χ, [], []⟩
theorem ran : block W K χ queues [[7]] reports = .ok final := by
  have h := isOk
  unfold final
  split
  · assumption
  · rename_i e; rw [e] at h; cases h
end Ex

variable {W : World} {K : Consts} {χ : Chi} {queues : List (List Bytes)} {staging : List Bytes} {reports : List Acc.Report} {s : Summary}

/-- **C70**: a service pays for what it does. Whatever its program, it uses no more gas than it is given,
and out of that it has paid, for every transfer it leaves, the gas that goes with it and ten more. -/
theorem C70_service_pays {g : Global} {env : Env} {mach : Machine} {p : PState Boxes} {a : AccArgs} {r : AccResult}
    (hl : a.gasLimit < 2 ^ 64) (h : accumulate g env mach p a = .ok (some r)) :
    r.gas ≤ a.gasLimit ∧ (r.transfers.map fun t => t.gas + 10).sum ≤ r.gas := by
  obtain ⟨h1, h2⟩ := accumulate_pays hl h
  refine ⟨h1, Nat.le_trans (Nat.le_of_eq ?_) h2⟩
  unfold cost
  induction r.transfers with
  | nil => rfl
  | cons t l ih => simp only [List.map_cons, List.sum_cons, List.length_cons]; omega

example : (match accumulate Ex.W.g Svc.Ex.env Ex.W.mach (start Ex.χ Ex.queues) { host := 5, gasLimit := 500, incoming := [], seed := 5 } with
    | .ok (some r) => some (r.gas, r.transfers.map Transfer.gas)
    | _ => none) = some (83, [60]) := by decide +kernel

private theorem blockGas_lt (h : K.total < 2 ^ 64) : Acc.blockGas K.total K.perCore K.cores χ.always < Acc.U64 :=
  Nat.max_lt.2 ⟨h, Nat.mod_lt _ (by decide)⟩

private theorem sane (h : K.total < 2 ^ 64) : Acc.Sane reports (Acc.blockGas K.total K.perCore K.cores χ.always) (abs (init K χ queues)) :=
  ⟨blockGas_lt h, Nat.zero_le _, by simp [abs, init, Acc.Outer.budget, Acc.tgas]⟩

/-- **C70**: the accumulation of a block ends. Whatever the programs of the services, it takes no more
rounds than two, one for each report and one for every ten units of gas. -/
theorem C70_rounds_end (h : K.total < 2 ^ 64) : block W K χ queues staging reports ≠ .error .fuel := by
  intro hb
  unfold block at hb
  split at hb
  · rename_i e he
    cases hb
    refine loop_fuel _ _ (sane h) ?_ he
    unfold enough Acc.Outer.measure Acc.Outer.budget
    simp [abs, init, Acc.tgas]
  · cases hb

example : Ex.K.total < 2 ^ 64 ∧ enough Ex.reports (init Ex.K Ex.χ Ex.queues) = 104 := by decide +kernel

/-- **C70**: without always-accumulate services the accounting of gas never fails, whatever the
services do. -/
theorem C70_no_gas_error (h : K.total < 2 ^ 64) (ha : χ.always = []) : block W K χ queues staging reports ≠ .error .gas := by
  intro hb
  unfold block at hb
  split at hb
  · rename_i e he
    cases hb
    exact loop_gas _ _ (sane h) (show (some χ.always).getD [] = [] by rw [ha]; rfl) he
  · cases hb

example : (match block Ex.W Ex.K { Ex.χ with always := [] } Ex.queues [[7]] Ex.reports with | .ok s => some s.gasPairs | .error _ => none) =
    some [(5, 83), (6, 12), (6, 12), (5, 83), (6, 12)] := by decide +kernel

/-- Always-accumulate services that are given 2^64 gas together. -/
def Ex.greedy : Chi := { Ex.χ with always := [(1, 2 ^ 63 - 1), (5, 2 ^ 63 - 1), (6, 2)] }

/-- **C70** is broken with such services: the limit of the block wraps to less than they are given, the
first round then uses more than there is, and the block is rejected although every service stayed within
its own limit. -/
theorem C70_gas_error_partial : (match block Ex.W { total := 5, perCore := 0, cores := 2 } Ex.greedy Ex.queues [[7]] [] with
    | .ok _ => none
    | .error e => some e) = some .gas := by decide +kernel

/-- **C70**: what a block's accumulation is. It is a sequence of faithful rounds, in each of which exactly
the services with something to do or with a privilege run, that exist, each once, on the state the round
before left, and get all the gas and the transfers meant for them; the transfers sent in a round are
delivered in the next and none is left; always-accumulate services run in the first round only; each round
takes as many of the reports as fit into the gas left, and at the end the next report does not fit. The
gas accounted is that of the services called, round by round, and the outputs are all outputs, each once,
in order. -/
theorem C70_trace (hK : K.total < 2 ^ 64) (h : block W K χ queues staging reports = .ok s) :
    ∃ (Rs : List Round) (v : PState Boxes), (∀ R ∈ Rs, R.Faithful W) ∧ Chain (start χ queues) [] Rs v ∧ AlwaysFirst χ.always Rs ∧
      Paced (Acc.blockGas K.total K.perCore K.cores χ.always) reports Rs (reports.drop s.count) ∧ s.count ≤ reports.length ∧
      s.gasPairs = Rs.flatMap (fun R => R.counted.map fun r => (r.host, r.gas)) ∧
      s.outputs.Pairwise OutLt ∧ (∀ x, x ∈ s.outputs ↔ ∃ R ∈ Rs, x ∈ R.outputs) ∧
      s.boxes = v.boxes ∧ s.χ = ⟨v.manager, v.assign.confirmed, v.designate.confirmed, v.registrar.confirmed, v.always⟩ ∧
      s.queues = v.authQueue ∧ s.staging = v.staging.getD staging := by
  unfold block at h
  split at h
  · cases h
  · rename_i o ho
    cases h
    obtain ⟨Rs, h1, h2, h3, h4, h5, h6, h7, h8⟩ := loop_trace _ _ _ (sane hK) ho
    refine ⟨Rs, o.p, h1, h2, h3, h5, h4, ?_, h7 List.Pairwise.nil, fun x => ?_, rfl, rfl, rfl, rfl⟩
    · rw [h6]; rfl
    · rw [h8 x]
      show x ∈ [] ∨ _ ↔ _
      simp

example : Ex.final.count = 1 ∧ Ex.final.gasPairs = [(1, 12), (5, 83), (6, 12), (6, 12)] ∧ Ex.final.outputs.map Prod.fst = [5, 6] ∧
    (Ex.final.χ.manager, Ex.final.χ.designate) = (9, 6) ∧ ∃ Rs v, Chain (start Ex.χ Ex.queues) [] Rs v ∧ ∀ R ∈ Rs, R.Faithful Ex.W := by
  refine ⟨by decide +kernel, by decide +kernel, by decide +kernel, by decide +kernel, ?_⟩
  obtain ⟨Rs, v, h1, h2, _⟩ := C70_trace (by decide) Ex.ran
  exact ⟨Rs, v, h2, h1⟩

/-- **C70**: the gas accounted is at most the limit of the block and what came with transfers; the
transfers of the whole block, each of which costs ten, are at most a tenth of the limit. -/
theorem C70_gas (hK : K.total < 2 ^ 64) (h : block W K χ queues staging reports = .ok s) :
    ∃ (Rs : List Round) (v : PState Boxes), (∀ R ∈ Rs, R.Faithful W) ∧ Chain (start χ queues) [] Rs v ∧
      (s.gasPairs.map Prod.snd).sum ≤ Acc.blockGas K.total K.perCore K.cores χ.always + (Rs.map Round.brought).sum ∧
      10 * (Rs.map fun R => R.sent.length).sum ≤ Acc.blockGas K.total K.perCore K.cores χ.always ∧
      ∀ R ∈ Rs, ∀ r ∈ R.results, r.gas ≤ R.limit r.host := by
  obtain ⟨Rs, v, h1, h2, k3, h4, k4, h6, k5⟩ := C70_trace hK h
  obtain ⟨g1, g2⟩ := chain_gas h2 h4 h1
  refine ⟨Rs, v, h1, h2, ?_, g1, fun R hR r hr => ((h1 R hR).pays r hr).1⟩
  refine Nat.le_trans (Nat.le_of_eq ?_) g2
  rw [h6]
  clear h1 h2 h4 h6 g1 g2 h k3 k4 k5
  induction Rs with
  | nil => rfl
  | cons R Rs ih =>
    rw [List.flatMap_cons, List.map_append, List.sum_append_nat, ih, List.map_cons, List.sum_cons, List.map_map]
    rfl

example : (Ex.final.gasPairs.map Prod.snd).sum = 119 ∧ Acc.blockGas Ex.K.total Ex.K.perCore Ex.K.cores Ex.χ.always = 1000 := by decide +kernel

/-- **C70**: whose word a block takes. Between rounds nothing is pending, and each change of a privilege, a
queue of authorizers or the staging set was asked for in a round by the service that has, when the round
starts, the right to ask for it. -/
theorem C70_authority (hK : K.total < 2 ^ 64) (h : block W K χ queues staging reports = .ok s) :
    ∃ (Rs : List Round) (v : PState Boxes), (∀ R ∈ Rs, R.Faithful W) ∧ Chain (start χ queues) [] Rs v ∧
      (∀ R ∈ Rs, Settled R.start ∧ Authorised R.start R.results R.finish) ∧ Settled v ∧
      s.χ = ⟨v.manager, v.assign.confirmed, v.designate.confirmed, v.registrar.confirmed, v.always⟩ ∧ s.queues = v.authQueue := by
  obtain ⟨Rs, v, h1, h2, _, _, _, _, _, _, _, h10, h11, _⟩ := C70_trace hK h
  have h0 : Settled (start χ queues) := ⟨⟨rfl, rfl⟩, ⟨rfl, rfl⟩, ⟨rfl, rfl⟩⟩
  obtain ⟨k1, k2⟩ := chain_settled (W := W) h2 h0 h1
  exact ⟨Rs, v, h1, h2, fun R hR => ⟨k1 R hR, (h1 R hR).authorised (k1 R hR)⟩, k2, h10, h11⟩

example : Ex.final.χ.manager ≠ Ex.χ.manager ∧ Ex.final.χ.registrar = Ex.χ.registrar := by decide +kernel

private theorem chain_manager : ∀ {Rs : List Round} {u : PState Boxes} {ts v}, Chain u ts Rs v → Settled u → (∀ R ∈ Rs, R.Faithful W) →
    (∀ R ∈ Rs, ∀ r ∈ R.results, r.host ≠ u.manager) → v.manager = u.manager ∧ v.always = u.always
  | [], u, ts, v, h, _, _, _ => by rw [h.1]; exact ⟨rfl, rfl⟩
  | R :: Rs, u, ts, v, h, hs, F, hn => by
    obtain ⟨h1, _, h3⟩ := h
    have hF := F R (List.mem_cons_self ..)
    have hA := hF.authorised (h1 ▸ hs)
    have em : R.finish.manager = u.manager := by
      rcases hA.manager with e | ⟨r, hr, e, _⟩
      · rw [e, h1]
      · exact absurd (by rw [e, h1]) (hn R (List.mem_cons_self ..) r hr)
    have ea : R.finish.always = u.always := by
      rcases hA.always with e | ⟨r, hr, e, _⟩
      · rw [e, h1]
      · exact absurd (by rw [e, h1]) (hn R (List.mem_cons_self ..) r hr)
    have ih := chain_manager h3 hF.settles (fun R hR => F R (List.mem_cons_of_mem _ hR))
      (fun R hR r hr => by rw [em]; exact hn R (List.mem_cons_of_mem _ hR) r hr)
    exact ⟨ih.1.trans em, ih.2.trans ea⟩

/-- **C70**: a block in no round of which the manager runs (it runs in every round in which it exists)
changes neither the manager nor the always-accumulate services. -/
theorem C70_manager (hK : K.total < 2 ^ 64) (h : block W K χ queues staging reports = .ok s) :
    ∃ (Rs : List Round) (v : PState Boxes), (∀ R ∈ Rs, R.Faithful W) ∧ Chain (start χ queues) [] Rs v ∧
      ((∀ R ∈ Rs, χ.manager ∉ R.results.map AccResult.host) → s.χ.manager = χ.manager ∧ s.χ.always = χ.always) := by
  obtain ⟨Rs, v, h1, h2, _, _, _, _, _, _, _, h10, _⟩ := C70_trace hK h
  refine ⟨Rs, v, h1, h2, fun hn => ?_⟩
  rw [h10]
  exact chain_manager (W := W) h2 ⟨⟨rfl, rfl⟩, ⟨rfl, rfl⟩, ⟨rfl, rfl⟩⟩ h1 fun R hR r hr e => hn R hR (List.mem_map.2 ⟨r, hr, e⟩)

example : (match block Ex.W Ex.K { Ex.χ with manager := 99 } Ex.queues [[7]] Ex.reports with
    | .ok s => some (s.χ.manager, s.χ.always, s.gasPairs.map Prod.fst)
    | .error _ => none) = some (99, [(1, 40)], [1, 5, 6, 6]) := by decide +kernel

private theorem chain_roles : ∀ {Rs : List Round} {u : PState Boxes} {ts v}, Chain u ts Rs v → Settled u → (∀ R ∈ Rs, R.Faithful W) →
    (∀ R ∈ Rs, ∀ r ∈ R.results, r.host ≠ u.manager) →
    ((∀ R ∈ Rs, ∀ r ∈ R.results, r.host ≠ u.designate.confirmed) → v.designate.confirmed = u.designate.confirmed ∧ v.staging = u.staging) ∧
    ((∀ R ∈ Rs, ∀ r ∈ R.results, r.host ≠ u.registrar.confirmed) → v.registrar.confirmed = u.registrar.confirmed)
  | [], u, ts, v, h, _, _, _ => by rw [h.1]; exact ⟨fun _ => ⟨rfl, rfl⟩, fun _ => rfl⟩
  | R :: Rs, u, ts, v, h, hs, F, hn => by
    obtain ⟨h1, _, h3⟩ := h
    have hF := F R (List.mem_cons_self ..)
    have hA := hF.authorised (h1 ▸ hs)
    have hn0 := hn R (List.mem_cons_self ..)
    have em : R.finish.manager = u.manager := by
      rcases hA.manager with e | ⟨r, hr, e, _⟩
      · rw [e, h1]
      · exact absurd (by rw [e, h1]) (hn0 r hr)
    have ih := chain_roles h3 hF.settles (fun R hR => F R (List.mem_cons_of_mem _ hR))
      (fun R hR r hr => by rw [em]; exact hn R (List.mem_cons_of_mem _ hR) r hr)
    refine ⟨fun hd => ?_, fun hd => ?_⟩
    · have hd0 := hd R (List.mem_cons_self ..)
      have ed : R.finish.designate.confirmed = u.designate.confirmed := by
        rcases hA.designate with e | ⟨r, hr, ⟨e, _⟩ | ⟨e, _⟩⟩
        · rw [e, h1]
        · exact absurd (by rw [e, h1]) (hn0 r hr)
        · exact absurd (by rw [e, h1]) (hd0 r hr)
      have es : R.finish.staging = u.staging := by
        rcases hA.staging with e | ⟨r, hr, e, _⟩
        · rw [e, h1]
        · exact absurd (by rw [e, h1]) (hd0 r hr)
      have := ih.1 fun R hR r hr => by rw [ed]; exact hd R (List.mem_cons_of_mem _ hR) r hr
      exact ⟨this.1.trans ed, this.2.trans es⟩
    · have hd0 := hd R (List.mem_cons_self ..)
      have ed : R.finish.registrar.confirmed = u.registrar.confirmed := by
        rcases hA.registrar with e | ⟨r, hr, ⟨e, _⟩ | ⟨e, _⟩⟩
        · rw [e, h1]
        · exact absurd (by rw [e, h1]) (hn0 r hr)
        · exact absurd (by rw [e, h1]) (hd0 r hr)
      exact (ih.2 fun R hR r hr => by rw [ed]; exact hd R (List.mem_cons_of_mem _ hR) r hr).trans ed

/-- **C70**: a block in no round of which the manager runs leaves the designate and the staging set as they
were unless the designate runs, and the registrar unless the registrar runs. -/
theorem C70_roles (hK : K.total < 2 ^ 64) (h : block W K χ queues staging reports = .ok s) :
    ∃ (Rs : List Round) (v : PState Boxes), (∀ R ∈ Rs, R.Faithful W) ∧ Chain (start χ queues) [] Rs v ∧
      ((∀ R ∈ Rs, χ.manager ∉ R.results.map AccResult.host) →
        ((∀ R ∈ Rs, χ.designate ∉ R.results.map AccResult.host) → s.χ.designate = χ.designate ∧ s.staging = staging) ∧
        ((∀ R ∈ Rs, χ.registrar ∉ R.results.map AccResult.host) → s.χ.registrar = χ.registrar)) := by
  obtain ⟨Rs, v, h1, h2, _, _, _, _, _, _, _, h10, _, h12⟩ := C70_trace hK h
  refine ⟨Rs, v, h1, h2, fun hn => ?_⟩
  have := chain_roles (W := W) h2 ⟨⟨rfl, rfl⟩, ⟨rfl, rfl⟩, ⟨rfl, rfl⟩⟩ h1 fun R hR r hr e => hn R hR (List.mem_map.2 ⟨r, hr, e⟩)
  rw [h10, h12]
  refine ⟨fun hd => ?_, fun hd => this.2 fun R hR r hr e => hd R hR (List.mem_map.2 ⟨r, hr, e⟩)⟩
  obtain ⟨k1, k2⟩ := this.1 fun R hR r hr e => hd R hR (List.mem_map.2 ⟨r, hr, e⟩)
  exact ⟨k1, by rw [k2]; rfl⟩

example : (match block Ex.W Ex.K { Ex.χ with manager := 99, designate := 98 } Ex.queues [[7]] Ex.reports with
    | .ok s => some (s.χ.designate, s.staging, s.gasPairs.map Prod.fst)
    | .error _ => none) = some (98, [[7]], [1, 5, 6, 6]) := by decide +kernel

/-- **C70**: tokens. If in every round each service alone conserves tokens (C20) and the sandboxes are
consistent, then the block changes the tokens held only by what is sent to services that do not exist:
all else is delivered before the block ends. -/
theorem C70_tokens_partial (hK : K.total < 2 ^ 64) (h : block W K χ queues staging reports = .ok s) :
    ∃ (Rs : List Round) (v : PState Boxes), (∀ R ∈ Rs, R.Faithful W) ∧ Chain (start χ queues) [] Rs v ∧ s.boxes = v.boxes ∧
      ((∀ R ∈ Rs, R.Clean W) → ∀ n0, Held W.g n0 → ∃ n, Held (view W.g s.boxes) n ∧ n + (Rs.map Round.lost).sum = n0) := by
  obtain ⟨Rs, v, h1, h2, _, _, _, _, _, _, h9, _⟩ := C70_trace hK h
  refine ⟨Rs, v, h1, h2, h9, fun hC n0 h0 => ?_⟩
  rw [h9]
  exact chain_tokens h2 h1 hC h0

/-- A round over `Svc.Ex.g`: service 7, which is delivered 9000 tokens, pays 10000 for a new account, service 8 sends
10 to service 7, and 5 tokens are delivered to a service that does not exist. -/
def Ex.cleanRound : Round where
  start := ExM.base
  finish := ExM.base
  delivered := [{ src := 8, dst := 7, amount := 9000, memo := [], gas := 0 }, { src := 8, dst := 3, amount := 5, memo := [], gas := 0 }]
  reports := []
  always := []
  results := ExM.sent
  sent := []

theorem Ex.clean : Ex.cleanRound.Clean { Ex.W with g := Svc.Ex.g } where
  ok := by
    refine ⟨fun s => s = 7 ∨ s = 8, ⟨fun _ _ h => (by cases h), ?_, by decide, by decide, by decide, by decide, fun _ _ _ h1 h2 => absurd h2 h1⟩⟩
    intro r hr
    change r ∈ ExM.sent at hr
    simp only [ExM.sent, List.mem_cons, List.not_mem_nil, or_false] at hr
    rcases hr with h | h <;> subst h
    · exact ExM.boxes_good ExM.good7
    · exact ExM.boxes_good fun e he => ExM.good8 e (List.mem_append_left _ he)
  alone := by
    intro r hr
    change r ∈ ExM.sent at hr
    simp only [ExM.sent, List.mem_cons, List.not_mem_nil, or_false] at hr
    rcases hr with h | h <;> subst h <;> intro s hs hf
    · by_cases c : s = 9
      · subst c; exact absurd (by unfold Flips; decide) hf
      · have h7 : (7 : Nat) ≠ s := fun e => hs e.symm
        have h9 : (9 : Nat) ≠ s := fun e => c e.symm
        simp [Alone, view, boxGet, ExM.r7, h7, h9]
    · by_cases c : s = 7
      · subst c; decide
      · have h7 : (7 : Nat) ≠ s := fun e => c e.symm
        have h8 : (8 : Nat) ≠ s := fun e => hs e.symm
        simp [Alone, view, boxGet, ExM.r8, h7, h8]
  conserves := by
    intro r hr
    change r ∈ ExM.sent at hr
    simp only [ExM.sent, List.mem_cons, List.not_mem_nil, or_false] at hr
    have none_at : ∀ k, k ≠ 7 → k ≠ 8 → Svc.Ex.g.metas k = none := fun k h7 h8 => by simp [Svc.Ex.g, h7, h8]
    rcases hr with h | h <;> subst h
    · refine ⟨10300, 19300, Svc.Ex.held, ⟨[7, 8, 9], ⟨by decide, fun k => ?_⟩, by decide⟩, by decide⟩
      by_cases c7 : k = 7
      · subst c7; decide
      · by_cases c8 : k = 8
        · subst c8; decide
        · by_cases c9 : k = 9
          · subst c9; decide
          · have h7 : (7 : Nat) ≠ k := fun e => c7 e.symm
            have h9 : (9 : Nat) ≠ k := fun e => c9 e.symm
            have hv : (Alone (view Svc.Ex.g ExM.base.boxes) ExM.r7).metas k = none := by
              rw [show (Alone (view Svc.Ex.g ExM.base.boxes) ExM.r7).metas k = Svc.Ex.g.metas k by simp [Alone, view, boxGet, ExM.r7, h7, h9, ExM.base, Svc.Ex.ctx]]
              exact none_at k c7 c8
            change k ∈ [7, 8, 9] ↔ ((Alone (view Svc.Ex.g ExM.base.boxes) ExM.r7).metas k).isSome
            rw [hv]
            simp [c7, c8, c9]
    · refine ⟨10300, 10290, Svc.Ex.held, ⟨[7, 8], ⟨by decide, fun k => ?_⟩, by decide⟩, by decide⟩
      by_cases c7 : k = 7
      · subst c7; decide
      · by_cases c8 : k = 8
        · subst c8; decide
        · have h7 : (7 : Nat) ≠ k := fun e => c7 e.symm
          have h8 : (8 : Nat) ≠ k := fun e => c8 e.symm
          have hv : (Alone (view Svc.Ex.g ExM.base.boxes) ExM.r8).metas k = none := by
            rw [show (Alone (view Svc.Ex.g ExM.base.boxes) ExM.r8).metas k = Svc.Ex.g.metas k by simp [Alone, view, boxGet, ExM.r8, h7, h8, ExM.base, Svc.Ex.ctx]]
            exact none_at k c7 c8
          change k ∈ [7, 8] ↔ ((Alone (view Svc.Ex.g ExM.base.boxes) ExM.r8).metas k).isSome
          rw [hv]
          simp [c7, c8]

example : Ex.cleanRound.lost = 5 := by decide

example : ([1, 5, 6].map fun k => (((view Ex.W.g Ex.final.boxes).metas k).map Meta.balance).getD 0) = [10000, 9990, 10010] := by decide +kernel

end Fastroll.Delta
