import Verif.Delta.LemmasQuiet
import Verif.Delta.Props

/-! # Properties of the accounts that a block leaves (C71) -/
namespace Fastroll.Delta
open Fastroll.Pvm Fastroll.Svc

/-! ## A concrete block -/

namespace ExA
/-- The services of `Delta.Ex`, with the requests for their code and what these need. -/
def g : Global where
  metas := fun s => if s = 1 ∨ s = 5 ∨ s = 6 then some { ExM.metaN s with items := 2, octets := 82 } else none
  storage := fun _ _ => none
  preimages := fun s h => if (s = 1 ∨ s = 5 ∨ s = 6) ∧ h = ExM.codeHash s then some [UInt8.ofNat s] else none
  lookups := fun s k => if (s = 1 ∨ s = 5 ∨ s = 6) ∧ k = (ExM.codeHash s, 1) then some [3] else none

def W : World := { Ex.W with g := g }

theorem usage (s : Nat) (h : s = 1 ∨ s = 5 ∨ s = 6) : Usage g s 2 82 := by
  refine ⟨[], [(ExM.codeHash s, 1)], ⟨by decide, fun k => by simp [g]⟩, ⟨by simp, fun k => ?_⟩, by simp, ?_⟩
  · by_cases c : k = (ExM.codeHash s, 1) <;> simp [g, h, c]
  · simp [total, wt, g, h, lookWeight]

theorem sound : g.Sound := by
  refine ⟨?_, ?_, ?_⟩
  · intro s h
    have c : ¬ (s = 1 ∨ s = 5 ∨ s = 6) := fun c => by simp [g, c] at h
    exact ⟨fun k => rfl, fun k => if_neg fun e => c e.1, fun k => if_neg fun e => c e.1⟩
  · intro s m hm
    by_cases c : s = 1 ∨ s = 5 ∨ s = 6
    · simp only [g, if_pos c, Option.some.injEq] at hm
      subst hm; exact usage s c
    · simp [g, c] at hm
  · intro s h d hd
    by_cases c : (s = 1 ∨ s = 5 ∨ s = 6) ∧ h = ExM.codeHash s
    · refine ⟨1, ?_⟩
      simp only [g]
      rw [if_pos ⟨c.1, by rw [c.2]⟩]; rfl
    · simp [g, c] at hd

theorem meta_of {s : Nat} {m : Meta} (h : g.metas s = some m) : (s = 1 ∨ s = 5 ∨ s = 6) ∧ m.items = 2 ∧ m.octets = 82 ∧ m.balance = 10000 := by
  by_cases c : s = 1 ∨ s = 5 ∨ s = 6
  · simp only [g, if_pos c, Option.some.injEq] at h
    subst h; exact ⟨c, rfl, rfl, rfl⟩
  · simp [g, c] at h

theorem healthy : Healthy g := by
  refine ⟨sound, Svc.Ex.inRange_of sound fun s m hm => ?_, fun s m hm => ?_⟩
  · obtain ⟨_, h1, h2, _⟩ := meta_of hm
    rw [h1, h2]; decide
  · obtain ⟨c, h1, h2, h3⟩ := meta_of hm
    exact ⟨2, 82, usage s c, by rw [h3]; exact Nat.le_trans (by decide) (Nat.le_add_right ..)⟩

theorem held : Held g 30000 := by
  refine ⟨[1, 5, 6], ⟨by decide, fun k => ?_⟩, by decide⟩
  by_cases c : k = 1 ∨ k = 5 ∨ k = 6 <;> simp [g, c]

theorem isOk : (match block W Ex.K Ex.χ Ex.queues [[7]] Ex.reports with | .ok _ => true | .error _ => false) = true := by decide +kernel
def final : Summary := match block W Ex.K Ex.χ Ex.queues [[7]] Ex.reports with | .ok s => s | .error _ => ⟨0, [], [], [], Ex.χ, [], []⟩
theorem ran : block W Ex.K Ex.χ Ex.queues [[7]] Ex.reports = .ok final := by
  have h := isOk
  unfold final
  split
  · assumption
  · rename_i e; rw [e] at h; cases h

theorem modest_of {p : Prog} (h : ∀ ins ∈ p.decoded, ins.op = .ecalli → ins.imm1.toNat % 256 ∉ Filling) : Modest p := by
  intro pc ins hi
  unfold Prog.instructionAt at hi
  split at hi
  · exact h ins (List.mem_of_getElem? hi)
  · cases hi

theorem modest (code : Bytes) (p : Prog) (init : Option VM) (h : W.mach.load code = some (p, init)) : Modest p := by
  have k : ∀ cs, cs ∈ [[14], [20, 25], [25]] → ∀ p, ExM.prog cs = some p → ∀ ins ∈ p.decoded, ins.op = .ecalli → ins.imm1.toNat % 256 ∉ Filling := by
    decide +kernel
  change (ExM.machine Ex.table).load code = some (p, init) at h
  unfold ExM.machine at h
  dsimp only at h
  split at h
  · rename_i n
    simp only [Option.map_eq_some_iff, Prod.mk.injEq] at h
    obtain ⟨p', h1, rfl, _⟩ := h
    refine modest_of (k _ ?_ _ h1)
    unfold Ex.table
    split <;> simp
  · cases h

/-! One round, in which only service 6 runs. -/

def χ : Chi := { manager := 99, assign := [99], designate := 99, registrar := 99, always := [(6, 40)] }
def args : AccArgs := { host := 6, gasLimit := 40, incoming := [], seed := 6 }
@[irreducible] def r6 : AccResult := match accumulate g Svc.Ex.env W.mach (start χ []) args with | .ok (some r) => r | _ => { host := 0, p := start χ [] }
def R0 : Round where
  start := start χ []
  finish := start χ []
  delivered := []
  reports := []
  always := [(6, 40)]
  results := [r6]
  sent := []
@[irreducible] def left : PState Boxes :=
  match mergeRound g Svc.Ex.env (fun s => decide (R0.Called s)) (start χ []) [r6] with
  | some m => m.st.u
  | none => start χ []
def R : Round := { R0 with finish := left }

theorem r6_ran : accumulate g Svc.Ex.env W.mach (start χ []) args = .ok (some r6) := by
  have h : (match accumulate g Svc.Ex.env W.mach (start χ []) args with | .ok (some _) => true | _ => false) = true := by decide +kernel
  unfold r6
  split
  · assumption
  · rename_i c
    split at h
    · rename_i r e; exact absurd e (c r)
    · cases h

theorem r6_host : r6.host = 6 := by decide +kernel

theorem merged : (mergeRound g Svc.Ex.env (fun s => decide (R0.Called s)) (start χ []) [r6]).map (fun m => m.st.u) = some left := by
  have h : (mergeRound g Svc.Ex.env (fun s => decide (R0.Called s)) (start χ []) [r6]).isSome = true := by decide +kernel
  unfold left
  split
  · rename_i e; rw [e]; rfl
  · rename_i e; rw [e] at h; cases h

theorem faithful : R.Faithful W where
  order := by simp [R, R0]
  who := by
    intro s
    have alive : Alive W.g R.start.boxes s ↔ s = 1 ∨ s = 5 ∨ s = 6 := by
      by_cases c : s = 1 ∨ s = 5 ∨ s = 6 <;> simp [Alive, R, R0, start, boxGet, W, g, c]
    rw [alive]
    simp only [R, R0, Round.Called, Round.Privileged, start, χ, List.map_cons, List.map_nil, r6_host, List.mem_cons, List.not_mem_nil, or_false, false_and, exists_false, false_or, exists_eq_left]
    omega
  run := by
    intro r hr
    simp only [R, R0, List.mem_cons, List.not_mem_nil, or_false] at hr
    subst hr
    rw [r6_host]
    exact ⟨by decide, r6_ran⟩
  merged := merged
  sent := by decide +kernel

theorem chain : Chain (start χ []) [] [R] left := ⟨rfl, rfl, rfl, rfl⟩

theorem careful : ∀ R' ∈ [R], R'.Careful W (Busy W.g [R]) := by
  intro R' hR r hr q cs ho
  have hb : Busy W.g [R] r.host := .inr ⟨R', hR, List.mem_map.2 ⟨r, hr, rfl⟩⟩
  rw [List.mem_singleton.1 hR] at hr ho ⊢
  exact opening_careful modest sound.orphans (fit_start healthy) hb (faithful.run r hr).2 ho
end ExA

variable {W : World} {K : Consts} {χ : Chi} {queues : List (List Bytes)} {staging : List Bytes} {reports : List Acc.Report} {s : Summary}

private theorem view_nil (g : Global) : view g [] = g := rfl

theorem leaves {Rs : List Round} {v : PState Boxes} {n0 : Nat} (hg : Healthy W.g) (h0 : Held W.g n0) (hn : n0 < 2 ^ 64)
    (Fa : ∀ R ∈ Rs, R.Faithful W) (hc : Chain (start χ queues) [] Rs v) (C : ∀ R ∈ Rs, Fit W.g (Busy W.g Rs) R.start.boxes → R.Careful W (Busy W.g Rs)) :
    (∀ R ∈ Rs, R.Careful W (Busy W.g Rs)) ∧
    ∃ a, WrittenBack W.g v.boxes a ∧ Healthy a ∧ ∃ n, Held a n ∧ n + (Rs.map Round.lost).sum = n0 := by
  have hv : view W.g (start χ queues).boxes = W.g := view_nil _
  obtain ⟨F, hC⟩ := chain_fit (D := Busy W.g Rs) hg (fun _ => .inl) (N := n0) hn hc Fa C
    (fun R hR r hr => .inr ⟨R, hR, List.mem_map.2 ⟨r, hr, rfl⟩⟩) (fit_start hg) (n0 := n0) (by rw [hv]; exact h0) (by simp [inFlight])
  refine ⟨fun R hR => C R hR (hC R hR).2, view W.g v.boxes, F.written, healthy_iff.2 F.ok, ?_⟩
  exact chain_tokens hc Fa (fun R hR => (hC R hR).1) (by rw [hv]; exact h0)

/-- **C71**: the rounds of a block (`C70_trace`) leave the accounts consistent. If before the block
footprints are exact, every preimage was requested and every account holds its deposit, and no program
fills an account beyond the counters, takes the identifier of a committed account or ejects an account
that runs in the block or was created by it, then what is written back after the last round is again such
accounts, and they hold the same tokens less what was sent to services that do not exist. -/
theorem C71_accounts {Rs : List Round} {v : PState Boxes} {n0 : Nat} (hg : Healthy W.g) (h0 : Held W.g n0) (hn : n0 < 2 ^ 64)
    (hF : ∀ R ∈ Rs, R.Faithful W) (hc : Chain (start χ queues) [] Rs v) (hC : ∀ R ∈ Rs, R.Careful W (Busy W.g Rs)) :
    ∃ a, WrittenBack W.g v.boxes a ∧ Healthy a ∧ ∃ n, Held a n ∧ n + (Rs.map Round.lost).sum = n0 :=
  (leaves hg h0 hn hF hc fun R hR _ => hC R hR).2

private theorem aside {R : Round} (F : R.Faithful W) (C : R.Clean W) {s : Nat} (hs : s ∉ R.results.map AccResult.host) {m : Meta} (hg : W.g.metas s = some m)
    (h : (view W.g R.start.boxes).metas s = some m ∨ (view W.g R.start.boxes).metas s = none) :
    (view W.g R.finish.boxes).metas s = some m ∨ (view W.g R.finish.boxes).metas s = none := by
  obtain ⟨mr, h1, h2⟩ := F.merge
  obtain ⟨D, O⟩ := C.ok
  obtain ⟨_, k2, k3⟩ := C44_merge_isolated O h1
  rw [h2] at k2 k3
  by_cases hf : ∃ r ∈ R.results, Flips (view W.g R.start.boxes) r s
  · obtain ⟨r, hr, hf⟩ := hf
    right
    rw [k2 r hr s hf]
    rcases h with e | e
    · unfold Flips at hf
      rw [e] at hf
      cases ha : (Alone (view W.g R.start.boxes) r).metas s with
      | none => rfl
      | some x => rw [ha] at hf; exact absurd rfl hf
    · exact O.lost r hr s (by rw [hg]; simp) e
  · rw [k3 s fun r hr => ⟨fun e => hs (List.mem_map.2 ⟨r, hr, e⟩), fun c => hf ⟨r, hr, c⟩⟩]
    exact h

private theorem aside_chain {s : Nat} {m : Meta} (hg : W.g.metas s = some m) : ∀ {Rs : List Round} {u : PState Boxes} {ts v}, Chain u ts Rs v →
    (∀ R ∈ Rs, R.Faithful W) → (∀ R ∈ Rs, R.Clean W) → (∀ R ∈ Rs, s ∉ R.results.map AccResult.host) →
    (view W.g u.boxes).metas s = some m ∨ (view W.g u.boxes).metas s = none → (view W.g v.boxes).metas s = some m ∨ (view W.g v.boxes).metas s = none
  | [], u, ts, v, h, _, _, _, hu => h.1 ▸ hu
  | R :: Rs, u, ts, v, h, F, C, hs, hu => by
    obtain ⟨h1, _, h3⟩ := h
    have m := List.mem_cons_self (a := R) (l := Rs)
    refine aside_chain hg h3 (fun R hR => F R (List.mem_cons_of_mem _ hR)) (fun R hR => C R (List.mem_cons_of_mem _ hR))
      (fun R hR => hs R (List.mem_cons_of_mem _ hR)) ?_
    exact aside (F R m) (C R m) (hs R m) hg (h1 ▸ hu)

/-- **C71**: nobody else touches an account. A service that runs in no round of such a block keeps its balance,
its code and all other metadata, or its account is ejected. -/
theorem C71_bystander {Rs : List Round} {v : PState Boxes} {n0 : Nat} (hg : Healthy W.g) (h0 : Held W.g n0) (hn : n0 < 2 ^ 64)
    (hF : ∀ R ∈ Rs, R.Faithful W) (hc : Chain (start χ queues) [] Rs v) (hC : ∀ R ∈ Rs, R.Careful W (Busy W.g Rs)) {s : Nat} {m : Meta}
    (hm : W.g.metas s = some m) (hs : ∀ R ∈ Rs, s ∉ R.results.map AccResult.host) :
    ∃ a, WrittenBack W.g v.boxes a ∧ (a.metas s = some m ∨ a.metas s = none) := by
  have hv : view W.g (start χ queues).boxes = W.g := view_nil _
  obtain ⟨F, hCl⟩ := chain_fit (D := Busy W.g Rs) hg (fun _ => .inl) (N := n0) hn hc hF (fun R hR _ => hC R hR)
    (fun R hR r hr => .inr ⟨R, hR, List.mem_map.2 ⟨r, hr, rfl⟩⟩) (fit_start hg) (n0 := n0) (by rw [hv]; exact h0) (by simp [inFlight])
  exact ⟨view W.g v.boxes, F.written, aside_chain hm hc hF (fun R hR => (hCl R hR).1) hs (.inl (by rw [hv]; exact hm))⟩

example : ∃ a, WrittenBack ExA.g ExA.left.boxes a ∧ (a.metas 5 = ExA.g.metas 5 ∨ a.metas 5 = none) :=
  C71_bystander ExA.healthy ExA.held (by decide) (fun R hR => List.mem_singleton.1 hR ▸ ExA.faithful) ExA.chain ExA.careful rfl
    (fun R hR => by rw [List.mem_singleton.1 hR]; decide +kernel)

/-- **C71**: that programs are so careful can be read off their code. If no program has an instruction that
calls `write`, `new`, `eject`, `solicit` or `forget` then, whatever else the services do, the rounds of the
block are careful, and so the block leaves the accounts consistent and loses no tokens but those sent to
services that do not exist. -/
theorem C71_modest (hK : K.total < 2 ^ 64) (h : block W K χ queues staging reports = .ok s) {n0 : Nat} (hg : Healthy W.g) (h0 : Held W.g n0) (hn : n0 < 2 ^ 64)
    (hM : ∀ code p init, W.mach.load code = some (p, init) → Modest p) :
    ∃ (Rs : List Round) (a : Global), (∀ R ∈ Rs, R.Faithful W) ∧ (∃ v, Chain (start χ queues) [] Rs v ∧ s.boxes = v.boxes) ∧
      (∀ R ∈ Rs, R.Careful W (Busy W.g Rs)) ∧ WrittenBack W.g s.boxes a ∧ Healthy a ∧ ∃ n, Held a n ∧ n + (Rs.map Round.lost).sum = n0 := by
  obtain ⟨Rs, v, h1, h2, _, _, _, _, _, _, h9, _⟩ := C70_trace hK h
  have := leaves (χ := χ) hg h0 hn h1 h2 fun R hR F r hr q cs ho =>
    opening_careful hM hg.sound.orphans F (.inr ⟨R, hR, List.mem_map.2 ⟨r, hr, rfl⟩⟩) ((h1 R hR).run r hr).2 ho
  obtain ⟨k0, a, k1, k2, k3⟩ := this
  exact ⟨Rs, a, h1, ⟨v, h2, h9⟩, k0, by rw [h9]; exact k1, k2, k3⟩

example : ∃ a, WrittenBack ExA.g ExA.final.boxes a ∧ Healthy a ∧ (a.metas 5).map Meta.balance = some 9990 ∧ (a.metas 6).map Meta.balance = some 10010 := by
  obtain ⟨Rs, a, _, _, _, h4, h5, _⟩ := C71_modest (W := ExA.W) (by decide) ExA.ran ExA.healthy ExA.held (by decide) ExA.modest
  refine ⟨a, h4, h5, ?_, ?_⟩
  · have h := h4.1 5
    have e : (applyMeta ExA.W.g ExA.final.boxes 5).map (fun m => m.map Meta.balance) = some (some 9990) := by decide +kernel
    rw [h] at e; exact Option.some.inj e
  · have h := h4.1 6
    have e : (applyMeta ExA.W.g ExA.final.boxes 6).map (fun m => m.map Meta.balance) = some (some 10010) := by decide +kernel
    rw [h] at e; exact Option.some.inj e

/-- The rounds of that block satisfy what `C71_accounts` asks. -/
example : ∃ (Rs : List Round) (v : PState Boxes), Rs ≠ [] ∧ ∃ a, WrittenBack ExA.g v.boxes a ∧ Healthy a := by
  obtain ⟨Rs, _, h1, ⟨v, h2, h3⟩, h4, _⟩ := C71_modest (W := ExA.W) (by decide) ExA.ran ExA.healthy ExA.held (by decide) ExA.modest
  obtain ⟨a, k1, k2, _⟩ := C71_accounts ExA.healthy ExA.held (by decide) h1 h2 h4
  refine ⟨Rs, v, fun e => ?_, a, k1, k2⟩
  subst e
  have : ExA.final.boxes = [] := by rw [h3, ← h2.1]; rfl
  exact absurd (congrArg List.isEmpty this) (by decide +kernel)

theorem WrittenBack.unique {g a b : Global} {bs : Boxes} (h1 : WrittenBack g bs a) (h2 : WrittenBack g bs b) : a = b := by
  apply Global.ext
  · funext s; exact Option.some.inj ((h1.1 s).symm.trans (h2.1 s))
  · funext s k; exact Option.some.inj ((h1.2.1 s k).symm.trans (h2.2.1 s k))
  · funext s k; exact Option.some.inj ((h1.2.2.1 s k).symm.trans (h2.2.2.1 s k))
  · funext s k; exact Option.some.inj ((h1.2.2.2 s k).symm.trans (h2.2.2.2 s k))

/-- **C71**: over any history of such blocks, of any length, with any preimages between them, every account
stays consistent and able to pay its deposit, and the tokens held and those lost are always what there was at
the start: no history makes tokens. -/
theorem C71_history {g a : Global} {n0 lost : Nat} (hg : Healthy g) (h0 : Held g n0) (hn : n0 < 2 ^ 64) (h : Lives g lost a) :
    Healthy a ∧ ∃ n, Held a n ∧ n + lost = n0 := by
  induction h with
  | start => exact ⟨hg, n0, h0, rfl⟩
  | @block l a b W χ queues Rs v slot ids env es _ hW hF hc hC hb ih =>
    obtain ⟨ia, n, ih1, ih2⟩ := ih
    subst hW
    obtain ⟨b', k1, k2, n', k3, k4⟩ := C71_accounts ia ih1 (by omega) hF hc hC
    obtain rfl := k1.unique hb
    have hs := stamp_ok (slot := slot) (ids := ids) k2
    refine ⟨integrate_ok es hs, n', ?_, by omega⟩
    exact held_congr (integrate_metas es _).symm (stamp_held k3)

/-- That block, then a preimage for service 6, as a history. -/
example : ∃ lost a, Lives ExA.g lost a ∧ Healthy a ∧ (a.metas 6).map (fun m => (m.balance, m.lastAcc)) = some (10010, 20) := by
  obtain ⟨Rs, b, h1, ⟨v, h2, h3⟩, h4, h5, _⟩ := C71_modest (W := ExA.W) (by decide) ExA.ran ExA.healthy ExA.held (by decide) ExA.modest
  have L := Lives.block (slot := 20) (ids := [5, 6]) (env := Svc.Ex.env) (es := [(6, [1, 2])]) Lives.start rfl h1 h2 h4 (h3 ▸ h5)
  refine ⟨_, _, L, (C71_history ExA.healthy ExA.held (by decide) L).1, ?_⟩
  rw [integrate_metas]
  have e : (applyMeta ExA.W.g ExA.final.boxes 6).map (fun m => m.map Meta.balance) = some (some 10010) := by decide +kernel
  rw [h5.1 6] at e
  have e' := Option.some.inj e
  show ((stamp 20 [5, 6] b).metas 6).map _ = _
  simp only [stamp]
  rw [if_pos (by decide)]
  cases hb : b.metas 6 with
  | none => rw [hb] at e'; cases e'
  | some m => rw [hb] at e'; simp only [Option.map_some, Option.some.injEq] at e' ⊢; rw [e']

end Fastroll.Delta
