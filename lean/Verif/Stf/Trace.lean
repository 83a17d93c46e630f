import Verif.Stf.Deps
/-! Guarantees and assurances of accepted blocks. -/
namespace Fastroll.Stf
open Fastroll.Safrole (VKey)
variable {σ η ρ ω π : Type} {W : World σ η ρ ω π} {g : Stage σ η ρ ω π}

theorem nullify_get {zero : VKey Nat} {p : List Nat} {set : List (VKey Nat)} {i key : Nat} (hz : zero.ed = 0) (h : ((Safrole.nullify zero p set).map VKey.ed)[i]? = some key) (h0 : key ≠ 0) :
    ∃ v, set[i]? = some v ∧ v.ed = key ∧ key ∉ p := by
  unfold Safrole.nullify at h
  rw [List.getElem?_map, List.getElem?_map] at h
  cases e : set[i]? with
  | none => rw [e] at h; cases h
  | some v =>
    rw [e] at h
    injection h with h
    dsimp only at h
    by_cases c : p.contains v.ed = true
    · rw [if_pos c] at h
      exact absurd (h.symm.trans hz) h0
    · rw [if_neg c] at h
      refine ⟨v, rfl, h, fun hm => c ?_⟩
      rw [h]
      exact List.contains_iff_mem.2 hm

theorem permute_getD {o : Option (List Nat)} {i c : Nat} (h : (o.getD [])[i]? = some c) : (o.bind fun cores => cores[i]?) = some c := by
  cases o with
  | none => cases h
  | some l => exact h

theorem attested (h : g.Ok W) (hm : W.P.maxGas < 2 ^ 64 - 1) (hz : W.C.zero.ed = 0) {gu : Reports.Guarantee σ} (hg : gu ∈ g.blk.guarantees) : Spec.Attested W (g.after W) gu := by
  obtain ⟨cs, hd⟩ := Reports.step_done h.step
  have ok := (hd.keysOk hm).each gu hg
  refine ⟨ok.count, (Reports.increasing_iff.1 ok.up).2, ?_⟩
  intro c hc
  obtain ⟨a, key, ha, hk, hco, h0, hv⟩ := ok.creds c hc
  have es : (g.after W).slot = g.blk.slot := Stage.after_slot h
  have ms : g.mid.slot = g.blk.slot := by rw [h.mid]; rfl
  have ej : (g.after W).judged = g.mid.judged := rfl
  have fin : ∀ set e slot, a = assigned W g.mid.judged.punish set e slot → Spec.guarding W (g.after W) gu.slot = (set, e, slot) →
      ∃ v, (Spec.guarding W (g.after W) gu.slot).1[c.voter]? = some v ∧ v.ed ∉ (g.after W).judged.punish ∧ W.ver v.ed (.guarantee (W.hash gu.report)) c.sig = true ∧
        Spec.coreOf W (Spec.guarding W (g.after W) gu.slot).2.1 (Spec.guarding W (g.after W) gu.slot).2.2 c.voter = some gu.report.core := by
    intro set e slot ea eg
    rw [eg]
    rw [ea] at hk hco
    obtain ⟨v, h1, h2, h3⟩ := nullify_get hz hk h0
    refine ⟨v, h1, ?_, ?_, permute_getD hco⟩
    · rw [h2, ej]; exact h3
    · rw [h2]; exact hv
  rcases ha with ⟨h1, h2⟩ | ⟨h1, h2⟩
  · have h2' : a = currentAssignment W g.mid := h2
    have h1' : gu.slot / W.P.rotation = (g.after W).slot / W.P.rotation := by rw [es]; exact h1
    refine fin (g.after W).active (g.after W).e2 (g.after W).slot h2' ?_
    unfold Spec.guarding
    rw [if_pos h1']
  · have h2' : a = previousAssignment W g.mid := h2
    have h1' : gu.slot / W.P.rotation ≠ (g.after W).slot / W.P.rotation := by rw [es]; exact h1
    unfold previousAssignment at h2'
    dsimp only at h2'
    by_cases c : (g.mid.slot - W.P.rotation) / W.S.epoch = g.mid.slot / W.S.epoch
    · have c' : ((g.after W).slot - W.P.rotation) / W.S.epoch = (g.after W).slot / W.S.epoch := c
      rw [if_pos c] at h2'
      refine fin (g.after W).active (g.after W).e2 ((g.after W).slot - W.P.rotation) h2' ?_
      unfold Spec.guarding
      rw [if_neg h1', if_pos c']
    · have c' : ¬ ((g.after W).slot - W.P.rotation) / W.S.epoch = (g.after W).slot / W.S.epoch := c
      rw [if_neg c] at h2'
      refine fin (g.after W).past (g.after W).e3 ((g.after W).slot - W.P.rotation) h2' ?_
      unfold Spec.guarding
      rw [if_neg h1', if_neg c']

theorem assured (h : g.Ok W) {core : Nat} (hq : 2 * W.P.V < 3 * (Reports.Spec.assurers g.blk.assurances core).length) : Spec.Assured W g.before g.blk core := by
  obtain ⟨h1, h2⟩ := Reports.C28_once h.step core
  refine ⟨hq, h1, ?_⟩
  intro i hi
  obtain ⟨a, ha, e1, e2, e3, key, hk, hv⟩ := h2 i hi
  have hk' : (g.before.active.map VKey.ed)[i]? = some key := hk
  rw [List.getElem?_map] at hk'
  cases e : g.before.active[i]? with
  | none => rw [e] at hk'; cases hk'
  | some v =>
    rw [e] at hk'
    injection hk' with hk'
    exact ⟨a, ha, e1, e2, e3, v, rfl, by rw [hk']; exact hv⟩

theorem same_sched (r : Reports.Report) : Spec.Same (sched r) r := by
  refine ⟨rfl, rfl, rfl, ?_, ?_⟩
  · show (r.digests.map _).map _ = _
    rw [List.map_map]; rfl
  · show (r.digests.map _).map _ = _
    rw [List.map_map]; rfl

theorem traced {l : List (Stage σ η ρ ω π)} {s0 s' : State η ρ ω} (hE : 0 < W.S.epoch) (hl : Linked W s0 l s') (hg : Spec.Genesis W s0) (h0 : ∀ g ∈ l, 0 < g.blk.slot)
    {k : Nat} {gk : Stage σ η ρ ω π} (hk : l[k]? = some gk) {r : Acc.Report} (hr : r ∈ gk.acc) :
    ∃ (i j : Nat) (gi gj : Stage σ η ρ ω π) (gu : Reports.Guarantee σ), i < j ∧ j ≤ k ∧ l[i]? = some gi ∧ l[j]? = some gj ∧ gu ∈ gi.blk.guarantees ∧ r = sched gu.report ∧
      (2 * W.P.V < 3 * (Reports.Spec.assurers gj.blk.assurances gu.report.core).length) := by
  have hlt := (List.getElem?_eq_some_iff.1 hk).1
  obtain ⟨t, hl', _⟩ := linked_append.1 (show Linked W s0 (l.take (k + 1) ++ l.drop (k + 1)) s' by rw [List.take_append_drop]; exact hl)
  have hgood := linked_good hE hl' hg (fun g hg => h0 g (List.mem_of_mem_take hg))
  have hkt : (l.take (k + 1))[k]? = some gk := by rw [List.getElem?_take_of_lt (Nat.lt_succ_self k)]; exact hk
  have hp := hgood.present r (List.mem_flatten.2 ⟨gk.acc, List.mem_map.2 ⟨gk, List.mem_of_getElem? hkt, rfl⟩, hr⟩)
  obtain ⟨x, hx, hrx⟩ := List.mem_flatMap.1 hp
  obtain ⟨gj, hgj, ex⟩ := List.mem_map.1 hx
  obtain ⟨j, hj⟩ := List.getElem?_of_mem hgj
  rw [← ex] at hrx
  obtain ⟨q, hq, eq⟩ := List.mem_map.1 hrx
  have hjk : j ≤ k := by
    have := (List.getElem?_eq_some_iff.1 hj).1
    rw [List.length_take] at this
    omega
  have hj' : l[j]? = some gj := by rw [List.getElem?_take_of_lt (by omega)] at hj; exact hj
  obtain ⟨hq2, i, gi, hij, hi, gu, hgu, egu⟩ := available_from hl (genesis_pending hg) hj' hq
  exact ⟨i, j, gi, gj, gu, hij, hjk, hi, hj', hgu, by rw [egu]; exact eq.symm, by rw [egu]; exact hq2⟩

theorem reached_before {l : List (Stage σ η ρ ω π)} {s0 s' : State η ρ ω} {bs : Spec.Blocks σ η π} (hl : Linked W s0 l s') (e : l.map Stage.input = bs) {i : Nat} {gi : Stage σ η ρ ω π}
    (hi : l[i]? = some gi) : bs[i]? = some (gi.anc, gi.blk) ∧ Spec.Reached W s0 bs i gi.before ∧ Spec.Reached W s0 bs (i + 1) (gi.after W) := by
  obtain ⟨h1, h2, _⟩ := linked_at hl hi
  refine ⟨by rw [← e, List.getElem?_map, hi]; rfl, ⟨_, run_stages.2 ⟨l.take i, h1, by rw [← e, List.map_take], rfl⟩⟩,
    ⟨_, run_stages.2 ⟨l.take i ++ [gi], linked_snoc.2 ⟨h1, h2, rfl⟩, ?_, rfl⟩⟩⟩
  have hlt := (List.getElem?_eq_some_iff.1 hi)
  rw [← e, ← List.map_take, List.take_add_one, hi]
  rfl

end Fastroll.Stf
