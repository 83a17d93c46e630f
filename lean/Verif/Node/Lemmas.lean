import Verif.Node.LemmasFit
import Verif.Delta.PropsAcct
import Verif.Stf.Props
import Verif.Stats.Lemmas3

/-! # Lemmas: the accumulation of a block of the chain is a sequence of rounds -/
namespace Fastroll.Node
open Fastroll.Svc (Global Boxes PState)
variable {σ η ρ : Type} {N : Par σ η ρ}

theorem sane {K : Delta.Consts} {χ : Delta.Chi} {queues : List (List Bytes)} {reports : List Acc.Report} (h : K.total < 2 ^ 64) :
    Acc.Sane reports (Acc.blockGas K.total K.perCore K.cores χ.always) (Delta.abs (Delta.init K χ queues)) :=
  ⟨Nat.max_lt.2 ⟨h, Nat.mod_lt _ (by decide)⟩, Nat.zero_le _, by simp [Delta.abs, Delta.init, Acc.Outer.budget, Acc.tgas]⟩

/-- What the accumulation of a block is. -/
theorem accumulate_trace {i : Stf.AccIn η Realm} {o : Stf.AccOut Realm} (hK : N.K.total < 2 ^ 64) (h : accumulate N i = some o) :
    ∃ (Rs : List Delta.Round) (v : PState Boxes), (∀ R ∈ Rs, R.Faithful (N.delta i.world.accounts i.slot i.entropy)) ∧
      Delta.Chain (Delta.start i.world.χ (i.queues.map fun q => q.map N.oct)) [] Rs v ∧ Delta.AlwaysFirst i.world.χ.always Rs ∧
      Delta.Paced (Acc.blockGas N.K.total N.K.perCore N.K.cores i.world.χ.always) i.reports Rs (i.reports.drop o.count) ∧ o.count ≤ i.reports.length ∧
      o.world = ⟨writeBack i.world.accounts v.boxes, ⟨v.manager, v.assign.confirmed, v.designate.confirmed, v.registrar.confirmed, v.always⟩⟩ ∧
      o.queues = (v.authQueue.map fun q => q.map N.num) ∧ o.staged = (v.staging.map fun l => l.map N.key) ∧
      o.outputs.Pairwise Delta.OutLt ∧ (∀ x, x ∈ o.outputs ↔ ∃ R ∈ Rs, x ∈ R.outputs) ∧
      o.stats = accStats (i.reports.take o.count) (Rs.flatMap fun R => R.counted.map fun r => (r.host, r.gas)) := by
  unfold accumulate at h
  dsimp only at h
  split at h
  · cases h
  · rename_i u hu
    cases h
    obtain ⟨Rs, h1, h2, h3, h4, h5, h6, h7, h8⟩ := Delta.loop_trace _ _ _ (sane hK) hu
    refine ⟨Rs, u.p, h1, h2, h3, h5, h4, rfl, rfl, rfl, h7 List.Pairwise.nil, fun x => ?_, ?_⟩
    · rw [h8]
      constructor
      · rintro (c | c)
        · exact absurd c (by simp [Delta.init])
        · exact c
      · exact .inr
    · rw [h6]; rfl

theorem paced_reports : ∀ {Rs : List Delta.Round} {left : Nat} {todo rest : List Acc.Report}, Delta.Paced left todo Rs rest →
    todo = Rs.flatMap Delta.Round.reports ++ rest
  | [], _, _, _, h => h.1
  | R :: Rs, _, _, _, h => by
    obtain ⟨after, h1, _, _, h4⟩ := h
    rw [h1, paced_reports h4, List.flatMap_cons, List.append_assoc]

theorem take_of_append {α : Type} {l a : List α} {n : Nat} (hn : n ≤ l.length) (h : l = a ++ l.drop n) : a = l.take n := by
  have e := List.take_append_drop n l
  exact List.append_cancel_right (h.symm.trans e.symm)

/-! ## Who is given the slot -/

theorem countIf_filter {α : Type} (p : α → Bool) (l : List α) : Stats.countIf p l = (l.filter p).length := by
  simp only [Stats.countIf]

theorem accDigests_eq (acc : List Acc.Report) (s : Nat) :
    Stats.accDigests s (acc.map fun r => { core := 0, bundleLen := 0, segCount := 0, digests := r.digests.map fun d => { service := d.svc, gas := 0, imports := 0, xts := 0, xtOctets := 0, exports := 0 } }) = workFor acc s := by
  unfold Stats.accDigests workFor
  rw [countIf_filter, List.flatMap_map]
  induction acc with
  | nil => rfl
  | cons r acc ih =>
    rw [List.flatMap_cons, List.filter_append, List.length_append, ih, List.flatMap_cons, List.filter_append, List.length_append]
    congr 1
    show ((r.digests.map _).filter _).length = _
    rw [List.filter_map, List.length_map]
    congr 2

theorem accGas_eq (Rs : List Delta.Round) (s : Nat) :
    Stats.accGas s ((Rs.flatMap fun R => R.counted.map fun r => (r.host, r.gas)).map fun p => (p.1, UInt64.ofNat p.2)) % 2 ^ 64 = spentBy Rs s % 2 ^ 64 := by
  have e : (Rs.flatMap fun R => R.counted.map fun r => (r.host, r.gas)) = (Rs.flatMap Delta.Round.counted).map fun r => (r.host, r.gas) := by
    rw [List.map_flatMap]
  rw [e, List.map_map]
  unfold spentBy Stats.accGas
  induction Rs.flatMap Delta.Round.counted with
  | nil => rfl
  | cons r l ih =>
    simp only [List.map_cons, Stats.sumIf, List.filter_cons, Function.comp] at *
    by_cases c : r.host = s
    · simp only [c, decide_true, if_true, beq_self_eq_true, List.map_cons, List.sum_cons]
      rw [Nat.add_mod, ih, ← Nat.add_mod, UInt64.toNat_ofNat']
      omega
    · simp only [c, decide_false, Bool.false_eq_true, if_false, beq_eq_false_iff_ne.2 c]
      exact ih

theorem stamped_iff (Rs : List Delta.Round) (acc : List Acc.Report) (s : Nat) :
    s ∈ (accStats acc (Rs.flatMap fun R => R.counted.map fun r => (r.host, r.gas))).map Prod.fst ↔ Stamped Rs acc s := by
  unfold accStats
  obtain ⟨_, h⟩ := Stats.fromAccumulated_mem
    (acc.map fun r => { core := 0, bundleLen := 0, segCount := 0, digests := r.digests.map fun d => { service := d.svc, gas := 0, imports := 0, xts := 0, xtOctets := 0, exports := 0 } })
    ((Rs.flatMap fun R => R.counted.map fun r => (r.host, r.gas)).map fun p => (p.1, UInt64.ofNat p.2))
  unfold Stamped
  rw [← accGas_eq, ← accDigests_eq]
  constructor
  · intro hs
    obtain ⟨⟨k, g, n⟩, hm, e⟩ := List.mem_map.1 hs
    cases e
    obtain ⟨e1, e2, e3⟩ := (h _ _ _).1 hm
    rcases e3 with e3 | e3
    · left; intro c; apply e3; rw [e1]; exact UInt64.toNat_inj.1 (by rw [UInt64.toNat_ofNat']; exact c)
    · right; intro c; apply e3; rw [e2]; exact UInt32.toNat_inj.1 (by rw [UInt32.toNat_ofNat']; exact c)
  · intro hs
    refine List.mem_map.2 ⟨(s, _, _), (h _ _ _).2 ⟨rfl, rfl, ?_⟩, rfl⟩
    rcases hs with c | c
    · left; intro e; apply c; have := congrArg UInt64.toNat e; rw [UInt64.toNat_ofNat'] at this; exact this
    · right; intro e; apply c; have := congrArg UInt32.toNat e; rw [UInt32.toNat_ofNat'] at this; exact this

/-! ## Preimages -/

theorem integrate_storage {env : Svc.Env} : ∀ (es : List (Nat × Bytes)) (a : Global), (Svc.integrate env es a).storage = a.storage
  | [], _ => rfl
  | e :: es, a => by
    show (Svc.integrate env es (Svc.integrateOne env a e)).storage = _
    rw [integrate_storage es]
    rcases Svc.integrateOne_cases (env := env) a e with c | ⟨_, _, c⟩ <;> rw [c]

theorem upd2_at {κ ν : Type} [DecidableEq κ] (f : Nat → κ → Option ν) (s : Nat) (k : κ) (v : Option ν) : Svc.upd2 f s k v s k = v := by
  unfold Svc.upd2; rw [if_pos rfl]; exact if_pos rfl

theorem upd2_off {κ ν : Type} [DecidableEq κ] (f : Nat → κ → Option ν) {s x : Nat} {k j : κ} (v : Option ν) (h : ¬ (x = s ∧ j = k)) : Svc.upd2 f s k v x j = f x j := by
  unfold Svc.upd2
  by_cases c : x = s
  · rw [if_pos c]
    subst c
    exact if_neg fun e => h ⟨rfl, e⟩
  · rw [if_neg c]

theorem integrate_effect {env : Svc.Env} : ∀ (es : List (Nat × Bytes)) (a : Global),
    (∀ x h d, (Svc.integrate env es a).preimages x h = some d → a.preimages x h = some d ∨
      ((x, d) ∈ es ∧ h = env.hash d ∧ a.lookups x (h, d.length % 2 ^ 32) = some [])) ∧
    (∀ x k, (Svc.integrate env es a).lookups x k = a.lookups x k ∨
      (a.lookups x k = some [] ∧ (Svc.integrate env es a).lookups x k = some [env.slot] ∧ ∃ d, (x, d) ∈ es ∧ k = (env.hash d, d.length % 2 ^ 32)))
  | [], a => ⟨fun x h d e => .inl e, fun x k => .inl rfl⟩
  | e :: es, a => by
    show (∀ x h d, (Svc.integrate env es (Svc.integrateOne env a e)).preimages x h = some d → _) ∧ (∀ x k, (Svc.integrate env es (Svc.integrateOne env a e)).lookups x k = _ ∨
      (_ ∧ (Svc.integrate env es (Svc.integrateOne env a e)).lookups x k = some [env.slot] ∧ _))
    obtain ⟨h1, h2⟩ := integrate_effect (env := env) es (Svc.integrateOne env a e)
    have hl : ∀ x k, (Svc.integrateOne env a e).lookups x k = a.lookups x k ∨
        (a.lookups x k = some [] ∧ (Svc.integrateOne env a e).lookups x k = some [env.slot] ∧ x = e.1 ∧ k = (env.hash e.2, e.2.length % 2 ^ 32)) := by
      intro x k
      rcases Svc.integrateOne_cases (env := env) a e with c | ⟨c1, c2, c⟩ <;> rw [c]
      · exact .inl rfl
      · by_cases hx : x = e.1 ∧ k = (env.hash e.2, e.2.length % Svc.U32)
        · obtain ⟨rfl, rfl⟩ := hx
          exact .inr ⟨c2, upd2_at .., rfl, rfl⟩
        · left; exact upd2_off _ _ hx
    refine ⟨fun x h d hd => ?_, fun x k => ?_⟩
    · rcases h1 x h d hd with k | ⟨k1, k2, k3⟩
      · rcases Svc.integrateOne_cases (env := env) a e with c | ⟨c1, c2, c⟩ <;> rw [c] at k
        · exact .inl k
        · by_cases hx : x = e.1 ∧ h = env.hash e.2
          · obtain ⟨rfl, rfl⟩ := hx
            have k := (upd2_at ..).symm.trans k
            injection k with k
            subst k
            exact .inr ⟨List.mem_cons_self .., rfl, c2⟩
          · left; exact (upd2_off _ _ hx).symm.trans k
      · refine .inr ⟨List.mem_cons_of_mem _ k1, k2, ?_⟩
        rcases hl x (h, d.length % 2 ^ 32) with c | ⟨_, c, _⟩
        · rw [← c]; exact k3
        · rw [c] at k3; cases k3
    · rcases hl x k with c | ⟨c1, c2, c3, c4⟩
      · rcases h2 x k with m | ⟨m1, m2, d, m3, m4⟩
        · exact .inl (m.trans c)
        · exact .inr ⟨c ▸ m1, m2, d, List.mem_cons_of_mem _ m3, m4⟩
      · rcases h2 x k with m | ⟨m1, _⟩
        · exact .inr ⟨c1, m.trans c2, e.2, by rw [c3]; exact List.mem_cons_self .., c4⟩
        · rw [c2] at m1; cases m1

theorem wanted_lookup {hash : Bytes → Bytes} {a : Global} {e : Nat × Bytes} (h : wanted hash a e = true) : a.lookups e.1 (hash e.2, e.2.length % 2 ^ 32) = some [] := by
  unfold wanted at h
  simp only [Bool.and_eq_true, beq_iff_eq] at h
  exact h.2

/-! ## A block -/

theorem writeBack_eq {g a : Global} {bs : Boxes} (h : Delta.WrittenBack g bs a) : writeBack g bs = a := by
  obtain ⟨h1, h2, h3, h4⟩ := h
  apply Svc.Global.ext
  · funext s; show (Svc.applyMeta g bs s).getD none = _; rw [h1]; rfl
  · funext s k; show (Svc.applyStorage g bs s k).getD none = _; rw [h2]; rfl
  · funext s k; show (Svc.applyPreimages g bs s k).getD none = _; rw [h3]; rfl
  · funext s k; show (Svc.applyLookups g bs s k).getD none = _; rw [h4]; rfl

/-- An accepted block executes rounds; its accounts are what they wrote back, with the slot and the preimages. -/
theorem stage_executed {g : Stf.Stage σ η ρ Realm (List (Nat × Bytes))} (hK : N.K.total < 2 ^ 64) (h : g.Ok (world N)) :
    ∃ Rs v, Executed N g.before g.blk g.acc (g.after (world N)) Rs v ∧ g.blk.preimages.all (wanted N.blake g.before.world.accounts) = true ∧
      ∃ ids, (∀ s, s ∈ ids ↔ Stamped Rs g.acc s) ∧
        (g.after (world N)).world.accounts = Svc.integrate (N.base g.blk.slot) g.blk.preimages (Delta.stamp g.blk.slot ids (writeBack g.before.world.accounts v.boxes)) := by
  have m1 : g.mid.world = g.before.world := by rw [h.mid]; rfl
  have m2 : g.mid.queues = g.before.queues := by rw [h.mid]; rfl
  have m3 : g.mid.slot = g.blk.slot := by rw [h.mid]; rfl
  have m4 : g.mid.e0 = g.before.e0 := by rw [h.mid]; rfl
  have ha : accumulate N (Stf.accIn (world N) g.mid g.blk g.parts.available) = some g.parts.out := h.post.accumulated
  obtain ⟨Rs, v, h1, h2, h3, h4, h5, h6, h7, h8, h9, h10, h11⟩ := accumulate_trace hK ha
  have hr : Rs.flatMap Delta.Round.reports = g.acc := take_of_append h5 (paced_reports h4)
  have hp : preimages N g.before.world (touch g.parts.out.world (g.parts.out.stats.map Prod.fst) g.mid.slot) g.mid.slot g.blk.preimages = some g.parts.world := h.post.preimages
  unfold preimages at hp
  split at hp
  case isFalse => cases hp
  rename_i hw
  simp only [Bool.and_eq_true] at hw
  injection hp with hp
  have hacc : (Stf.accIn (world N) g.mid g.blk g.parts.available).reports.take g.parts.out.count = g.acc := rfl
  rw [hacc] at h11
  refine ⟨Rs, v, ⟨?_, ?_, ?_, hr, ?_, h7, ?_, h9, h10⟩, hw.2, g.parts.out.stats.map Prod.fst, fun s => by rw [h11]; exact stamped_iff Rs g.acc s, ?_⟩
  · intro R hR
    have := h1 R hR
    dsimp only [Stf.accIn] at this
    rw [m1, m3, m4] at this
    exact this
  · dsimp only [Stf.accIn] at h2
    rw [m1, m2] at h2
    exact h2
  · dsimp only [Stf.accIn] at h3
    rw [m1] at h3
    exact h3
  · show g.parts.world.χ = _
    rw [← hp]; exact congrArg Realm.χ h6
  · rw [Stf.after_staging h, h8]
  · show g.parts.world.accounts = _
    rw [← hp, ← m1, ← m3]
    show Svc.integrate _ _ (Delta.stamp _ _ g.parts.out.world.accounts) = _
    rw [congrArg Realm.accounts h6]; rfl

theorem stage_accounted {g : Stf.Stage σ η ρ Realm (List (Nat × Bytes))} {Rs : List Delta.Round} {v : PState Boxes} {ids : List Nat} {a : Global}
    (hw : g.blk.preimages.all (wanted N.blake g.before.world.accounts) = true) (hi : ∀ s, s ∈ ids ↔ Stamped Rs g.acc s)
    (he : (g.after (world N)).world.accounts = Svc.integrate (N.base g.blk.slot) g.blk.preimages (Delta.stamp g.blk.slot ids (writeBack g.before.world.accounts v.boxes)))
    (hb : Delta.WrittenBack g.before.world.accounts v.boxes a) : Accounted N g.before g.blk g.acc (g.after (world N)) Rs v a := by
  rw [writeBack_eq hb] at he
  have hm : (g.after (world N)).world.accounts.metas = (Delta.stamp g.blk.slot ids a).metas := by rw [he, Delta.integrate_metas]
  obtain ⟨k1, k2⟩ := integrate_effect (env := N.base g.blk.slot) g.blk.preimages (Delta.stamp g.blk.slot ids a)
  refine ⟨hb, fun x hx => ?_, fun x hx => ?_, ?_, fun x h d hd => ?_, fun x k => ?_⟩
  · rw [hm]
    show (if ids.contains x then _ else _) = _
    rw [if_pos (List.contains_iff_mem.2 ((hi x).2 hx))]
  · rw [hm]
    show (if ids.contains x then _ else _) = _
    rw [if_neg (fun c => hx ((hi x).1 (List.contains_iff_mem.1 c)))]
  · rw [he, integrate_storage]; rfl
  · rw [he] at hd
    rcases k1 x h d hd with c | ⟨c1, c2, c3⟩
    · exact .inl c
    · refine .inr ⟨c1, c2, ?_, c3⟩
      have := wanted_lookup (List.all_eq_true.1 hw _ c1)
      rw [c2]; exact this
  · rw [he]; exact k2 x k

end Fastroll.Node
