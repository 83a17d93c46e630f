import Verif.Host.Lemmas4

/-! Lemmas: requests, new accounts and ejection follow the paper. -/
namespace Fastroll.Host
open Fastroll.Pvm Fastroll.Svc
open Refine (Sound sound_read sound_write sound_bound octets_length octets_get)
open Refine.Paper (CanRead CanWrite octets)
open Pvm.Paper (word)
open Paper (Acct Holds Needs Const Res Acts Answers Offers FirstFree Listed cells little named fresh)

variable {env : Env} {vm : VM} {x : Svc.Ctx Global}

/-- The requests of an account with one replaced, in the two notations. -/
theorem requests_upd (f : LKey → Option (List Nat)) (h : Bytes) (z : Nat) (v : Option (List Nat)) :
    (fun h' z' => upd f (h, z) v (h', z')) = fun h' z' => if h' = h ∧ z' = z then v else f (h', z') := by
  funext h' z'
  simp only [upd, Prod.mk.injEq]

/-- The view after a request of the running service is replaced. -/
theorem put_request {m m' : Meta} (hh : x.p.boxes.metas x.host = some m) (h : Bytes) (z : Nat) (v : Option (List Nat)) (i o : Nat)
    (hm' : m' = { m with items := i, octets := o }) :
    paper (x.setBoxes (withLookup x.p.boxes x.host m' (h, z) v)) =
      (paper x).put (paper x).self ((acct x.p.boxes x.host).map fun a => a.request h z v) := by
  subst hm'
  rw [paper_put (x := x) (bs := withLookup x.p.boxes x.host { m with items := i, octets := o } (h, z) v)
    (m' := { m with items := i, octets := o })
    (fun k hk => by simp [withLookup, upd, hk]) (fun k hk => rfl) (fun k _ => rfl) (fun k hk => upd2_other _ hk _ _) (upd_at _ _ _),
    acct_some hh]
  unfold withLookup Acct.request
  dsimp only
  rw [upd2_self, requests_upd]
  rfl

theorem upd_self {κ α : Type} [DecidableEq κ] (f : κ → Option α) (k : κ) (v : α) (h : f k = some v) : upd f k (some v) = f := by
  funext k'
  simp only [upd]
  split
  · rename_i e; rw [e, h]
  · rfl

/-- A request replaced without touching the counters. -/
theorem put_request' {m : Meta} (hh : x.p.boxes.metas x.host = some m) (h : Bytes) (z : Nat) (v : Option (List Nat)) :
    paper (x.setBoxes { x.p.boxes with lookups := upd2 x.p.boxes.lookups x.host (h, z) v }) =
      (paper x).put (paper x).self ((acct x.p.boxes x.host).map fun a => a.request h z v) := by
  rw [← put_request hh h z v m.items m.octets rfl]
  unfold withLookup
  rw [show ({ m with items := m.items, octets := m.octets } : Meta) = m from rfl, upd_self _ _ _ hh]

theorem expires {y : Nat} (h : y + env.par.expiry < 2 ^ 32) : expiresAt env y = y + env.par.expiry := by
  unfold expiresAt U32; exact Nat.mod_eq_of_lt h

theorem solicit_acts (F : Fit env x) (hg : noGas vm = false) (hm : Sound vm.mem) (h8 : VM.n vm 8 < 2 ^ 32) :
    ActsAs env vm x 23 (hostSolicit mapStore env vm x) := by
  obtain ⟨m, hh⟩ := Option.isSome_iff_exists.1 F.alive
  unfold hostSolicit
  rw [hg]
  simp only [Bool.false_eq_true, if_false]
  rcases readHash_spec hm 7 with ⟨e, hr⟩ | ⟨e, hr⟩
  · simp only [e]
    rcases u32_cases vm 8 with ⟨e8, _⟩ | ⟨_, w8⟩
    · simp only [e8]
      generalize hk : octets vm.mem.abs (VM.n vm 7) 32 = k
      cases h : x.p.boxes.lookups x.host (k, VM.n vm 8) with
      | some ts =>
        simp only [mapStore, h]
        by_cases c : ts.length ≠ 2
        · simp only [if_pos c]
          exact ⟨_, _, rfl, means_ret HUH, .solicitHuh hr (acct_some hh) (by rw [hk]; exact h) c⟩
        · simp only [if_neg c, hh, Option.map_some]
          match ts, h, c with
          | [u, v], h, _ =>
            refine ⟨_, _, rfl, means_ret OK, ?_⟩
            obtain ⟨i, o, hf, b1, b2, U'⟩ := lookup_needs F hh (k, VM.n vm 8) (some [u, v, env.slot]) h8
            have hz : (m.updateFootprints {} (usageDelta ((x.p.boxes.lookups x.host (k, VM.n vm 8)).map fun _ => VM.n vm 8)
                ((some [u, v, env.slot]).map fun _ => VM.n vm 8))).1 = m := by
              rw [h]; unfold Meta.updateFootprints usageDelta; simp
            rw [hz] at hf
            have hi : i = m.items := by have := congrArg Meta.items hf; exact this.symm
            have ho : o = m.octets := by have := congrArg Meta.octets hf; exact this.symm
            subst hi ho
            have hb : deposit m.items m.octets - m.gratis ≤ m.balance := by
              rw [← threshold_eq b2]; exact F.covered _ _ hh
            have act := Acts.solicit (P := consts env) (datum := env.fetch vm) (ϱ := vm.gas) (φ := VM.n vm) (μ := vm.mem.abs) (x := paper x)
              hr (acct_some hh) (.inr ⟨u, v, by rw [hk]; exact h, rfl⟩)
              (needs_of U' rfl (by
                unfold Acct.request withLookup
                dsimp only
                rw [upd2_self, requests_upd, hk]; rfl)) hb
            have e3 := put_request' hh k (VM.n vm 8) (some [u, v, env.slot])
            rw [acct_some hh, Option.map_some] at e3
            rw [hk] at act
            exact cast (congrArg _ e3.symm) act
          | [], _, c => exact absurd (by simp) c
          | [_], _, c => exact absurd (by simp) c
          | _ :: _ :: _ :: _, _, c => exact absurd (by simp) c
      | none =>
        simp only [mapStore, h, hh]
        obtain ⟨i, o, hf, b1, b2, U'⟩ := lookup_needs F hh (k, VM.n vm 8) (some []) h8
        rw [h] at hf
        simp only [Option.map_none, Option.map_some] at hf
        have sim : m.simulate {} (usageDelta none (some (VM.n vm 8))) = deposit i o - m.gratis := by
          unfold Meta.simulate
          rw [hf, threshold_eq b2]
        have hn : ∀ p : Acct, p.storage = x.p.boxes.storage x.host →
            p.requests = (fun h' z' => if h' = k ∧ z' = VM.n vm 8 then some [] else x.p.boxes.lookups x.host (h', z')) →
            Needs p (deposit i o - p.gratis) := fun p h1 h2 =>
          needs_of U' h1 (by rw [h2]; unfold withLookup; dsimp only; rw [upd2_self, requests_upd])
        by_cases c : m.simulate {} (usageDelta none (some (VM.n vm 8))) > m.balance
        · simp only [if_pos c]
          exact ⟨_, _, rfl, means_ret FULL, .solicitFull hr (acct_some hh) (.inl ⟨by rw [hk]; exact h, rfl⟩)
            (hn _ rfl (by rw [hk]; rfl)) (show m.balance < deposit i o - m.gratis by rw [← sim]; exact c)⟩
        · simp only [if_neg c, Option.map_some, hh, hf]
          refine ⟨_, _, rfl, means_ret OK, ?_⟩
          have act := Acts.solicit (P := consts env) (datum := env.fetch vm) (ϱ := vm.gas) (φ := VM.n vm) (μ := vm.mem.abs) (x := paper x)
            hr (acct_some hh) (.inl ⟨by rw [hk]; exact h, rfl⟩) (hn _ rfl (by rw [hk]; rfl))
            (show deposit i o - m.gratis ≤ m.balance by rw [← sim]; omega)
          have e3 := put_request hh k (VM.n vm 8) (some []) i o rfl
          rw [acct_some hh, Option.map_some] at e3
          rw [hk] at act
          exact cast (congrArg _ e3.symm) act
    · omega
  · simp only [e]
    exact ⟨_, _, rfl, means_panic, .solicitPanic hr⟩

theorem drop_acts (F : Fit env x) {m : Meta} (hh : x.p.boxes.metas x.host = some m) (hr : CanRead vm.mem.abs (VM.n vm 7) 32) {ts : List Nat}
    (h8 : VM.n vm 8 < 2 ^ 32)
    (h : x.p.boxes.lookups x.host (octets vm.mem.abs (VM.n vm 7) 32, VM.n vm 8) = some ts)
    (he : ts = [] ∨ ∃ u v, ts = [u, v] ∧ v + env.par.expiry < env.slot) :
    ActsAs env vm x 24 (dropRequest mapStore x x.p.boxes (octets vm.mem.abs (VM.n vm 7) 32) (VM.n vm 8)) := by
  obtain ⟨i, o, hf, b1, b2, U'⟩ := lookup_needs F hh (octets vm.mem.abs (VM.n vm 7) 32, VM.n vm 8) none h8
  rw [h] at hf
  simp only [Option.map_none, Option.map_some] at hf
  unfold dropRequest
  simp only [mapStore, hh, Option.map_some, hf]
  refine ⟨_, _, rfl, means_ret OK, ?_⟩
  have act := Acts.forgetDrop (P := consts env) (datum := env.fetch vm) (ϱ := vm.gas) (φ := VM.n vm) (μ := vm.mem.abs) (x := paper x)
    hr (acct_some hh) h he
  have e3 := paper_put (x := x) (bs := ⟨upd x.p.boxes.metas x.host (some { m with items := i, octets := o }), x.p.boxes.storage,
      upd2 x.p.boxes.preimages x.host (octets vm.mem.abs (VM.n vm 7) 32) none,
      upd2 x.p.boxes.lookups x.host (octets vm.mem.abs (VM.n vm 7) 32, VM.n vm 8) none⟩)
    (m' := { m with items := i, octets := o })
    (fun k hk => by simp [upd, hk]) (fun k hk => rfl) (fun k hk => upd2_other _ hk _ _) (fun k hk => upd2_other _ hk _ _) (upd_at _ _ _)
  dsimp only at e3 ⊢
  rw [e3, upd2_self, upd2_self, requests_upd]
  exact act

theorem forget_acts (F : Fit env x) (hg : noGas vm = false) (hm : Sound vm.mem) : ActsAs env vm x 24 (hostForget mapStore env vm x) := by
  obtain ⟨m, hh⟩ := Option.isSome_iff_exists.1 F.alive
  unfold hostForget
  rw [hg]
  simp only [Bool.false_eq_true, if_false]
  rcases readHash_spec hm 7 with ⟨e, hr⟩ | ⟨e, hr⟩
  · simp only [e]
    rcases u32_cases vm 8 with ⟨e8, h8⟩ | ⟨e8, w8⟩
    · simp only [e8]
      cases h : x.p.boxes.lookups x.host (octets vm.mem.abs (VM.n vm 7) 32, VM.n vm 8) with
      | none =>
        simp only [mapStore, h]
        exact ⟨_, _, rfl, means_ret HUH, .forgetHuh hr (acct_some hh) fun ts ht => absurd (h.symm.trans ht) nofun⟩
      | some ts =>
        obtain ⟨hl, hs⟩ := F.slots _ _ _ h
        have e2 : mapStore.getL x.p.boxes x.host (octets vm.mem.abs (VM.n vm 7) 32, VM.n vm 8) = (some ts, x.p.boxes) := by simp only [mapStore, h]
        simp only [e2]
        have huh : ¬ (ts = [] ∨ (∃ u, ts = [u]) ∨ ∃ u v ws, ts = u :: v :: ws ∧ ws.length ≤ 1 ∧ v + env.par.expiry < env.slot) →
            ActsAs env vm x 24 (.ok (ret HUH), x.setBoxes x.p.boxes) := fun hn =>
          ⟨_, _, rfl, means_ret HUH, .forgetHuh hr (acct_some hh) fun ts' ht => by
            have := h.symm.trans ht; cases this; exact hn⟩
        match ts, h, hl, hs, huh with
        | [], h, _, _, _ => exact drop_acts F hh hr h8 h (.inl rfl)
        | [u], h, _, _, _ =>
          simp only [Store.push, mapStore, h, hh, Option.map_some, List.length_singleton,
            show (1 : Nat) < 3 from by decide, if_true]
          refine ⟨_, _, rfl, means_ret OK, ?_⟩
          have act := Acts.forgetMark (P := consts env) (datum := env.fetch vm) (ϱ := vm.gas) (φ := VM.n vm) (μ := vm.mem.abs) (x := paper x)
            hr (acct_some hh) h
          have e3 := put_request' hh (octets vm.mem.abs (VM.n vm 7) 32) (VM.n vm 8) (some [u, env.slot])
          rw [acct_some hh, Option.map_some] at e3
          exact cast (congrArg _ e3.symm) act
        | [u, v], h, _, hs, huh =>
          dsimp only
          rw [expires (hs v (by simp))]
          by_cases c : v + env.par.expiry < env.slot
          · rw [if_pos c]; exact drop_acts F hh hr h8 h (.inr ⟨u, v, rfl, c⟩)
          · rw [if_neg c]
            refine huh ?_
            rintro (h | ⟨_, h⟩ | ⟨_, _, _, h, _, h'⟩)
            · cases h
            · cases h
            · cases h; exact c h'
        | [u, v, w], h, _, hs, huh =>
          dsimp only
          rw [expires (hs v (by simp))]
          by_cases c : v + env.par.expiry < env.slot
          · simp only [if_pos c, Store.drain, Store.extend, mapStore, h, hh, Option.map_some, upd2_at, upd2_upd2,
              List.length_nil, List.length_cons, List.nil_append, show 0 + (0 + 1 + 1) ≤ 3 from by decide, if_true]
            refine ⟨_, _, rfl, means_ret OK, ?_⟩
            have act := Acts.forgetAgain (P := consts env) (datum := env.fetch vm) (ϱ := vm.gas) (φ := VM.n vm) (μ := vm.mem.abs) (x := paper x)
              hr (acct_some hh) h c
            have e3 := put_request' hh (octets vm.mem.abs (VM.n vm 7) 32) (VM.n vm 8) (some [w, env.slot])
            rw [acct_some hh, Option.map_some] at e3
            exact cast (congrArg _ e3.symm) act
          · rw [if_neg c]
            refine huh ?_
            rintro (h | ⟨_, h⟩ | ⟨_, _, _, h, _, h'⟩)
            · cases h
            · cases h
            · cases h; exact c h'
        | _ :: _ :: _ :: _ :: _, _, hl, _, _ => simp at hl
    · simp only [e8]
      exact ⟨_, _, rfl, means_ret HUH, .forgetHuh hr (acct_some hh) fun ts ht =>
        absurd ((no_long F x.host _ w8).symm.trans ht) nofun⟩
  · simp only [e]
    exact ⟨_, _, rfl, means_panic, .forgetPanic hr⟩

end Fastroll.Host
