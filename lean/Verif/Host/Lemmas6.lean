import Verif.Host.Lemmas5

/-! Lemmas: new accounts and ejection follow the paper. -/
namespace Fastroll.Host
open Fastroll.Pvm Fastroll.Svc
open Refine (Sound sound_read sound_write sound_bound octets_length octets_get)
open Refine.Paper (CanRead CanWrite octets)
open Pvm.Paper (word)
open Paper (Acct Holds Needs Const Res Acts Answers Offers FirstFree Listed cells little named fresh)

variable {env : Env} {vm : VM} {x : Svc.Ctx Global}

/-- The view after two accounts are replaced. -/
theorem put2_eq (bs : Global) {s t : Nat} {a b : Option Acct} (h : ∀ k, k ≠ s → k ≠ t → acct bs k = acct x.p.boxes k)
    (hs : s ≠ t) (ha : acct bs s = a) (hb : acct bs t = b) :
    paper (x.setBoxes bs) = ((paper x).put s a).put t b := by
  unfold paper Paper.Ctx.put Ctx.setBoxes
  congr 1
  funext k
  dsimp only
  by_cases c : k = t
  · rw [if_pos c, c, hb]
  · rw [if_neg c]
    by_cases d : k = s
    · rw [if_pos d, d, ha]
    · rw [if_neg d]; exact h k d c

theorem upd_ne {κ α : Type} [DecidableEq κ] (f : κ → Option α) {k k' : κ} (h : k' ≠ k) (v : Option α) : upd f k v k' = f k' := by
  simp [upd, h]

theorem little_zero (n : Nat) {k : Nat} (h : n < 256 ^ k) (j : Nat) : little (k + j) n = little k n ++ List.replicate j 0 := by
  unfold little
  rw [List.range_add, List.map_append, List.map_map]
  congr 1
  rw [List.eq_replicate_iff]
  refine ⟨by simp, fun b hb => ?_⟩
  obtain ⟨i, _, rfl⟩ := List.mem_map.1 hb
  have : n / 256 ^ (k + i) = 0 := Nat.div_eq_of_lt (Nat.lt_of_lt_of_le h (Nat.pow_le_pow_right (by decide) (by omega)))
  simp only [Function.comp, this]
  rfl

theorem host_hash (F : Fit env x) : hostAsHash x.host = little 32 x.host := by
  have := F.ids x.host F.alive
  unfold hostAsHash
  rw [le_leBytes, show (32 : Nat) = 4 + 28 from rfl, little_zero x.host (k := 4) (by omega)]

theorem eject_view {m : Meta} (hh : x.p.boxes.metas x.host = some m) {e : Nat} (hs : x.host ≠ e) (b : Nat) :
    paper (x.setBoxes ⟨upd (upd x.p.boxes.metas x.host (some { m with balance := m.balance + b })) e none,
      clear x.p.boxes.storage e, clear x.p.boxes.preimages e, clear x.p.boxes.lookups e⟩) =
      ((paper x).put x.host ((acct x.p.boxes x.host).map fun a => { a with balance := a.balance + b })).put e none := by
  refine put2_eq (x := x) _ ?_ hs ?_ ?_
  · intro k h1 h2
    exact acct_congr (by simp [upd, h1, h2]) (clear_other _ h2) (clear_other _ h2) (clear_other _ h2)
  · rw [acct_some (m := { m with balance := m.balance + b }) (by simp [upd, hs]), acct_some hh]
    dsimp only
    rw [clear_other _ hs, clear_other _ hs, clear_other _ hs]
    rfl
  · exact acct_none (by simp [upd])

theorem eject_acts (F : Fit env x) (hg : noGas vm = false) (hm : Sound vm.mem) : ActsAs env vm x 21 (hostEject mapStore env vm x) := by
  obtain ⟨m, hh⟩ := Option.isSome_iff_exists.1 F.alive
  unfold hostEject
  rw [hg]
  simp only [Bool.false_eq_true, if_false]
  rcases readHash_spec hm 8 with ⟨e, hr⟩ | ⟨e, hr⟩
  · simp only [e]
    rcases u32_cases vm 7 with ⟨e7, _⟩ | ⟨e7, w7⟩
    · simp only [e7]
      by_cases hs : VM.n vm 7 = x.host
      · rw [if_pos hs]
        exact ⟨_, _, rfl, means_ret WHO, .ejectWho hr (.inl hs)⟩
      · rw [if_neg hs]
        cases h : x.p.boxes.metas (VM.n vm 7) with
        | none =>
          simp only [mapStore, h]
          exact ⟨_, _, rfl, means_ret WHO, .ejectWho hr (.inr (.inl (acct_none h)))⟩
        | some d =>
          have e2 : mapStore.info x.p.boxes (VM.n vm 7) = (some d, x.p.boxes) := by simp only [mapStore, h]
          simp only [e2]
          by_cases hc : d.codeHash ≠ hostAsHash x.host
          · rw [if_pos hc]
            exact ⟨_, _, rfl, means_ret WHO, .ejectWho hr (.inr (.inr ⟨_, acct_some h, (host_hash F) ▸ hc⟩))⟩
          · rw [if_neg hc]
            have hc' : d.codeHash = little 32 x.host := by rw [← host_hash F]; exact Decidable.not_not.1 hc
            have huh : ¬ (d.items = 2 ∧ ∃ u v, x.p.boxes.lookups (VM.n vm 7) (octets vm.mem.abs (VM.n vm 8) 32, max 81 d.octets - 81) =
                some [u, v] ∧ v + env.par.expiry < env.slot) →
                ActsAs env vm x 21 (.ok (ret HUH), x.setBoxes x.p.boxes) := fun hn =>
              ⟨_, _, rfl, means_ret HUH, .ejectHuh hr hs (acct_some h) hc' (holds_of (F.sound.exact _ _ h) rfl rfl) hn⟩
            by_cases hz : max 81 d.octets - 81 ≥ U32
            · rw [if_pos hz]
              exact huh fun ⟨_, u, v, hl, _⟩ => absurd ((no_long F _ _ hz).symm.trans hl) nofun
            · rw [if_neg hz]
              by_cases hi : d.items ≠ 2
              · rw [if_pos hi]
                exact huh fun ⟨h, _⟩ => hi h
              · rw [if_neg hi]
                have hi' : d.items = 2 := Decidable.not_not.1 hi
                cases hl : x.p.boxes.lookups (VM.n vm 7) (octets vm.mem.abs (VM.n vm 8) 32, max 81 d.octets - 81) with
                | none =>
                  simp only [mapStore, hl]
                  exact huh fun ⟨_, u, v, hl', _⟩ => absurd (hl.symm.trans hl') nofun
                | some ts =>
                  have e3 : mapStore.getL x.p.boxes (VM.n vm 7) (octets vm.mem.abs (VM.n vm 8) 32, max 81 d.octets - 81) =
                    (some ts, x.p.boxes) := by simp only [mapStore, hl]
                  simp only [e3]
                  by_cases hx : ts.length ≠ 2 ∨ expiresAt env (ts.getD 1 0) ≥ env.slot
                  · rw [if_pos hx]
                    refine huh fun ⟨_, u, v, hl', hv⟩ => ?_
                    have := hl.symm.trans hl'
                    cases this
                    rcases hx with hx | hx
                    · exact hx rfl
                    · have : expiresAt env v ≥ env.slot := hx
                      rw [expires ((F.slots _ _ _ hl).2 v (by simp))] at this
                      omega
                  · rw [if_neg hx]
                    match ts, hl, hx with
                    | [u, v], hl, hx =>
                      have hx2 : v + env.par.expiry < env.slot := by
                        have : ¬ expiresAt env v ≥ env.slot := fun h => hx (.inr h)
                        rw [expires ((F.slots _ _ _ hl).2 v (by simp))] at this
                        omega
                      have hb : m.balance + d.balance < U64 := F.funds _ _ _ _ (Ne.symm hs) hh h
                      simp only [addBalance, mapStore, hh, if_pos hb, Option.map_some, upd_ne _ hs, h]
                      refine ⟨_, _, rfl, means_ret OK, ?_⟩
                      have act := Acts.eject (P := consts env) (datum := env.fetch vm) (ϱ := vm.gas) (φ := VM.n vm) (μ := vm.mem.abs)
                        (x := paper x) hr hs (acct_some h) hc' (hi' ▸ holds_of (F.sound.exact _ _ h) rfl rfl) hl hx2 (acct_some hh)
                      have e4 := eject_view hh (Ne.symm hs) d.balance
                      rw [acct_some hh, Option.map_some] at e4
                      exact cast (congrArg _ e4.symm) act
                    | [], _, hx => exact absurd (.inl (by simp)) hx
                    | [_], _, hx => exact absurd (.inl (by simp)) hx
                    | _ :: _ :: _ :: _, _, hx => exact absurd (.inl (by simp)) hx
    · simp only [e7]
      exact ⟨_, _, rfl, means_ret WHO, .ejectWho hr (.inr (.inl (acct_none (F.wide w7))))⟩
  · simp only [e]
    exact ⟨_, _, rfl, means_panic, .ejectPanic hr⟩

/-- The search on plain maps: first free, if any is free. -/
theorem check_first (a : Global) {id r : Nat} (hp : Public id) (hr : Public r) (hf : a.metas r = none) :
    ∃ n, checkId mapStore a id = some n ∧ FirstFree (acct a) id n := by
  have h1 := checkLoop_iff mapStore a RING id hp
  have hk : ∃ k, k < RING ∧ onRing id k = r := by
    refine ⟨(r - MIN_ID + (RING - (id - MIN_ID))) % RING, Nat.mod_lt _ (by decide), ?_⟩
    obtain ⟨p1, p2⟩ := hp
    obtain ⟨r1, r2⟩ := hr
    unfold onRing
    rw [Nat.add_mod_mod, show id - MIN_ID + (r - MIN_ID + (RING - (id - MIN_ID))) = r - MIN_ID + RING by omega,
      Nat.add_mod_right, Nat.mod_eq_of_lt (by omega)]
    omega
  obtain ⟨k, hk, e⟩ := hk
  have least : ∀ n, (∃ k, k ≤ n ∧ k < RING ∧ a.metas (onRing id k) = none) →
      ∃ k, k < RING ∧ a.metas (onRing id k) = none ∧ ∀ j, j < k → a.metas (onRing id j) ≠ none := by
    intro n
    induction n with
    | zero =>
      rintro ⟨k, h0, h1, h2⟩
      exact ⟨k, h1, h2, fun j hj => absurd hj (by omega)⟩
    | succ n ih =>
      rintro ⟨k, h0, h1, h2⟩
      by_cases c : ∃ k, k ≤ n ∧ k < RING ∧ a.metas (onRing id k) = none
      · exact ih c
      · exact ⟨k, h1, h2, fun j hj hf => c ⟨j, by omega, by omega, hf⟩⟩
  obtain ⟨k', a1, a2, a3⟩ := least k ⟨k, Nat.le_refl _, hk, by rw [e]; exact hf⟩
  refine ⟨onRing id k', (h1 _).2 ⟨k', a1, rfl, ?_, fun j hj => ?_⟩, k', ?_, acct_none a2, fun j hj => ?_⟩
  · simp only [mapStore, a2]; rfl
  · exact Option.isSome_iff_ne_none.2 (a3 j hj)
  · unfold onRing RING MIN_ID; omega
  · have : 2 ^ 16 + (id - 2 ^ 16 + j) % (2 ^ 32 - 2 ^ 16 - 2 ^ 8) = onRing id j := by unfold onRing RING MIN_ID; omega
    rw [this, acct_isSome]
    exact Option.isSome_iff_ne_none.2 (a3 j hj)

/-- The accounts after one is paid for and added. -/
def withNew (a : Global) (host : Nat) (m : Meta) (id : Nat) (b : Meta) (k : LKey) : Global :=
  { metas := upd (upd a.metas host (some m)) id (some b), storage := clear a.storage id, preimages := clear a.preimages id,
    lookups := upd2 (clear a.lookups id) id k (some []) }

theorem new_usage (a : Global) (host : Nat) (m : Meta) (id : Nat) (b : Meta) (k : LKey) :
    Usage (withNew a host m id b k) id 2 (81 + k.2) := by
  refine usage_one (ts := []) (fun k' => ?_) fun k' => ?_
  · unfold withNew; dsimp only; rw [clear_self]
  · unfold withNew; dsimp only; rw [upd2_self, clear_self]; rfl

theorem new_view {m : Meta} (hh : x.p.boxes.metas x.host = some m) {id : Nat} (hn : x.p.boxes.metas id = none) (u : Nat) (c : Bytes) (l g t f : Nat) :
    paper (x.setBoxes (withNew x.p.boxes x.host { m with balance := m.balance - u } id (newMeta c u g t f l env.slot x.host) (c, l))) =
      ((paper x).put x.host ((acct x.p.boxes x.host).map fun a => { a with balance := a.balance - u })).put id
        (some (fresh (consts env) (paper x) c l g t f u)) := by
  have hs : x.host ≠ id := fun h => by rw [h, hn] at hh; cases hh
  refine put2_eq (x := x) _ ?_ hs ?_ ?_
  · intro k h1 h2
    refine acct_congr ?_ (clear_other _ h2) (clear_other _ h2) ((upd2_other _ h2 _ _).trans (clear_other _ h2))
    simp [withNew, upd, h1, h2]
  · rw [acct_some (m := { m with balance := m.balance - u }) (by simp [withNew, upd, hs]), acct_some hh]
    unfold withNew
    dsimp only
    rw [clear_other _ hs, clear_other _ hs, upd2_other _ hs, clear_other _ hs]
    rfl
  · rw [acct_some (m := newMeta c u g t f l env.slot x.host) (by simp [withNew, upd])]
    unfold withNew fresh newMeta
    dsimp only
    rw [clear_self, clear_self, upd2_self, clear_self, requests_upd]
    rfl

theorem sub_map {a : Global} {s : Nat} {m : Meta} (h : a.metas s = some m) {u : Nat} (hu : u ≤ m.balance) :
    subBalance mapStore a s u = some ⟨upd a.metas s (some { m with balance := m.balance - u }), a.storage, a.preimages, a.lookups⟩ := by
  simp only [subBalance, mapStore, h, if_pos hu, Option.map_some]

theorem add_map (a : Global) (s : Nat) (m : Meta) (id : Nat) (b : Meta) (k : LKey) :
    addAccount mapStore ⟨upd a.metas s (some m), a.storage, a.preimages, a.lookups⟩ id b k = some (withNew a s m id b k) := by
  simp only [addAccount, mapStore, upd_at, Option.map_some]
  rfl

/-- The part of `new` after the search. -/
theorem rotate_run {a : Global} {id n : Nat} (h : checkId mapStore a ((id - MIN_ID + 42) % RING + MIN_ID) = some n) :
    rotateId mapStore a id = some n := by
  unfold rotateId; exact h

theorem new_acts (F : Fit env x) (hg : noGas vm = false) (hm : Sound vm.mem) : ActsAs env vm x 18 (hostNew mapStore env vm x) := by
  obtain ⟨m, hh⟩ := Option.isSome_iff_exists.1 F.alive
  unfold hostNew
  rw [hg]
  simp only [Bool.false_eq_true, if_false]
  rcases u32_cases vm 7 with ⟨e7, _⟩ | ⟨e7, w7⟩
  · rcases u32_cases vm 8 with ⟨e8, h8⟩ | ⟨e8, w8⟩
    · simp only [e7, e8]
      rcases read_at hm 7 32 with ⟨e, hr⟩ | ⟨e, hr⟩
      · simp only [e]
        by_cases hf : VM.n vm 11 ≠ 0 ∧ x.host ≠ x.p.manager
        · rw [if_pos hf]
          exact ⟨_, _, rfl, means_ret HUH, .newHuh ⟨hr, h8⟩ ⟨hf.1, Ne.symm hf.2⟩⟩
        · rw [if_neg hf]
          have hf' : ¬ (VM.n vm 11 ≠ 0 ∧ x.p.manager ≠ x.host) := fun h => hf ⟨h.1, Ne.symm h.2⟩
          have e2 : mapStore.info x.p.boxes x.host = (some m, x.p.boxes) := by simp only [mapStore, hh]
          simp only [e2]
          generalize hc : octets vm.mem.abs (VM.n vm 7) 32 = c
          generalize hu : initialThreshold (VM.n vm 8) (VM.n vm 11) = u
          have hu' : u = deposit 2 (81 + VM.n vm 8) - VM.n vm 11 := by
            rw [← hu]; unfold initialThreshold deposit U64; omega
          have hN : Needs (fresh (consts env) (paper x) c (VM.n vm 8) (VM.n vm 9) (VM.n vm 10) (VM.n vm 11) u) u := by
            have := needs_of (p := fresh (consts env) (paper x) c (VM.n vm 8) (VM.n vm 9) (VM.n vm 10) (VM.n vm 11) u)
              (new_usage x.p.boxes 0 m 0 m (c, VM.n vm 8)) (by unfold withNew fresh; dsimp only; rw [clear_self])
              (by unfold withNew fresh; dsimp only; rw [upd2_self, clear_self, requests_upd])
            rw [hu'] at this ⊢; exact this
          obtain ⟨a, h1, h2, _, _, h3⟩ := F.needs hh
          have hcov := F.covered _ _ hh
          by_cases d : m.balance - m.threshold < u
          · rw [if_pos d]
            exact ⟨_, _, rfl, means_ret CASH, .newCash ⟨hr, h8⟩ hf' h1 h3 (by rw [hc]) hN (by rw [h2]; omega)⟩
          · rw [if_neg d]
            have hb : m.threshold + u ≤ a.balance := by rw [h2]; omega
            have hle : u ≤ m.balance := by omega
            generalize hsm : (u32? vm 12).getD (U32 - 1) = small
            have hsmall : small < MIN_ID → small = VM.n vm 12 := by
              rcases u32_cases vm 12 with ⟨e12, _⟩ | ⟨e12, w12⟩ <;> rw [e12] at hsm
              · intro _; exact hsm.symm
              · intro h; rw [Option.getD_none] at hsm; unfold MIN_ID at h; unfold U32 at hsm; omega
            have hsmall' : VM.n vm 12 < 2 ^ 16 → small = VM.n vm 12 := by
              rcases u32_cases vm 12 with ⟨e12, _⟩ | ⟨e12, w12⟩ <;> rw [e12] at hsm
              · intro _; exact hsm.symm
              · intro h; omega
            rw [acct_some hh] at h1
            have e5 : mapStore.existsAct x.p.boxes small = ((x.p.boxes.metas small).isSome, x.p.boxes) := rfl
            simp only [e5]
            by_cases hS : small < MIN_ID ∧ x.host = x.p.registrar.current
            · have e12 := hsmall hS.1
              have hreg : (paper x).registrar = (paper x).self ∧ VM.n vm 12 < 2 ^ 16 := ⟨hS.2.symm, e12 ▸ hS.1⟩
              cases ht : x.p.boxes.metas small with
              | some sm =>
                rw [if_pos ⟨hS, rfl⟩]
                exact ⟨_, _, rfl, means_ret FULL, .newFull ⟨hr, h8⟩ hf' ((acct_some hh).trans h1) h3 (by rw [hc]) hN hb hreg (by
                  show (acct x.p.boxes (VM.n vm 12)).isSome = true
                  rw [acct_isSome, ← e12, ht]; rfl)⟩
              | none =>
                rw [if_neg (fun h => absurd h.2 (by simp))]
                simp only [sub_map hh hle, if_pos hS, add_map]
                refine ⟨_, _, rfl, means_ret small, ?_⟩
                have act := Acts.newSmall (P := consts env) (datum := env.fetch vm) (ϱ := vm.gas) (φ := VM.n vm) (μ := vm.mem.abs)
                  (x := paper x) ⟨hr, h8⟩ hf' ((acct_some hh).trans h1) h3 (by rw [hc]) hN hb hreg (acct_none (e12 ▸ ht))
                have e3 := new_view (env := env) hh ht u c (VM.n vm 8) (VM.n vm 9) (VM.n vm 10) (VM.n vm 11)
                rw [acct_some hh, h1] at e3
                rw [← e12] at act
                exact cast (congrArg _ e3.symm) act
            · rw [if_neg (fun h => hS h.1)]
              simp only [sub_map hh hle, if_neg hS, add_map]
              obtain ⟨hp, hn⟩ := F.next
              have hring : 2 ^ 16 + ((paper x).next - 2 ^ 16 + 42) % (2 ^ 32 - 2 ^ 16 - 2 ^ 8) = (x.nextId - MIN_ID + 42) % RING + MIN_ID := by
                show 2 ^ 16 + (x.nextId - 2 ^ 16 + 42) % (2 ^ 32 - 2 ^ 16 - 2 ^ 8) = _
                unfold RING MIN_ID; omega
              obtain ⟨r, r1, r2, r3⟩ := F.free
              have hrh : r ≠ x.host := fun h => by rw [h, hh] at r3; cases r3
              obtain ⟨n, n1, n2⟩ := check_first (withNew x.p.boxes x.host { m with balance := m.balance - u } x.nextId
                  (newMeta c u (VM.n vm 9) (VM.n vm 10) (VM.n vm 11) (VM.n vm 8) env.slot x.host) (c, VM.n vm 8))
                (id := (x.nextId - MIN_ID + 42) % RING + MIN_ID) (onRing_public x.nextId 42) r1 (by simp [withNew, upd, r2, r3, hrh])
              have n3 := rotate_run n1
              generalize rotateId mapStore _ x.nextId = o at n3 ⊢
              subst n3
              refine ⟨_, _, rfl, means_ret x.nextId, ?_⟩
              have e3 := new_view (env := env) hh hn u c (VM.n vm 8) (VM.n vm 9) (VM.n vm 10) (VM.n vm 11)
              rw [acct_some hh, h1] at e3
              have act := Acts.new (P := consts env) (datum := env.fetch vm) (ϱ := vm.gas) (φ := VM.n vm) (μ := vm.mem.abs)
                  (x := paper x) (n := n) ⟨hr, h8⟩ hf' ((acct_some hh).trans h1) h3 (by rw [hc]) hN hb
                  (fun h => hS ⟨by rw [hsmall' h.2]; exact h.2, h.1.symm⟩) e3 (by
                    rw [hring]; exact n2)
              exact act
      · simp only [e]
        exact ⟨_, _, rfl, means_panic, .newPanic fun h => hr h.1⟩
    · simp only [e7, e8]
      exact ⟨_, _, rfl, means_panic, .newPanic fun h => by omega⟩
  · rw [e7]
    cases u32? vm 8 <;>
      exact ⟨_, _, rfl, means_panic, .newPanic fun h => wide_unreadable hm (by decide) w7 h.1⟩

end Fastroll.Host
