import Verif.Host.Lemmas2

/-! Lemmas: the functions on accounts follow the paper. -/
namespace Fastroll.Host
open Fastroll.Pvm Fastroll.Svc
open Refine (Sound sound_read sound_write sound_bound octets_length octets_get)
open Refine.Paper (CanRead CanWrite octets)
open Pvm.Paper (word)
open Paper (Acct Holds Needs Const Res Acts Answers Offers FirstFree Listed cells little named fresh)

variable {env : Env} {vm : VM} {x : Svc.Ctx Global}

/-- A readable range is short. -/
theorem readable_short (hm : Sound vm.mem) {a n : Nat} (h : CanRead vm.mem.abs a n) : n ≤ 2 ^ 32 := by
  refine Nat.le_of_not_lt fun c => ?_
  have := sound_bound hm (a + n - 1) (h _ (by omega) (by omega))
  omega

theorem paper_put {bs : Global} {m' : Meta} (h0 : ∀ k, k ≠ x.host → bs.metas k = x.p.boxes.metas k)
    (h1 : ∀ k, k ≠ x.host → bs.storage k = x.p.boxes.storage k) (h2 : ∀ k, k ≠ x.host → bs.preimages k = x.p.boxes.preimages k)
    (h3 : ∀ k, k ≠ x.host → bs.lookups k = x.p.boxes.lookups k) (h : bs.metas x.host = some m') :
    paper (x.setBoxes bs) = (paper x).put (paper x).self (some
      { code := m'.codeHash, balance := m'.balance, minAcc := m'.gasAcc, minMemo := m'.gasXfer, gratis := m'.gratis,
        created := m'.created, last := m'.lastAcc, parent := m'.parent, storage := bs.storage x.host, preimages := bs.preimages x.host,
        requests := fun h z => bs.lookups x.host (h, z) }) := by
  rw [put_eq x bs x.host fun k hk => acct_congr (h0 k hk) (h1 k hk) (h2 k hk) (h3 k hk), acct_some h]
  rfl

theorem upgrade_acts (F : Fit env x) (hg : noGas vm = false) (hm : Sound vm.mem) : ActsAs env vm x 19 (hostUpgrade mapStore env vm x) := by
  obtain ⟨m, hh⟩ := Option.isSome_iff_exists.1 F.alive
  unfold hostUpgrade
  rw [hg]
  simp only [Bool.false_eq_true, if_false]
  rcases readHash_spec hm 7 with ⟨e, hr⟩ | ⟨e, hr⟩
  · simp only [e, mapStore, hh, Option.map_some]
    refine ⟨_, _, rfl, means_ret OK, ?_⟩
    have := Acts.upgrade (P := consts env) (datum := env.fetch vm) (ϱ := vm.gas) (φ := VM.n vm) (x := paper x) hr (acct_some hh)
    have e2 := paper_put (x := x)
      (bs := ⟨upd x.p.boxes.metas x.host (some { m with codeHash := octets vm.mem.abs (VM.n vm 7) 32, gasAcc := VM.n vm 8, gasXfer := VM.n vm 9 }),
        x.p.boxes.storage, x.p.boxes.preimages, x.p.boxes.lookups⟩)
      (fun k hk => by simp [upd, hk]) (fun k _ => rfl) (fun k _ => rfl) (fun k _ => rfl) (upd_at _ _ _)
    exact cast (congrArg _ e2.symm) this
  · simp only [e]
    exact ⟨_, _, rfl, means_panic, .upgradePanic hr⟩

theorem query_acts (F : Fit env x) (hg : noGas vm = false) (hm : Sound vm.mem) : ActsAs env vm x 22 (hostQuery mapStore env vm x) := by
  obtain ⟨m, hh⟩ := Option.isSome_iff_exists.1 F.alive
  unfold hostQuery
  rw [hg]
  simp only [Bool.false_eq_true, if_false]
  rcases readHash_spec hm 7 with ⟨e, hr⟩ | ⟨e, hr⟩
  · simp only [e]
    rcases u32_cases vm 8 with ⟨e8, w8⟩ | ⟨e8, w8⟩
    · simp only [e8]
      cases h : x.p.boxes.lookups x.host (octets vm.mem.abs (VM.n vm 7) 32, VM.n vm 8) with
      | none =>
        simp only [mapStore, h]
        exact ⟨.ret NONE (some 0) none 0, _, rfl, rfl, .queryNone hr (acct_some hh) h⟩
      | some ts =>
        have hl := (F.slots _ _ _ h).1
        have e2 : mapStore.getL x.p.boxes x.host (octets vm.mem.abs (VM.n vm 7) 32, VM.n vm 8) = (some ts, x.p.boxes) := by simp only [mapStore, h]
        simp only [e2]
        match ts, h, hl with
        | [], h, _ => exact ⟨.ret 0 (some 0) none 0, _, rfl, rfl, .query0 hr (acct_some hh) h⟩
        | [u], h, _ =>
          refine ⟨_, _, rfl, ?_, .query1 hr (acct_some hh) h⟩
          rw [Nat.mul_comm (2 ^ 32)]; rfl
        | [u, v], h, _ =>
          refine ⟨_, _, rfl, ?_, .query2 hr (acct_some hh) h⟩
          rw [Nat.mul_comm (2 ^ 32)]; rfl
        | [u, v, w], h, _ =>
          refine ⟨_, _, rfl, ?_, .query3 hr (acct_some hh) h⟩
          rw [Nat.mul_comm (2 ^ 32) u, Nat.mul_comm (2 ^ 32) w]; rfl
        | _ :: _ :: _ :: _ :: _, _, hl => simp at hl
    · simp only [e8]
      refine ⟨.ret NONE (some 0) none 0, _, rfl, rfl, .queryNone hr (acct_some hh) ?_⟩
      show x.p.boxes.lookups x.host (_, VM.n vm 8) = none
      cases h : x.p.boxes.lookups x.host (octets vm.mem.abs (VM.n vm 7) 32, VM.n vm 8) with
      | none => rfl
      | some ts => exact absurd (F.lens _ _ _ _ h) (by omega)
  · simp only [e]
    exact ⟨_, _, rfl, means_panic, .queryPanic hr⟩

theorem no_long (F : Fit env x) (s : Nat) (k : Bytes) {z : Nat} (h : 2 ^ 32 ≤ z) : x.p.boxes.lookups s (k, z) = none := by
  cases h' : x.p.boxes.lookups s (k, z) with
  | none => rfl
  | some ts => exact absurd (F.lens _ _ _ _ h') (by omega)

theorem provide_acts (F : Fit env x) (hg : noGas vm = false) (hm : Sound vm.mem) (h8 : VM.n vm 8 < 2 ^ 32 ∨ VM.n vm 9 ≠ 0)
    (h9 : VM.n vm 9 ≠ 2 ^ 32) : ActsAs env vm x 26 (hostProvide mapStore env vm x) := by
  unfold hostProvide
  rw [hg]
  simp only [Bool.false_eq_true, if_false]
  rcases u32_cases vm 8 with ⟨e8, _⟩ | ⟨e8, w8⟩
  · simp only [e8]
    rcases read_at hm 8 (VM.n vm 9) with ⟨e, hr⟩ | ⟨e, hr⟩
    · simp only [e]
      have hlen : VM.n vm 9 % U32 = VM.n vm 9 := by
        have := readable_short hm hr
        unfold U32; omega
      rcases target_cases vm x with t | ⟨t, t1, t2⟩
      · simp only [t, mapStore]
        cases h : x.p.boxes.metas (named (paper x) (VM.n vm 7)) with
        | none => exact ⟨_, _, rfl, means_ret WHO, .provideWho hr (acct_none h)⟩
        | some m =>
          simp only [hlen]
          cases hl : x.p.boxes.lookups (named (paper x) (VM.n vm 7)) (env.hash (octets vm.mem.abs (VM.n vm 8) (VM.n vm 9)), VM.n vm 9) with
          | none =>
            refine ⟨_, _, rfl, means_ret HUH, .provideHuh hr (acct_some h) (.inl ?_)⟩
            show x.p.boxes.lookups _ _ ≠ _
            rw [show (consts env).hash = env.hash from rfl, hl]; exact nofun
          | some ts =>
            dsimp only
            by_cases c : ts.length ≠ 0
            · rw [if_pos c]
              refine ⟨_, _, rfl, means_ret HUH, .provideHuh hr (acct_some h) (.inl ?_)⟩
              show x.p.boxes.lookups _ _ ≠ _
              rw [show (consts env).hash = env.hash from rfl, hl]
              intro e; cases e; exact c rfl
            · rw [if_neg c]
              have ht : ts = [] := by
                cases ts with
                | nil => rfl
                | cons _ _ => simp at c
              subst ht
              by_cases d : (named (paper x) (VM.n vm 7), octets vm.mem.abs (VM.n vm 8) (VM.n vm 9)) ∈ x.provided
              · rw [if_pos d]
                exact ⟨_, _, rfl, means_ret HUH, .provideHuh hr (acct_some h) (.inr d)⟩
              · rw [if_neg d]
                refine ⟨_, _, rfl, means_ret OK, ?_⟩
                have := Acts.provide (P := consts env) (datum := env.fetch vm) (ϱ := vm.gas) (φ := VM.n vm) (x := paper x) hr (acct_some h) hl d
                have e2 : paper { x.setBoxes x.p.boxes with provided := x.provided ++ [(named (paper x) (VM.n vm 7), octets vm.mem.abs (VM.n vm 8) (VM.n vm 9))] } =
                    { paper x with provided := fun s d => (s = named (paper x) (VM.n vm 7) ∧ d = octets vm.mem.abs (VM.n vm 8) (VM.n vm 9)) ∨ (paper x).provided s d } := by
                  unfold paper Ctx.setBoxes
                  congr 1
                  funext s d
                  dsimp only
                  apply propext
                  simp only [List.mem_append, List.mem_singleton, Prod.mk.injEq]
                  exact Or.comm
                rw [e2]; exact this
      · simp only [t]
        exact ⟨_, _, rfl, means_ret WHO, .provideWho hr (by rw [t1]; exact acct_none (F.wide t2))⟩
    · simp only [e]
      exact ⟨_, _, rfl, means_panic, .providePanic hr⟩
  · simp only [e8]
    exact ⟨_, _, rfl, means_panic, .providePanic (wide_unreadable hm (h8.resolve_left (by omega)) w8)⟩

theorem transfer_acts (F : Fit env x) (hg : noGas vm = false) (hm : Sound vm.mem) (h10 : VM.n vm 10 < 2 ^ 32 ∨ env.par.memo ≠ 0)
    (hmax : vm.gas < 2 ^ 63 - 1) : ActsAs env vm x 20 (hostTransfer mapStore env vm x) := by
  obtain ⟨m, hh⟩ := Option.isSome_iff_exists.1 F.alive
  unfold hostTransfer
  rw [hg]
  simp only [Bool.false_eq_true, if_false]
  rcases u32_cases vm 10 with ⟨e10, _⟩ | ⟨e10, w10⟩
  · simp only [e10]
    rcases read_at hm 10 env.par.memo with ⟨e, hr⟩ | ⟨e, hr⟩
    · simp only [e]
      rcases u32_cases vm 7 with ⟨e7, _⟩ | ⟨e7, w7⟩
      · simp only [e7, mapStore]
        cases h : x.p.boxes.metas (VM.n vm 7) with
        | none => exact ⟨_, _, rfl, means_ret WHO, .transferWho hr (acct_none h)⟩
        | some dm =>
          simp only [hh]
          by_cases c : VM.n vm 9 < dm.gasXfer
          · rw [if_pos c]
            exact ⟨_, _, rfl, means_ret LOW, .transferLow hr (acct_some h) c⟩
          · rw [if_neg c]
            obtain ⟨a, h1, h2, _, _, h3⟩ := F.needs hh
            by_cases d : m.balance < VM.n vm 8 ∨ m.balance - VM.n vm 8 < m.threshold
            · rw [if_pos d]
              exact ⟨_, _, rfl, means_ret CASH, .transferCash hr (acct_some h) (Nat.le_of_not_lt c) h1 h3 (by rw [h2]; omega)⟩
            · rw [if_neg d]
              by_cases g : vm.gas < (min (min (BASE_GAS + VM.n vm 9) (U64 - 1)) (2 ^ 63 - 1) : Nat)
              · rw [if_pos g]
                refine ⟨.outOfGas, _, rfl, rfl, .transferGas hr (acct_some h) (Nat.le_of_not_lt c) h1 h3 (by rw [h2]; omega) ?_⟩
                unfold BASE_GAS U64 at g; omega
              · rw [if_neg g]
                have hgas : ((10 + VM.n vm 9 : Nat) : Int) ≤ vm.gas := by unfold BASE_GAS U64 at g; omega
                have hle : VM.n vm 8 ≤ m.balance := by omega
                simp only [subBalance, hh, if_pos hle, Option.map_some]
                refine ⟨.ret 0 none none (VM.n vm 9), _, rfl, ?_, ?_⟩
                · have : min (BASE_GAS + VM.n vm 9) (U64 - 1) = BASE_GAS + VM.n vm 9 := by unfold BASE_GAS U64; omega
                  rw [this]; rfl
                · have := Acts.transfer (P := consts env) (datum := env.fetch vm) (x := paper x) hr (acct_some h) (Nat.le_of_not_lt c) h1 h3
                    (by rw [h2]; omega) hgas
                  rw [acct_some hh] at h1
                  cases h1
                  have e2 := paper_put (x := x)
                    (bs := ⟨upd x.p.boxes.metas x.host (some { m with balance := m.balance - VM.n vm 8 }), x.p.boxes.storage, x.p.boxes.preimages, x.p.boxes.lookups⟩)
                    (m' := { m with balance := m.balance - VM.n vm 8 })
                    (fun k hk => by simp [upd, hk]) (fun k _ => rfl) (fun k _ => rfl) (fun k _ => rfl) (by simp [upd])
                  have e3 : ∀ (y : Svc.Ctx Global) (t : Transfer), paper { y with transfers := y.transfers ++ [t] } =
                      { paper y with transfers := (paper y).transfers ++ [⟨t.src, t.dst, t.amount, t.memo, t.gas⟩] } := by
                    intro y t
                    unfold paper
                    congr 1
                    simp
                  have e4 := e3 (x.setBoxes ⟨upd x.p.boxes.metas x.host (some { m with balance := m.balance - VM.n vm 8 }), x.p.boxes.storage, x.p.boxes.preimages, x.p.boxes.lookups⟩)
                    ⟨x.host, VM.n vm 7, VM.n vm 8, octets vm.mem.abs (VM.n vm 10) env.par.memo, VM.n vm 9⟩
                  rw [e2] at e4
                  refine cast ?_ this
                  congr 1
                  exact e4.symm
      · simp only [e7]
        exact ⟨_, _, rfl, means_ret WHO, .transferWho hr (acct_none (F.wide w7))⟩
    · simp only [e]
      exact ⟨_, _, rfl, means_panic, .transferPanic hr⟩
  · simp only [e10]
    exact ⟨_, _, rfl, means_panic, .transferPanic (wide_unreadable hm (h10.resolve_left (by omega)) w10)⟩

end Fastroll.Host
