import Verif.Svc.PropsMerge
import Verif.Pvm.PropsInterp

/-! # Lemmas: what a service pays for the transfers it leaves behind -/
namespace Fastroll.Delta
open Fastroll.Pvm Fastroll.Svc

/-- Ten units and the gas carried, for each transfer. -/
def cost (ts : List Transfer) : Nat := (ts.map Transfer.gas).sum + 10 * ts.length

/-- A host table never raises `κ` by more than it charges, and what it raises is paid at once. -/
def HostPays {σ : Type} (host : Host σ) (κ : σ → Nat) : Prop :=
  ∀ h vm s res s', host h vm s = (.ok res, s') →
    κ s' ≤ κ s ∨ (res.exit = .cont ∧ (res.charge < 2 ^ 63 → κ s' ≤ κ s + res.charge ∧ (res.charge : Int) ≤ vm.gas))

theorem applyHost_ok {vm vm' : VM} {c : HostResult} {post : Int} (h : vm.applyHost c = (.ok post, vm')) :
    c.charge < 2 ^ 63 ∧ vm'.gas = vm.gas - c.charge ∧ post = vm'.gas := by
  have key : ∀ v : VM, v.charge c.charge = (.ok post, vm') → c.charge < 2 ^ 63 ∧ vm'.gas = v.gas - c.charge ∧ post = vm'.gas := by
    intro v hv
    rcases charge_spec v c.charge with ⟨e, he⟩ | ⟨h1, he⟩
    · rw [he] at hv; cases hv
    · rw [he] at hv; cases hv; exact ⟨h1, rfl, rfl⟩
  unfold VM.applyHost at h
  cases hm : c.mem with
  | none => rw [hm] at h; exact key { vm with regs := setReg (setReg vm.regs 7 c.r7) 8 c.r8 } h
  | some w =>
    obtain ⟨off, bytes⟩ := w
    rw [hm] at h
    simp only at h
    split at h
    · cases h
    · have := key _ h; exact this

variable {σ : Type} {host : Host σ} {κ : σ → Nat}

theorem extIter_pays (H : HostPays host κ) (p : Prog) (fuel : Nat) (vm : VM) (s : σ) {o : ExtOut} {vm' : VM} {s' : σ}
    (h : extIter p host fuel vm s = (o, vm', s')) (ho : o = .continue ∨ ∃ e, o = .done (.ok e)) :
    (κ s' : Int) + max 0 vm'.gas ≤ κ s + max 0 vm.gas := by
  unfold extIter at h
  rcases hr : runFuel p fuel vm with ⟨r, v1⟩
  rw [hr] at h
  cases r with
  | none => cases h; rcases ho with h | ⟨_, h⟩ <;> cases h
  | some r =>
    have g := runFuel_some fuel vm r v1 hr
    cases r with
    | error e => cases h; rcases ho with h | ⟨_, h⟩ <;> cases h
    | ok ex =>
      cases ex with
      | hostCall n =>
        have g1 := g.1
        have g2 := g.2.2.2.1 n rfl
        simp only at h
        rcases hh : host n v1 s with ⟨res, s1⟩
        rw [hh] at h
        cases res with
        | error e => cases h; rcases ho with h | ⟨_, h⟩ <;> cases h
        | ok res =>
          simp only at h
          have hp := H n v1 s res s1 hh
          rcases ha : v1.applyHost res with ⟨post, v2⟩
          rw [ha] at h
          by_cases c : res.exit = .cont
          · rw [if_pos c] at h
            cases post with
            | error e => cases h; rcases ho with h | ⟨_, h⟩ <;> cases h
            | ok post =>
              obtain ⟨a1, a2, a3⟩ := applyHost_ok ha
              have : (κ s1 : Int) + max 0 v2.gas ≤ κ s + max 0 vm.gas := by
                rcases hp with hp | ⟨_, hp⟩
                · omega
                · have := hp a1; omega
              simp only at h
              split at h <;> (cases h; exact this)
          · rw [if_neg c] at h
            have hk : κ s1 ≤ κ s := by
              rcases hp with hp | ⟨hp, _⟩
              · exact hp
              · exact absurd hp c
            by_cases c2 : res.exit = .panic ∨ res.exit = .halt ∨ res.exit = .outOfGas
            · rw [if_pos c2] at h
              cases post with
              | error e => cases h; rcases ho with h | ⟨_, h⟩ <;> cases h
              | ok post =>
                obtain ⟨a1, a2, a3⟩ := applyHost_ok ha
                cases h
                omega
            · rw [if_neg c2] at h
              cases h; rcases ho with h | ⟨_, h⟩ <;> cases h
      | _ => cases h; have := g.1; omega

theorem extRun_pays (H : HostPays host κ) (p : Prog) (fuel : Nat) : ∀ (n : Nat) (vm : VM) (s : σ) {e : Exit} {vm' : VM} {s' : σ},
    extRun p host fuel n vm s = (.done (.ok e), vm', s') → (κ s' : Int) + max 0 vm'.gas ≤ κ s + max 0 vm.gas := by
  intro n
  induction n with
  | zero => intro vm s e vm' s' h; cases h
  | succ n ih =>
    intro vm s e vm' s' h
    unfold extRun at h
    rcases hi : extIter p host fuel vm s with ⟨o, v1, s1⟩
    rw [hi] at h
    cases o with
    | «continue» =>
      have h1 := extIter_pays H p fuel vm s hi (.inl rfl)
      have h2 := ih v1 s1 h
      omega
    | stuck => cases h
    | done r =>
      cases h
      exact extIter_pays H p fuel vm s hi (.inr ⟨e, rfl⟩)

/-- What an invocation leaves behind is paid for out of the gas it reports as used. -/
theorem invoke_pays (H : HostPays host κ) {p : Prog} {init : Option VM} {pc limit : Nat} {s s' : σ} {out : Output} {used : Nat}
    (hl : limit < 2 ^ 64) (h : invokeWithArgs p host init pc limit s = (.ok (out, used), s')) (h0 : κ s = 0) :
    used ≤ limit ∧ κ s' ≤ used := by
  refine ⟨C12_gas_used p host init pc limit s s' out used hl h, ?_⟩
  unfold invokeWithArgs at h
  cases init with
  | none => cases h; omega
  | some vm =>
    simp only at h
    rcases he : extRun p host ((asI64 limit).toNat + 1) ((asI64 limit).toNat + 1) { vm with pc := pc, gas := asI64 limit } s with ⟨o, vm', s2⟩
    rw [he] at h
    cases o with
    | «continue» => cases h
    | stuck => cases h
    | done r =>
      cases r with
      | error e => cases h
      | ok ex =>
        have hp := extRun_pays H p _ _ _ s he
        have hle : max 0 (asI64 limit) ≤ limit := by unfold asI64; split <;> omega
        have hk : κ s2 ≤ (limit + 2 ^ 64 - (max 0 vm'.gas).toNat) % 2 ^ 64 := by
          have hp' : (κ s2 : Int) + max 0 vm'.gas ≤ κ s + max 0 (asI64 limit) := hp
          omega
        simp only at h
        repeat' split at h
        all_goals first
          | (cases h; done)
          | (cases h; exact hk)

/-! ## The table of `accumulate` -/

variable {β : Type} {S : Store β} {env : Env}

/-- Nothing was sent. -/
def Silent (x x' : Ctx β) : Prop := x'.transfers = x.transfers

theorem Silent.boxes (x : Ctx β) (bs : β) : Silent x (x.setBoxes bs) := rfl

local macro "silent" f:ident : tactic =>
  `(tactic| (unfold $f; repeat' (first | exact Silent.boxes _ _ | exact rfl | split | (dsimp only; split))))

theorem silent_gas {vm : VM} (x : Ctx β) : Silent x (hostGas env vm x).2 := by silent hostGas
theorem silent_fetch {vm : VM} (x : Ctx β) : Silent x (hostFetch env vm x).2 := by silent hostFetch
theorem silent_lookup {vm : VM} (x : Ctx β) : Silent x (hostLookup S env vm x).2 := by silent hostLookup
theorem silent_read {vm : VM} (x : Ctx β) : Silent x (hostRead S env vm x).2 := by silent hostRead
theorem silent_write {vm : VM} (x : Ctx β) : Silent x (hostWrite S env vm x).2 := by silent hostWrite
theorem silent_info {vm : VM} (x : Ctx β) : Silent x (hostInfo S env vm x).2 := by silent hostInfo
theorem silent_bless {vm : VM} (x : Ctx β) : Silent x (hostBless env vm x).2 := by silent hostBless
theorem silent_assign {vm : VM} (x : Ctx β) : Silent x (hostAssign env vm x).2 := by silent hostAssign
theorem silent_designate {vm : VM} (x : Ctx β) : Silent x (hostDesignate env vm x).2 := by silent hostDesignate
theorem silent_new {vm : VM} (x : Ctx β) : Silent x (hostNew S env vm x).2 := by silent hostNew
theorem silent_upgrade {vm : VM} (x : Ctx β) : Silent x (hostUpgrade S env vm x).2 := by silent hostUpgrade
theorem silent_eject {vm : VM} (x : Ctx β) : Silent x (hostEject S env vm x).2 := by silent hostEject
theorem silent_query {vm : VM} (x : Ctx β) : Silent x (hostQuery S env vm x).2 := by silent hostQuery
theorem silent_solicit {vm : VM} (x : Ctx β) : Silent x (hostSolicit S env vm x).2 := by silent hostSolicit
theorem silent_drop (x : Ctx β) (bs : β) (hash : Bytes) (len : Nat) : Silent x (dropRequest S x bs hash len).2 := by
  unfold dropRequest; dsimp only; split <;> exact rfl
theorem silent_forget {vm : VM} (x : Ctx β) : Silent x (hostForget S env vm x).2 := by
  unfold hostForget
  repeat' (first | exact silent_drop _ _ _ _ | exact rfl | split | (dsimp only; split))
theorem silent_yield {vm : VM} (x : Ctx β) : Silent x (hostYield env vm x).2 := by silent hostYield
theorem silent_provide {vm : VM} (x : Ctx β) : Silent x (hostProvide S env vm x).2 := by silent hostProvide

theorem silent_fn {h : Nat} {f : HostFn β} (hf : accFn S h = some f) (h20 : h ≠ 20) (vm : VM) (x : Ctx β) : Silent x (f env vm x).2 := by
  unfold accFn at hf
  by_cases c : h = 0
  · rw [if_pos c] at hf; cases hf; exact silent_gas x
  rw [if_neg c] at hf; clear c
  by_cases c : h = 1
  · rw [if_pos c] at hf; cases hf; exact silent_fetch x
  rw [if_neg c] at hf; clear c
  by_cases c : h = 2
  · rw [if_pos c] at hf; cases hf; exact silent_lookup x
  rw [if_neg c] at hf; clear c
  by_cases c : h = 3
  · rw [if_pos c] at hf; cases hf; exact silent_read x
  rw [if_neg c] at hf; clear c
  by_cases c : h = 4
  · rw [if_pos c] at hf; cases hf; exact silent_write x
  rw [if_neg c] at hf; clear c
  by_cases c : h = 5
  · rw [if_pos c] at hf; cases hf; exact silent_info x
  rw [if_neg c] at hf; clear c
  by_cases c : h = 14
  · rw [if_pos c] at hf; cases hf; exact silent_bless x
  rw [if_neg c] at hf; clear c
  by_cases c : h = 15
  · rw [if_pos c] at hf; cases hf; exact silent_assign x
  rw [if_neg c] at hf; clear c
  by_cases c : h = 16
  · rw [if_pos c] at hf; cases hf; exact silent_designate x
  rw [if_neg c] at hf; clear c
  by_cases c : h = 18
  · rw [if_pos c] at hf; cases hf; exact silent_new x
  rw [if_neg c] at hf; clear c
  by_cases c : h = 19
  · rw [if_pos c] at hf; cases hf; exact silent_upgrade x
  rw [if_neg c] at hf; clear c
  rw [if_neg h20] at hf
  by_cases c : h = 21
  · rw [if_pos c] at hf; cases hf; exact silent_eject x
  rw [if_neg c] at hf; clear c
  by_cases c : h = 22
  · rw [if_pos c] at hf; cases hf; exact silent_query x
  rw [if_neg c] at hf; clear c
  by_cases c : h = 23
  · rw [if_pos c] at hf; cases hf; exact silent_solicit x
  rw [if_neg c] at hf; clear c
  by_cases c : h = 24
  · rw [if_pos c] at hf; cases hf; exact silent_forget x
  rw [if_neg c] at hf; clear c
  by_cases c : h = 25
  · rw [if_pos c] at hf; cases hf; exact silent_yield x
  rw [if_neg c] at hf; clear c
  by_cases c : h = 26
  · rw [if_pos c] at hf; cases hf; exact silent_provide x
  rw [if_neg c] at hf; cases hf

theorem cost_append (ts us : List Transfer) : cost (ts ++ us) = cost ts + cost us := by
  unfold cost; simp only [List.map_append, List.sum_append, List.length_append]; omega

theorem transfer_pays (vm : VM) (x : Ctx β) {res : HostResult} (h : (hostTransfer S env vm x).1 = .ok res) :
    (hostTransfer S env vm x).2.transfers = x.transfers ∨
    (res.exit = .cont ∧ (res.charge < 2 ^ 63 →
      cost (hostTransfer S env vm x).2.transfers ≤ cost x.transfers + res.charge ∧ (res.charge : Int) ≤ vm.gas)) := by
  unfold hostTransfer at h ⊢
  split
  · exact .inl rfl
  rename_i c0
  rw [if_neg c0] at h
  dsimp only at h ⊢
  cases h1 : u32? vm 10 with
  | none => exact .inl rfl
  | some a =>
    rw [h1] at h
    dsimp only at h ⊢
    cases h2 : readMem vm a env.par.memo with
    | none => exact .inl rfl
    | some memo =>
      rw [h2] at h
      dsimp only at h ⊢
      cases h3 : u32? vm 7 with
      | none => exact .inl rfl
      | some dest =>
        rw [h3] at h
        dsimp only at h ⊢
        rcases h4 : S.info x.p.boxes dest with ⟨_ | dm, bs⟩
        · exact .inl rfl
        · rw [h4] at h
          dsimp only at h ⊢
          rcases h5 : S.info bs x.host with ⟨_ | am, bs2⟩
          · exact .inl rfl
          · rw [h5] at h
            dsimp only at h ⊢
            split
            · exact .inl rfl
            rename_i c1
            rw [if_neg c1] at h
            split
            · exact .inl rfl
            rename_i c2
            rw [if_neg c2] at h
            split
            · exact .inl rfl
            rename_i c3
            rw [if_neg c3] at h
            cases h6 : subBalance S bs2 x.host (VM.n vm 8) with
            | none => exact .inl rfl
            | some bs3 =>
              rw [h6] at h
              dsimp only at h ⊢
              cases h
              refine .inr ⟨rfl, fun hc => ?_⟩
              rw [cost_append]
              have hc' : min (BASE_GAS + VM.n vm 9) (Svc.U64 - 1) < 2 ^ 63 := hc
              have hcost : cost [{ src := x.host, dst := dest, amount := VM.n vm 8, memo := memo, gas := VM.n vm 9 }] = VM.n vm 9 + 10 := by
                simp [cost]
              show cost x.transfers + _ ≤ cost x.transfers + min (BASE_GAS + VM.n vm 9) (Svc.U64 - 1) ∧ ((min (BASE_GAS + VM.n vm 9) (Svc.U64 - 1) : Nat) : Int) ≤ vm.gas
              rw [hcost]
              have hb : BASE_GAS = 10 := rfl
              have hu : Svc.U64 = 2 ^ 64 := rfl
              rw [hb, hu] at hc' c3 ⊢
              omega

/-- The dearer of the two contexts. -/
def pairCost (q : Pair β) : Nat := max (cost q.x.transfers) (cost q.y.transfers)

theorem accHost_pays : HostPays (accHost S env) (pairCost (β := β)) := by
  intro h vm q res q' hc
  rcases accHost_cases S env h vm q with c | ⟨_, c⟩ | ⟨f, c1, c2⟩
  · rw [hc] at c; cases c; exact .inl (Nat.le_refl _)
  · rw [hc] at c; subst c
    left
    show max (cost q.x.transfers) (cost q.x.transfers) ≤ max _ _
    omega
  · rw [hc] at c2
    injection c2 with d1 d2
    subst d2
    by_cases c : h = 20
    · have hf : f = hostTransfer S := by
        subst c
        have : accFn S 20 = some (hostTransfer S) := rfl
        rw [this] at c1; cases c1; rfl
      subst hf
      rcases transfer_pays vm q.x d1.symm with e | ⟨e1, e2⟩
      · left
        show max (cost _) (cost _) ≤ max _ _
        rw [e]; exact Nat.le_refl _
      · refine .inr ⟨e1, fun hl => ?_⟩
        obtain ⟨k1, k2⟩ := e2 hl
        refine ⟨?_, k2⟩
        show max (cost _) (cost _) ≤ max _ _ + _
        dsimp only
        omega
    · left
      have e : (f env vm q.x).2.transfers = q.x.transfers := silent_fn c1 c vm q.x
      show max (cost _) (cost _) ≤ max _ _
      rw [e]; exact Nat.le_refl _

/-- **One accumulation** uses at most its limit, and has paid for the transfers it leaves behind. -/
theorem accumulate_pays {g : Global} {mach : Machine} {p : PState Boxes} {a : AccArgs} {r : AccResult}
    (hl : a.gasLimit < 2 ^ 64) (h : accumulate g env mach p a = .ok (some r)) : r.gas ≤ a.gasLimit ∧ cost r.transfers ≤ r.gas := by
  rcases accumulate_cases h with ⟨bs, e⟩ | ⟨bs, id, prog, init, out, used, q', e1, e2⟩
  · subst e; exact ⟨Nat.zero_le _, Nat.le_refl _⟩
  · obtain ⟨k1, k2⟩ := invoke_pays (accHost_pays (S := boxStore g) (env := env)) hl e1 rfl
    have k3 : max (cost q'.x.transfers) (cost q'.y.transfers) ≤ used := k2
    subst e2
    unfold select
    cases out <;> dsimp only <;> exact ⟨k1, by omega⟩

end Fastroll.Delta
