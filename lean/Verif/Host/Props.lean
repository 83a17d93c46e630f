import Verif.Host.Lemmas6
import Verif.Host.Lemmas7
import Verif.Svc.PropsRef

/-!
# C65: the host functions of accumulation do what the Gray Paper says
-/
namespace Fastroll.Host
open Fastroll.Pvm Fastroll.Svc
open Refine (Sound sound_read sound_write sound_bound octets_length octets_get)
open Refine.Paper (CanRead CanWrite octets)
open Paper (Acct Holds Needs Const Res Acts Answers Offers FirstFree Listed cells little named fresh)

/-- Address registers below `2^32` where the range they start may be empty; lengths below `2^32` where they
become a key. -/
def Sized (env : Env) (h : Nat) (vm : VM) : Prop :=
  (h = 1 → VM.n vm 7 < 2 ^ 32) ∧ (h = 2 → VM.n vm 9 < 2 ^ 32) ∧
  (h = 3 → VM.n vm 10 < 2 ^ 32 ∧ (VM.n vm 8 < 2 ^ 32 ∨ VM.n vm 9 ≠ 0)) ∧
  (h = 4 → (VM.n vm 7 < 2 ^ 32 ∨ VM.n vm 8 ≠ 0) ∧ (VM.n vm 9 < 2 ^ 32 ∨ VM.n vm 10 ≠ 0)) ∧ (h = 5 → VM.n vm 8 < 2 ^ 32) ∧
  (h = 14 → (VM.n vm 8 < 2 ^ 32 ∨ env.par.cores ≠ 0) ∧ (VM.n vm 11 < 2 ^ 32 ∨ VM.n vm 12 ≠ 0)) ∧
  (h = 15 → VM.n vm 8 < 2 ^ 32 ∨ env.par.authQueue ≠ 0) ∧ (h = 16 → VM.n vm 7 < 2 ^ 32 ∨ env.par.keySize * env.par.validators ≠ 0) ∧
  (h = 20 → VM.n vm 10 < 2 ^ 32 ∨ env.par.memo ≠ 0) ∧ (h = 23 → VM.n vm 8 < 2 ^ 32) ∧
  (h = 26 → (VM.n vm 8 < 2 ^ 32 ∨ VM.n vm 9 ≠ 0) ∧ VM.n vm 9 ≠ 2 ^ 32)

/-- A call the theorem covers, in the state it is made in. -/
structure Ready (env : Env) (h : Nat) (vm : VM) (q : Pair Global) : Prop where
  fit : Fit env q.x
  mem : Sound vm.mem
  gas : 10 ≤ vm.gas
  most : vm.gas < 2 ^ 63 - 1
  sized : Sized env h vm

theorem table_follows {env : Env} {vm : VM} {q : Pair Global} {h : Nat} {f : HostFn Global} (hf : accFn mapStore h = some f) (h17 : h ≠ 17)
    (a : ActsAs env vm q.x h (f env vm q.x)) : Follows env vm q h (accHost mapStore env h vm q) := by
  obtain ⟨res, r, e, m, a⟩ := a
  unfold accHost
  rw [if_neg h17, hf]
  exact ⟨res, r, e, m, .acts a⟩

/-- **Every host call answers as the Gray Paper says** and changes both contexts as it says, on accounts kept as
plain maps; in particular no call of this kind aborts the accumulation. Not covered: the calls `Sized` and `Fit`
exclude, see the theorems below. -/
theorem C65_calls_partial (env : Env) (h : Nat) (vm : VM) (q : Pair Global) (R : Ready env h vm q) :
    Follows env vm q h (accHost mapStore env h vm q) := by
  obtain ⟨F, hm, hg', hmax, s1, s2, s3, s4, s5, s14, s15, s16, s20, s23, s26⟩ := R
  have hg : noGas vm = false := by
    unfold noGas BASE_GAS; exact decide_eq_false (by omega)
  by_cases c17 : h = 17
  · subst c17
    unfold accHost
    rw [if_pos rfl]
    unfold hostCheckpoint
    rw [hg]
    exact ⟨_, _, rfl, means_ret _, .checkpoint⟩
  by_cases c0 : h = 0
  · subst c0; exact table_follows rfl (by decide) (gas_acts hg)
  by_cases c1 : h = 1
  · subst c1; exact table_follows rfl (by decide) (fetch_acts hg hm (s1 rfl))
  by_cases c2 : h = 2
  · subst c2; exact table_follows rfl (by decide) (lookup_acts F hg hm (s2 rfl))
  by_cases c3 : h = 3
  · subst c3; exact table_follows rfl (by decide) (read_acts F hg hm (s3 rfl).1 (s3 rfl).2)
  by_cases c4 : h = 4
  · subst c4; exact table_follows rfl (by decide) (write_acts F hg hm (s4 rfl).1 (s4 rfl).2)
  by_cases c5 : h = 5
  · subst c5; exact table_follows rfl (by decide) (info_acts F hg hm (s5 rfl))
  by_cases c14 : h = 14
  · subst c14; exact table_follows rfl (by decide) (bless_acts hg hm (s14 rfl).1 (s14 rfl).2)
  by_cases c15 : h = 15
  · subst c15; exact table_follows rfl (by decide) (assign_acts F hg hm (s15 rfl))
  by_cases c16 : h = 16
  · subst c16; exact table_follows rfl (by decide) (designate_acts hg hm (s16 rfl))
  by_cases c18 : h = 18
  · subst c18; exact table_follows rfl (by decide) (new_acts F hg hm)
  by_cases c19 : h = 19
  · subst c19; exact table_follows rfl (by decide) (upgrade_acts F hg hm)
  by_cases c20 : h = 20
  · subst c20; exact table_follows rfl (by decide) (transfer_acts F hg hm (s20 rfl) hmax)
  by_cases c21 : h = 21
  · subst c21; exact table_follows rfl (by decide) (eject_acts F hg hm)
  by_cases c22 : h = 22
  · subst c22; exact table_follows rfl (by decide) (query_acts F hg hm)
  by_cases c23 : h = 23
  · subst c23; exact table_follows rfl (by decide) (solicit_acts F hg hm (s23 rfl))
  by_cases c24 : h = 24
  · subst c24; exact table_follows rfl (by decide) (forget_acts F hg hm)
  by_cases c25 : h = 25
  · subst c25; exact table_follows rfl (by decide) (yield_acts hg hm)
  by_cases c26 : h = 26
  · subst c26; exact table_follows rfl (by decide) (provide_acts F hg hm (s26 rfl).1 (s26 rfl).2)
  have hn : accFn (β := Global) mapStore h = none := by
    unfold accFn
    simp only [c0, c1, c2, c3, c4, c5, c14, c15, c16, c18, c19, c20, c21, c22, c23, c24, c25, c26, if_false]
  unfold accHost
  rw [if_neg c17, hn]
  exact ⟨_, _, rfl, means_ret WHAT, .unknown (by omega) (by omega)⟩

/-- The context of the examples: service 7 assigns core 0. -/
def Ex.ctx (a : Global) : Svc.Ctx Global :=
  { host := 7, p := { boxes := a, staging := none, authQueue := [[Svc.Ex.zeros], [Svc.Ex.zeros]], manager := 1, assign := { confirmed := [7, 1] },
                      designate := { confirmed := 1 }, registrar := { confirmed := 7 }, always := [] },
    nextId := 70000, transfers := [], yielded := none, provided := [] }

def Ex.pair : Pair Global := { x := Ex.ctx Svc.Ex.g, y := Ex.ctx Svc.Ex.g }

theorem Ex.metas {s : Nat} {m : Meta} (h : Svc.Ex.g.metas s = some m) : s = 7 ∧ m = Svc.Ex.meta7 ∨ s = 8 ∧ m = Svc.Ex.meta8 := by
  by_cases c7 : s = 7
  · subst c7; cases h; exact .inl ⟨rfl, rfl⟩
  · by_cases c8 : s = 8
    · subst c8; cases h; exact .inr ⟨rfl, rfl⟩
    · simp [Svc.Ex.g, c7, c8] at h

theorem Ex.request {s : Nat} {k : LKey} {ts : List Nat} (h : Svc.Ex.g.lookups s k = some ts) : s = 8 ∧ k = (Svc.Ex.zeros, 3) ∧ ts = [1, 2] := by
  by_cases c : s = 8 ∧ k = (Svc.Ex.zeros, 3)
  · refine ⟨c.1, c.2, ?_⟩
    obtain ⟨rfl, rfl⟩ := c
    cases h; rfl
  · have : Svc.Ex.g.lookups s k = none := if_neg c
    rw [this] at h; cases h

theorem Ex.fit : Fit Svc.Ex.env (Ex.ctx Svc.Ex.g) where
  sound := Svc.Ex.sound
  solvent := fun s m h => by
    rcases Ex.metas h with ⟨rfl, rfl⟩ | ⟨rfl, rfl⟩
    · exact ⟨1, 37, Svc.Ex.usage7, by decide⟩
    · exact ⟨2, 84, Svc.Ex.usage8, by decide⟩
  room := fun s m h => by
    rcases Ex.metas h with ⟨rfl, rfl⟩ | ⟨rfl, rfl⟩ <;> decide
  alive := rfl
  ids := fun s h => by
    obtain ⟨m, h⟩ := Option.isSome_iff_exists.1 h
    rcases Ex.metas h with ⟨rfl, _⟩ | ⟨rfl, _⟩ <;> decide
  lens := fun s h z ts e => by
    obtain ⟨_, e, _⟩ := Ex.request e
    cases e; decide
  slots := fun s k ts e => by
    obtain ⟨_, _, rfl⟩ := Ex.request e
    decide
  funds := fun s m e d _ h1 h2 => by
    rcases Ex.metas h1 with ⟨_, rfl⟩ | ⟨_, rfl⟩ <;> rcases Ex.metas h2 with ⟨_, rfl⟩ | ⟨_, rfl⟩ <;> decide
  queues := rfl
  assigned := fun c hc => by
    have : ∀ c : Fin 2, (Ex.ctx Svc.Ex.g).p.assign.current c ≠ none := by decide
    exact this ⟨c, hc⟩
  next := ⟨⟨by decide, by decide⟩, rfl⟩
  free := ⟨70001, ⟨by decide, by decide⟩, by decide, rfl⟩

theorem Ex.memSound : Sound Svc.Ex.mem := .inl ⟨⟨by decide +kernel, by decide +kernel⟩, by decide +kernel, fun _ h => absurd h (Nat.not_lt_zero _)⟩

theorem Ex.sound (r7 r8 r9 r10 r11 r12 : Nat) : Sound (Svc.Ex.vm r7 r8 r9 r10 r11 r12).mem := Ex.memSound

/-- The calls of the examples fit: a write, a solicitation, a transfer, a new account, an ejection. -/
theorem Ex.ready {c : Nat × VM} (h : c ∈ [Svc.Ex.write, Svc.Ex.solicit, Svc.Ex.transfer, Svc.Ex.create, Svc.Ex.createSmall, Svc.Ex.eject]) :
    Ready Svc.Ex.env c.1 c.2 Ex.pair := by
  simp only [List.mem_cons, List.not_mem_nil, or_false] at h
  rcases h with rfl | rfl | rfl | rfl | rfl | rfl <;>
    exact ⟨Ex.fit, Ex.sound .., by decide, by decide, by unfold Sized; decide⟩

/-- The ejection gives its balance to the caller and removes the account. -/
example : Follows Svc.Ex.env Svc.Ex.eject.2 Ex.pair 21 (accHost mapStore Svc.Ex.env 21 Svc.Ex.eject.2 Ex.pair) :=
  C65_calls_partial Svc.Ex.env 21 Svc.Ex.eject.2 Ex.pair (Ex.ready (c := Svc.Ex.eject) (by simp))
set_option maxRecDepth 20000 in
example : (accHost mapStore Svc.Ex.env 21 Svc.Ex.eject.2 Ex.pair).1 = .ok (ret OK) ∧
    ((accHost mapStore Svc.Ex.env 21 Svc.Ex.eject.2 Ex.pair).2.x.p.boxes.metas 7).map Meta.balance = some 10300 ∧
    (accHost mapStore Svc.Ex.env 21 Svc.Ex.eject.2 Ex.pair).2.x.p.boxes.metas 8 = none := ⟨rfl, rfl, rfl⟩

/-- **The paper leaves no choice**: it gives a call one result and one pair of contexts. -/
theorem C65_answer_unique (P : Const) (datum : Option Bytes) (φ : Nat → Nat) (μ : PMem) (ϱ : Int) (x y x1 y1 x2 y2 : Paper.Ctx) (h : Nat) (r1 r2 : Res)
    (h1 : Answers P datum φ μ ϱ x y h r1 x1 y1) (h2 : Answers P datum φ μ ϱ x y h r2 x2 y2) : r1 = r2 ∧ x1 = x2 ∧ y1 = y2 :=
  Paper.answers_unique h1 h2

example : ∃ r x1 y1, Answers (consts Svc.Ex.env) none (VM.n Svc.Ex.create.2) Svc.Ex.mem.abs 1000 (paper Ex.pair.x) (paper Ex.pair.y) 18 r x1 y1 ∧
    r ≠ .panic := by
  obtain ⟨res, r, e, m, a⟩ := C65_calls_partial { Svc.Ex.env with fetch := fun _ => none } 18 Svc.Ex.create.2 Ex.pair
    ⟨⟨Ex.fit.sound, Ex.fit.solvent, Ex.fit.room, Ex.fit.alive, Ex.fit.ids, Ex.fit.lens, Ex.fit.slots, Ex.fit.funds, Ex.fit.queues, Ex.fit.assigned,
      Ex.fit.next, Ex.fit.free⟩, Ex.sound .., by decide, by decide, by unfold Sized; decide⟩
  refine ⟨res, _, _, a, fun hp => ?_⟩
  subst hp
  have h2 : (accHost mapStore { Svc.Ex.env with fetch := fun _ => none } 18 Svc.Ex.create.2 Ex.pair).1.toOption.map HostResult.exit = some .cont := by
    decide +kernel
  rw [e, show r = hpanic from m] at h2
  exact absurd h2 (by decide)

/-- **The accounts as the code keeps them**: a sandbox over the committed state. The call answers as the paper
says about the accounts the sandbox stands for. -/
theorem C65_sandbox_partial (g : Global) (D : Nat → Prop) (host : Nat) (env : Env) (h : Nat) (vm : VM) (q : Pair Boxes) (O : g.NoOrphans)
    (I : PairInv g D host q) (C : CallOk g D h vm (q.view g)) (R : Ready env h vm (q.view g)) :
    ∃ res r, (accHost (boxStore g) env h vm q).1 = .ok r ∧ Means res r ∧
      Answers (consts env) (env.fetch vm) (VM.n vm) vm.mem.abs vm.gas (paper (q.x.view g)) (paper (q.y.view g)) h res
        (paper ((accHost (boxStore g) env h vm q).2.x.view g)) (paper ((accHost (boxStore g) env h vm q).2.y.view g)) := by
  obtain ⟨e1, e2⟩ := C36_answers_refine g D host env h vm q O I R.fit.sound C
  obtain ⟨res, r, h1, h2, h3⟩ := C65_calls_partial env h vm (q.view g) R
  refine ⟨res, r, e1.trans h1, h2, ?_⟩
  rw [← e2] at h3
  exact h3

/-- The same contexts over an empty sandbox. -/
def Ex.boxed : Pair Boxes :=
  { x := { host := 7, p := { boxes := [], staging := none, authQueue := [[Svc.Ex.zeros], [Svc.Ex.zeros]], manager := 1, assign := { confirmed := [7, 1] }, designate := { confirmed := 1 }, registrar := { confirmed := 7 }, always := [] }, nextId := 70000, transfers := [], yielded := none, provided := [] },
    y := { host := 7, p := { boxes := [], staging := none, authQueue := [[Svc.Ex.zeros], [Svc.Ex.zeros]], manager := 1, assign := { confirmed := [7, 1] }, designate := { confirmed := 1 }, registrar := { confirmed := 7 }, always := [] }, nextId := 70000, transfers := [], yielded := none, provided := [] } }

example : Ex.boxed.view Svc.Ex.g = Ex.pair ∧ PairInv Svc.Ex.g (· = 7) 7 Ex.boxed ∧
    CallOk Svc.Ex.g (· = 7) Svc.Ex.create.1 Svc.Ex.create.2 (Ex.boxed.view Svc.Ex.g) ∧ Ready Svc.Ex.env 18 Svc.Ex.create.2 (Ex.boxed.view Svc.Ex.g) := by
  have I : Inv Svc.Ex.g (· = 7) 7 [] := ⟨(fun s b h => by cases h), rfl, rfl⟩
  exact ⟨rfl, ⟨I, I, rfl, rfl⟩, ⟨(fun _ => rfl), (fun h => absurd h (by decide))⟩, Ex.ready (c := Svc.Ex.create) (by simp)⟩

/-- The calls one after the other, each answered as the paper says. -/
inductive Told (env : Env) : List (Nat × VM) → Paper.Ctx × Paper.Ctx → Paper.Ctx × Paper.Ctx → Prop
  | nil (s : Paper.Ctx × Paper.Ctx) : Told env [] s s
  | cons {c : Nat × VM} {cs : List (Nat × VM)} {s s1 s2 : Paper.Ctx × Paper.Ctx} {res : Res}
      (h : Answers (consts env) (env.fetch c.2) (VM.n c.2) c.2.mem.abs c.2.gas s.1 s.2 c.1 res s1.1 s1.2) (t : Told env cs s1 s2) :
      Told env (c :: cs) s s2

/-- **Sequences of calls** run to their end, and to where the paper's answers lead. -/
theorem C65_sequences_partial (env : Env) (cs : List (Nat × VM)) (q : Pair Global) (B : BeforeEach (accHost mapStore env) (Ready env) cs q) :
    ∃ q', runCalls (accHost mapStore env) cs q = some q' ∧ Told env cs (paper q.x, paper q.y) (paper q'.x, paper q'.y) := by
  induction cs generalizing q with
  | nil => exact ⟨q, rfl, .nil _⟩
  | cons c cs ih =>
    obtain ⟨res, r, h1, h2, h3⟩ := C65_calls_partial env c.1 c.2 q (B [] c (by simp) q rfl)
    have e : accHost mapStore env c.1 c.2 q = (.ok r, (accHost mapStore env c.1 c.2 q).2) := by rw [← h1]
    have B' : BeforeEach (accHost mapStore env) (Ready env) cs (accHost mapStore env c.1 c.2 q).2 := by
      intro pre d hp s' hs
      refine B (c :: pre) d ?_ s' ?_
      · exact List.cons_prefix_cons.2 ⟨rfl, hp⟩
      · rw [runCalls_cons e]; exact hs
    obtain ⟨q', a1, a2⟩ := ih _ B'
    exact ⟨q', by rw [runCalls_cons e]; exact a1, .cons (s1 := (_, _)) h3 a2⟩

example : BeforeEach (accHost mapStore Svc.Ex.env) (Ready Svc.Ex.env) [Svc.Ex.eject] Ex.pair := by
  intro pre c hp s' hs
  match pre, hp, hs with
  | [], hp, hs =>
    obtain ⟨e, _⟩ := List.cons_prefix_cons.1 hp
    subst e; cases hs
    exact Ex.ready (c := Svc.Ex.eject) (by simp)
  | _ :: _, hp, _ =>
    obtain ⟨_, h⟩ := List.cons_prefix_cons.1 hp
    exact absurd (List.prefix_nil.1 h) (by simp)

/-- **Too little gas.** With less than 10 units every call the paper knows ends in running out of gas, whatever the
registers, the memory and the accounts are, and changes nothing. -/
theorem C65_no_gas {β : Type} (S : Store β) (env : Env) (h : Nat) (vm : VM) (q : Pair β) (hg : vm.gas < 10) (hh : h ≤ 5 ∨ 14 ≤ h ∧ h ≤ 26) :
    (accHost S env h vm q).1 = .ok oog ∧ (accHost S env h vm q).2 = q ∧ oog.exit = .outOfGas := by
  have hg : noGas vm = true := decide_eq_true hg
  have hc : h = 0 ∨ h = 1 ∨ h = 2 ∨ h = 3 ∨ h = 4 ∨ h = 5 ∨ h = 14 ∨ h = 15 ∨ h = 16 ∨ h = 17 ∨ h = 18 ∨ h = 19 ∨ h = 20 ∨ h = 21 ∨ h = 22 ∨
    h = 23 ∨ h = 24 ∨ h = 25 ∨ h = 26 := by omega
  rcases hc with rfl | rfl | rfl | rfl | rfl | rfl | rfl | rfl | rfl | rfl | rfl | rfl | rfl | rfl | rfl | rfl | rfl | rfl | rfl <;>
    simp [accHost, accFn, hostCheckpoint, hostGas, hostFetch, hostLookup, hostRead, hostWrite, hostInfo, hostBless, hostAssign, hostDesignate, hostNew,
      hostUpgrade, hostTransfer, hostEject, hostQuery, hostSolicit, hostForget, hostYield, hostProvide, hg, oog]

example : ({ Svc.Ex.eject.2 with gas := 9 } : VM).gas < 10 ∧ (21 ≤ 5 ∨ 14 ≤ 21 ∧ 21 ≤ 26) := by decide

/-! ## Where the code departs -/

theorem means_of_panic {res : Res} (h : Means res hpanic) : res = .panic := by
  cases res with
  | panic => rfl
  | outOfGas => exact absurd (show hpanic.exit = .outOfGas from h) (by decide)
  | ret r7 r8 w e => exact absurd (congrArg HostResult.exit (show hpanic = _ from h)) (by simp [hpanic])

theorem means_of_just {n m : Nat} (h : Means (.just n) (ret m)) : reg m = reg n := by
  have := congrArg HostResult.r7 (show ret m = _ from h)
  exact Option.some.inj this

/-- Ask for nothing of the datum, at an address above memory. -/
def Ex.far : VM := Svc.Ex.vm (2 ^ 32) 0 0 0 0 0

/-- **An empty range far away.** The paper lets a program name an empty range anywhere; the code panics when its
address is `2^32` or more. -/
theorem C65_far_empty_range_partial : ¬ Follows Svc.Ex.env Ex.far Ex.pair 1 (accHost mapStore Svc.Ex.env 1 Ex.far Ex.pair) ∧
    (accHost mapStore Svc.Ex.env 1 Ex.far Ex.pair).1 = .ok hpanic := by
  have e0 : (accHost mapStore Svc.Ex.env 1 Ex.far Ex.pair).1 = .ok hpanic := rfl
  refine ⟨?_, e0⟩
  rintro ⟨res, r, e, m, a⟩
  have hr : r = hpanic := Except.ok.inj (e.symm.trans e0)
  subst hr
  have hres := means_of_panic m
  subst hres
  cases a with
  | acts a =>
    cases a with
    | fetch h =>
      have hd : Svc.Ex.env.fetch Ex.far = some [1, 2, 3] := rfl
      rw [hd] at h
      cases h with
      | panic h =>
        refine h fun x h1 h2 => ?_
        have h9 : VM.n Ex.far 9 = 0 := rfl
        rw [h9] at h2
        simp at h2
        omega

example : Fit Svc.Ex.env Ex.pair.x ∧ Sound Ex.far.mem ∧ 10 ≤ Ex.far.gas := ⟨Ex.fit, Ex.sound .., by decide⟩

/-- **Long requests.** Every solicitation of `2^32` octets or more is refused as too expensive, whatever the balance. -/
theorem C65_long_solicit_full (env : Env) (vm : VM) (q : Pair Global) (hg : 10 ≤ vm.gas) (hm : Sound vm.mem) (hr : CanRead vm.mem.abs (VM.n vm 7) 32)
    (h8 : 2 ^ 32 ≤ VM.n vm 8) : accHost mapStore env 23 vm q = (.ok (ret FULL), q) := by
  have hn : noGas vm = false := decide_eq_false (by unfold BASE_GAS; omega)
  rcases readHash_spec hm 7 with ⟨e, _⟩ | ⟨_, e⟩
  · rcases u32_cases vm 8 with ⟨_, e8⟩ | ⟨e8, _⟩
    · omega
    · simp [accHost, accFn, hostSolicit, hn, e, e8]
  · exact absurd hr e

/-- Ask for a preimage of `2^32` octets. -/
def Ex.long : VM := Svc.Ex.vm 0 (2 ^ 32) 0 0 0 0

/-- The example accounts, service 7 with `2^63` tokens. -/
def Ex.rich : Global where
  metas := fun s => if s = 7 then some { codeHash := Svc.Ex.zeros, balance := 2 ^ 63, octets := 37, items := 1 } else Svc.Ex.g.metas s
  storage := Svc.Ex.g.storage
  preimages := Svc.Ex.g.preimages
  lookups := Svc.Ex.g.lookups

def Ex.richPair : Pair Global := { x := Ex.ctx Ex.rich, y := Ex.ctx Ex.rich }

theorem Ex.readable : CanRead Svc.Ex.mem.abs 0 32 :=
  (sound_read Ex.memSound 0 32).1.1 (by decide +kernel)

example : accHost mapStore Svc.Ex.env 23 Ex.long Ex.richPair = (.ok (ret FULL), Ex.richPair) :=
  C65_long_solicit_full Svc.Ex.env Ex.long Ex.richPair (by decide) (Ex.sound ..) Ex.readable (by decide)

/-- The paper accepts such a request of a service that can pay for it. -/
theorem C65_long_solicit_partial : ¬ Follows Svc.Ex.env Ex.long Ex.richPair 23 (accHost mapStore Svc.Ex.env 23 Ex.long Ex.richPair) := by
  rintro ⟨res, r, e, m, a⟩
  have e0 := congrArg Prod.fst (C65_long_solicit_full Svc.Ex.env Ex.long Ex.richPair (by decide) (Ex.sound ..) Ex.readable (by decide))
  have hr : r = ret FULL := Except.ok.inj (e.symm.trans e0)
  subst hr
  have ha : acct Ex.rich 7 = some _ := acct_some (m := { codeHash := Svc.Ex.zeros, balance := 2 ^ 63, octets := 37, items := 1 }) rfl
  have h8 : VM.n Ex.long 8 = 2 ^ 32 := rfl
  generalize hk : octets Ex.long.mem.abs (VM.n Ex.long 7) 32 = k
  have hn : ∀ (b : Acct), b.storage = Ex.rich.storage 7 → b.gratis = 0 →
      b.requests = (fun h' z' => if h' = k ∧ z' = VM.n Ex.long 8 then some [] else Ex.rich.lookups 7 (h', z')) → Needs b (100 + 10 * 3 + (81 + 2 ^ 32 + 37)) := by
    intro b h1 hg h2
    refine ⟨3, 81 + 2 ^ 32 + 37, ⟨[[1]], [(k, 2 ^ 32)], by simp, by simp, fun k' => ?_, fun h z => ?_, rfl, ?_⟩, by rw [hg]⟩
    · rw [h1]
      show k' ∈ [[1]] ↔ (if 7 = 7 ∧ k' = [1] then some [5, 6] else none : Option Bytes).isSome = true
      by_cases c : k' = [1] <;> simp [c]
    · rw [h2, h8]
      have hl : Ex.rich.lookups 7 (h, z) = none := by simp [Ex.rich, Svc.Ex.g]
      dsimp only
      rw [hl]
      by_cases c : h = k ∧ z = 2 ^ 32
      · rw [if_pos c, c.1, c.2]; simp
      · rw [if_neg c]; simp only [List.mem_cons, Prod.mk.injEq, List.not_mem_nil, or_false]; exact ⟨fun h => absurd h c, fun h => by cases h⟩
    · rw [h1]; rfl
  have act := Acts.solicit (P := consts Svc.Ex.env) (datum := Svc.Ex.env.fetch Ex.long) (ϱ := Ex.long.gas) (φ := VM.n Ex.long) (μ := Ex.long.mem.abs)
    (x := paper Ex.richPair.x) Ex.readable ha (.inl ⟨rfl, rfl⟩) (hn _ rfl rfl (by rw [hk]; rfl)) (by show _ ≤ 2 ^ 63; decide)
  obtain ⟨h, _⟩ := Paper.answers_unique a (.acts act)
  subst h
  exact absurd (means_of_just m) (by decide)

example : Sound Ex.long.mem ∧ CanRead Ex.long.mem.abs (VM.n Ex.long 7) 32 ∧ 2 ^ 32 ≤ VM.n Ex.long 8 := ⟨Ex.sound .., Ex.readable, by decide⟩

/-- The last slot a `u32` holds, and a request withdrawn in it. -/
def Ex.last : Env := { Svc.Ex.env with slot := 2 ^ 32 - 1 }
def Ex.late : Global where
  metas := fun s => if s = 7 then some { codeHash := Svc.Ex.zeros, balance := 10000, octets := 122, items := 3 } else Svc.Ex.g.metas s
  storage := Svc.Ex.g.storage
  preimages := Svc.Ex.g.preimages
  lookups := fun s k => if s = 7 ∧ k = (octets Svc.Ex.mem.abs 0 32, 4) then some [1, 2 ^ 32 - 1] else Svc.Ex.g.lookups s k
def Ex.latePair : Pair Global := { x := Ex.ctx Ex.late, y := Ex.ctx Ex.late }

set_option maxRecDepth 20000 in
/-- **The sum of a slot and the waiting period wraps**: a request withdrawn in this very slot is dropped with its
preimage at once, where the paper answers `HUH` and waits. -/
theorem C65_expiry_wraps_partial :
    (accHost mapStore Ex.last 24 Svc.Ex.forget.2 Ex.latePair).1 = .ok (ret OK) ∧
    ¬ Follows Ex.last Svc.Ex.forget.2 Ex.latePair 24 (accHost mapStore Ex.last 24 Svc.Ex.forget.2 Ex.latePair) := by
  have e0 : (accHost mapStore Ex.last 24 Svc.Ex.forget.2 Ex.latePair).1 = .ok (ret OK) := rfl
  refine ⟨e0, ?_⟩
  rintro ⟨res, r, e, m, a⟩
  have hr : r = ret OK := Except.ok.inj (e.symm.trans e0)
  subst hr
  have ha : acct Ex.late 7 = some _ := acct_some (m := { codeHash := Svc.Ex.zeros, balance := 10000, octets := 122, items := 3 }) rfl
  have act := Acts.forgetHuh (P := consts Ex.last) (datum := Ex.last.fetch Svc.Ex.forget.2) (ϱ := Svc.Ex.forget.2.gas) (φ := VM.n Svc.Ex.forget.2)
    (μ := Svc.Ex.forget.2.mem.abs) (x := paper Ex.latePair.x) Ex.readable ha (by
      intro ts ht
      have h0 : Ex.late.lookups 7 (octets Svc.Ex.mem.abs 0 32, 4) = some [1, 2 ^ 32 - 1] := by simp [Ex.late]
      have ht : some [1, 2 ^ 32 - 1] = some ts := h0.symm.trans ht
      cases ht
      rintro (h | ⟨_, h⟩ | ⟨u, v, ws, h, _, h'⟩)
      · cases h
      · cases h
      · cases h
        exact absurd (show 2 ^ 32 - 1 + 5 < 2 ^ 32 - 1 from h') (by decide))
  obtain ⟨h, _⟩ := Paper.answers_unique a (.acts act)
  subst h
  exact absurd (means_of_just m) (by decide)

example : Sound Svc.Ex.forget.2.mem ∧ 10 ≤ Svc.Ex.forget.2.gas ∧ Ex.last.slot < 2 ^ 32 := ⟨Ex.sound .., by decide, by decide⟩

end Fastroll.Host
