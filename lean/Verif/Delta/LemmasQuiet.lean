import Verif.Delta.LemmasAcct

/-! # Lemmas: programs that cannot fill an account -/
namespace Fastroll.Delta
open Fastroll.Pvm Fastroll.Svc

/-! ## The calls a program makes -/

theorem step_call {vm : VM} {p : Prog} {ins : Instr} {h : Nat} {c : Change} {m : Mem} (e : singleStep vm p ins = (.ok (.hostCall h, c), m)) :
    ins.op = .ecalli ∧ h = ins.imm1.toNat % 256 := by
  have hb : ∀ t c0, (branchTo p vm.pc t c0).1 ≠ .hostCall h := by
    intro t c0; unfold branchTo; split
    · split <;> simp
    · simp
  have hd : ∀ a x, djump p vm.pc a = .ok x → x.1 ≠ .hostCall h := by
    intro a x hx; unfold djump at hx
    repeat' split at hx
    all_goals first | (cases hx; done) | (cases hx; simp)
  have hl : ∀ a k rd v x, loadStep vm p a k rd v = .ok x → x.1 ≠ .hostCall h := by
    intro a k rd v x hx; unfold loadStep at hx
    repeat' split at hx
    all_goals first | (cases hx; done) | (cases hx; simp)
  unfold singleStep at e
  cases ho : ins.op with
  | ecalli => rw [ho] at e; simp only at e; cases e; exact ⟨rfl, rfl⟩
  | sbrk =>
    rw [ho] at e; simp only at e
    split at e <;> simp at e
  | jumpInd =>
    rw [ho] at e; simp only at e
    split at e
    · simp at e
    · rename_i x hx; simp only [Prod.mk.injEq, Except.ok.injEq] at e; exact absurd e.1.1 (hd _ _ hx)
  | loadImmJumpInd =>
    rw [ho] at e; simp only at e
    split at e
    · simp at e
    · rename_i x hx; simp only [Prod.mk.injEq, Except.ok.injEq] at e; exact absurd e.1.1 (hd _ _ hx)
  | load k => rw [ho] at e; simp only [Prod.mk.injEq] at e; exact absurd rfl (hl _ _ _ _ _ e.1)
  | loadInd k => rw [ho] at e; simp only [Prod.mk.injEq] at e; exact absurd rfl (hl _ _ _ _ _ e.1)
  | jump => rw [ho] at e; simp only [Prod.mk.injEq, Except.ok.injEq] at e; exact absurd e.1.1 (hb _ _)
  | loadImmJump => rw [ho] at e; simp only [Prod.mk.injEq, Except.ok.injEq] at e; exact absurd e.1.1 (hb _ _)
  | branchImm c => rw [ho] at e; simp only [Prod.mk.injEq, Except.ok.injEq] at e; exact absurd e.1.1 (hb _ _)
  | branch c => rw [ho] at e; simp only [Prod.mk.injEq, Except.ok.injEq] at e; exact absurd e.1.1 (hb _ _)
  | _ => rw [ho] at e; simp at e

theorem iter_call {p : Prog} {vm vm' : VM} {h : Nat} (M : Modest p) (e : Pvm.iter p vm = (some (.ok (.hostCall h)), vm')) : h ∉ Filling := by
  unfold Pvm.iter at e
  split at e
  · simp at e
  · rename_i ins hi
    split at e
    · simp at e
    · rename_i exit change m hs
      split at e
      · simp at e
      · simp at e
      · simp at e
      · split at e
        · simp at e
        · split at e
          · simp at e
          · simp only [Prod.mk.injEq, Option.some.injEq, Except.ok.injEq] at e
            obtain ⟨rfl, _⟩ := e
            obtain ⟨k1, k2⟩ := step_call hs
            rw [k2]; exact M _ _ hi k1

theorem run_call {p : Prog} (M : Modest p) {h : Nat} : ∀ (n : Nat) {vm vm' : VM}, runFuel p n vm = (some (.ok (.hostCall h)), vm') → h ∉ Filling
  | 0, _, _, e => by cases e
  | n + 1, vm, vm', e => by
    unfold runFuel at e
    split at e
    · exact run_call M n e
    · rename_i r vm1 h1; cases e; exact iter_call M h1

theorem trace_quiet {σ : Type} {p : Prog} (M : Modest p) {host : Host σ} {fuel : Nat} : ∀ (n : Nat) {vm : VM} {s : σ},
    ∀ c ∈ extTrace p host fuel n vm s, c.1 ∉ Filling
  | 0, _, _, c, hc => by cases hc
  | n + 1, vm, s, c, hc => by
    unfold extTrace at hc
    split at hc
    · cases hc
    · rename_i c0 h0
      rcases List.mem_cons.1 hc with e | e
      · subst e
        unfold nextCall at h0
        split at h0
        · rename_i h vm1 h1; cases h0; exact run_call M _ h1
        · cases h0
      · split at e
        · exact trace_quiet M n _ e
        · cases e

/-! ## What the other calls change -/

/-- The maps without the operations that the filling calls use. -/
def quietStore : Store Global :=
  { mapStore with
    footprints := fun _ _ _ _ => none
    create := fun a _ _ => a
    insS := fun _ _ _ _ => none
    insL := fun _ _ _ _ => none
    remS := fun a _ _ => a
    remP := fun a _ _ => a
    remL := fun a _ _ => a
    eject := fun _ _ _ => none }

theorem quiet_keeps (st : Nat → Bytes → Option Bytes) (lk : Nat → LKey → Option (List Nat)) (host : Nat) :
    Keeps quietStore (fun a => a.storage = st ∧ a.lookups = lk) (fun _ => True) (fun _ => True) host := by
  constructor <;> simp only [quietStore, mapStore, Option.map_eq_some_iff] <;> intros <;>
    first | (obtain ⟨_, h, rfl⟩ := ‹∃ _, _ ∧ _ = _›; grind [upd]) | grind [upd]

theorem quiet_fn {h : Nat} {f : HostFn Global} (hq : h ∉ Filling) (hf : accFn mapStore h = some f) : accFn quietStore h = some f := by
  unfold Filling at hq
  simp only [List.mem_cons, List.not_mem_nil, or_false, not_or] at hq
  obtain ⟨h4, h18, h21, h23, h24⟩ := hq
  unfold accFn at hf ⊢
  simp only [if_neg h4, if_neg h18, if_neg h21, if_neg h23, if_neg h24] at hf ⊢
  exact hf

theorem call_quiet {env : Env} {h : Nat} {vm : VM} {q : Pair Global} (hq : h ∉ Filling) {st : Nat → Bytes → Option Bytes} {lk : Nat → LKey → Option (List Nat)}
    (hp : q.x.p.boxes.storage = st ∧ q.x.p.boxes.lookups = lk) :
    (accHost mapStore env h vm q).2.x.p.boxes.storage = st ∧ (accHost mapStore env h vm q).2.x.p.boxes.lookups = lk := by
  rcases accHost_cases mapStore env h vm q with c | ⟨_, c⟩ | ⟨f, c1, c2⟩
  · rw [c]; exact hp
  · rw [c]; exact hp
  · rw [c2]; exact (quiet_keeps st lk q.x.host).fn (quiet_fn hq c1) (fun _ => trivial) (fun _ _ _ _ => trivial) hp

theorem calls_quiet {env : Env} {st : Nat → Bytes → Option Bytes} {lk : Nat → LKey → Option (List Nat)} :
    ∀ (cs : List (Nat × VM)) {q q' : Pair Global}, (∀ c ∈ cs, c.1 ∉ Filling) → q.x.p.boxes.storage = st ∧ q.x.p.boxes.lookups = lk →
    runCalls (accHost mapStore env) cs q = some q' → q'.x.p.boxes.storage = st ∧ q'.x.p.boxes.lookups = lk
  | [], q, q', _, hp, h => by cases h; exact hp
  | c :: cs, q, q', hq, hp, h => by
    cases hc : accHost mapStore env c.1 c.2 q with
    | mk r q1 =>
      cases r with
      | error e => simp only [runCalls, hc] at h; cases h
      | ok r =>
        rw [runCalls_cons hc] at h
        have := call_quiet (env := env) (vm := c.2) (hq c (List.mem_cons_self ..)) hp
        rw [hc] at this
        exact calls_quiet cs (fun c hc => hq c (List.mem_cons_of_mem _ hc)) this h

theorem careful_of_quiet {g : Global} {D : Nat → Prop} {env : Env} {cs : List (Nat × VM)} {q : Pair Global} (hq : ∀ c ∈ cs, c.1 ∉ Filling)
    (h0 : q.x.p.boxes.InRange) :
    Throughout (accHost mapStore env) (fun p => p.x.p.boxes.InRange) cs q ∧ BeforeEach (accHost mapStore env) (CallOk g D) cs q := by
  constructor
  · intro pre hp s' hs
    obtain ⟨k1, k2⟩ := calls_quiet pre (fun c hc => hq c (hp.subset hc)) ⟨rfl, rfl⟩ hs
    intro s i o U
    exact h0 s i o (usage_congr (by rw [k1]) (by rw [k2]) U)
  · intro pre c hp s' _
    have hc : c.1 ∉ Filling := hq c (hp.subset (by simp))
    exact ⟨fun e => absurd (by rw [e]; decide) hc, fun e => absurd (by rw [e]; decide) hc⟩

theorem opening_careful {g : Global} {D : Nat → Prop} {env : Env} {mach : Machine} {u : PState Boxes} {a : AccArgs} {r : AccResult}
    (hM : ∀ code p init, mach.load code = some (p, init) → Modest p) (O : g.NoOrphans) (F : Fit g D u.boxes) (hd : D a.host)
    (h : accumulate g env mach u a = .ok (some r)) {q : Pair Boxes} {cs : List (Nat × VM)} (ho : opening g env mach u a = some (q, cs)) :
    Throughout (accHost mapStore env) (fun p => p.x.p.boxes.InRange) cs (q.view g) ∧ BeforeEach (accHost mapStore env) (CallOk g D) cs (q.view g) := by
  obtain ⟨b1, _, _, _, h1, _⟩ := accumulate_opening h
  unfold opening at ho
  rw [h1] at ho
  simp only [Option.bind_eq_some_iff] at ho
  obtain ⟨bs2, h2, ho⟩ := ho
  split at ho
  · rename_i code bs3 h3
    split at ho
    · cases ho
    · split at ho
      · rename_i id prog init e1 e2
        simp only [Option.some.injEq, Prod.mk.injEq] at ho
        obtain ⟨hq, hc⟩ := ho
        obtain ⟨v3, _, _⟩ := prepare O F.good hd h1 h2 h3
        have ok3 : ∀ s, OkAt (view g bs3) s := by rw [v3]; exact credit_ok F.ok
        refine careful_of_quiet ?_ ?_
        · rw [← hc]
          cases init with
          | none => intro c hc; cases hc
          | some vm => exact trace_quiet (hM _ _ _ e2) _
        · rw [← hq]; exact (healthy_iff.2 ok3).range
      · cases ho
  · cases ho

end Fastroll.Delta
