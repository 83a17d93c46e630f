import Verif.Svc.LemmasTrace
import Verif.Svc.SpecMerge

/-! # Lemmas: checkpoints, and what no host call changes -/
namespace Fastroll.Svc
open Fastroll.Pvm

variable {β : Type} {S : Store β} {env : Env}

/-! ## Checkpoints -/

theorem save_step {c : Nat × VM} {q q1 : Pair β} {r : HostResult} (h : accHost S env c.1 c.2 q = (.ok r, q1)) :
    (isSave c ∧ q1.x = q.x ∧ q1.y = q.x) ∨ (¬ isSave c ∧ q1.y = q.y) := by
  unfold accHost at h
  by_cases c17 : c.1 = 17
  · rw [if_pos c17] at h
    unfold hostCheckpoint noGas at h
    by_cases cg : c.2.gas < (BASE_GAS : Int)
    · simp only [decide_eq_true cg, if_true] at h
      cases h
      exact .inr ⟨fun d => absurd d.2 (by have : (BASE_GAS : Int) = 10 := rfl; omega), rfl⟩
    · simp only [decide_eq_false cg, Bool.false_eq_true, if_false] at h
      cases h
      exact .inl ⟨⟨c17, by have : (BASE_GAS : Int) = 10 := rfl; omega⟩, rfl, rfl⟩
  · rw [if_neg c17] at h
    refine .inr ⟨fun d => c17 d.1, ?_⟩
    cases hf : accFn S c.1 with
    | none => rw [hf] at h; cases h; rfl
    | some f =>
      rw [hf] at h
      injection h with _ h
      rw [← h]

theorem calls_save : ∀ (cs : List (Nat × VM)) (q q' : Pair β), runCalls (accHost S env) cs q = some q' →
    (∃ pre c post s, cs = pre ++ [c] ++ post ∧ isSave c ∧ (∀ d ∈ post, ¬ isSave d) ∧
      runCalls (accHost S env) (pre ++ [c]) q = some s ∧ s.x = q'.y) ∨
    ((∀ d ∈ cs, ¬ isSave d) ∧ q'.y = q.y) := by
  intro cs
  induction cs with
  | nil => intro q q' h; cases h; exact .inr ⟨by simp, rfl⟩
  | cons c cs ih =>
    intro q q' h
    cases hc : accHost S env c.1 c.2 q with
    | mk r q1 =>
      cases r with
      | error e => simp only [runCalls, hc] at h; cases h
      | ok r =>
        rw [runCalls_cons hc] at h
        rcases ih q1 q' h with ⟨pre, d, post, s, e1, e2, e3, e4, e5⟩ | ⟨e1, e2⟩
        · refine .inl ⟨c :: pre, d, post, s, by rw [e1]; rfl, e2, e3, ?_, e5⟩
          rw [List.cons_append, runCalls_cons hc]; exact e4
        · rcases save_step hc with ⟨s1, s2, s3⟩ | ⟨s1, s2⟩
          · refine .inl ⟨[], c, cs, q1, rfl, s1, e1, ?_, ?_⟩
            · show runCalls _ [c] q = _
              rw [runCalls_cons hc]; rfl
            · rw [e2, s2, s3]
          · refine .inr ⟨?_, e2.trans s2⟩
            intro d hd
            rcases List.mem_cons.1 hd with e | e
            · exact e ▸ s1
            · exact e1 d e

theorem calls_lastSave {cs : List (Nat × VM)} {q q' : Pair β} (hq : q.y = q.x) (h : runCalls (accHost S env) cs q = some q') :
    ∃ pre s, LastSave cs pre ∧ runCalls (accHost S env) pre q = some s ∧ s.x = q'.y := by
  rcases calls_save cs q q' h with ⟨pre, c, post, s, e1, e2, e3, e4, e5⟩ | ⟨e1, e2⟩
  · exact ⟨pre ++ [c], s, ⟨post, e1, .inr ⟨pre, c, rfl, e2⟩, e3⟩, e4, e5⟩
  · exact ⟨[], q, ⟨cs, rfl, .inl rfl, e1⟩, rfl, by rw [e2, hq]⟩

/-! ## What no call changes -/

/-- The privileges confirmed at the start of the round, and the running service. -/
structure Kept (p p' : PState β) : Prop where
  assign : p'.assign.confirmed = p.assign.confirmed
  designate : p'.designate.confirmed = p.designate.confirmed
  registrar : p'.registrar.confirmed = p.registrar.confirmed

theorem Kept.rfl' {p : PState β} : Kept p p := ⟨rfl, rfl, rfl⟩
theorem Kept.trans {p p' p'' : PState β} (h : Kept p p') (h' : Kept p' p'') : Kept p p'' :=
  ⟨h'.1.trans h.1, h'.2.trans h.2, h'.3.trans h.3⟩

/-- A host function keeps them. -/
def Keeps (x x' : Ctx β) : Prop := x'.host = x.host ∧ Kept x.p x'.p

theorem Keeps.same (x : Ctx β) : Keeps x x := ⟨rfl, .rfl'⟩
theorem Keeps.boxes (x : Ctx β) (bs : β) : Keeps x (x.setBoxes bs) := ⟨rfl, rfl, rfl, rfl⟩

local macro "keeps" f:ident : tactic =>
  `(tactic| (unfold $f; repeat' (first | exact Keeps.same _ | exact Keeps.boxes _ _ | exact ⟨rfl, rfl, rfl, rfl⟩ | split | (dsimp only; split))))

theorem keeps_gas {vm : VM} (x : Ctx β) : Keeps x (hostGas env vm x).2 := by keeps hostGas
theorem keeps_fetch {vm : VM} (x : Ctx β) : Keeps x (hostFetch env vm x).2 := by keeps hostFetch
theorem keeps_lookup {vm : VM} (x : Ctx β) : Keeps x (hostLookup S env vm x).2 := by keeps hostLookup
theorem keeps_read {vm : VM} (x : Ctx β) : Keeps x (hostRead S env vm x).2 := by keeps hostRead
theorem keeps_write {vm : VM} (x : Ctx β) : Keeps x (hostWrite S env vm x).2 := by keeps hostWrite
theorem keeps_info {vm : VM} (x : Ctx β) : Keeps x (hostInfo S env vm x).2 := by keeps hostInfo
theorem keeps_bless {vm : VM} (x : Ctx β) : Keeps x (hostBless env vm x).2 := by keeps hostBless
theorem keeps_assign {vm : VM} (x : Ctx β) : Keeps x (hostAssign env vm x).2 := by keeps hostAssign
theorem keeps_designate {vm : VM} (x : Ctx β) : Keeps x (hostDesignate env vm x).2 := by keeps hostDesignate
theorem keeps_new {vm : VM} (x : Ctx β) : Keeps x (hostNew S env vm x).2 := by keeps hostNew
theorem keeps_upgrade {vm : VM} (x : Ctx β) : Keeps x (hostUpgrade S env vm x).2 := by keeps hostUpgrade
theorem keeps_transfer {vm : VM} (x : Ctx β) : Keeps x (hostTransfer S env vm x).2 := by keeps hostTransfer
theorem keeps_eject {vm : VM} (x : Ctx β) : Keeps x (hostEject S env vm x).2 := by keeps hostEject
theorem keeps_query {vm : VM} (x : Ctx β) : Keeps x (hostQuery S env vm x).2 := by keeps hostQuery
theorem keeps_solicit {vm : VM} (x : Ctx β) : Keeps x (hostSolicit S env vm x).2 := by keeps hostSolicit
theorem keeps_drop (x : Ctx β) (bs : β) (hash : Bytes) (len : Nat) : Keeps x (dropRequest S x bs hash len).2 := by
  unfold dropRequest; dsimp only; split <;> exact Keeps.boxes _ _
theorem keeps_forget {vm : VM} (x : Ctx β) : Keeps x (hostForget S env vm x).2 := by
  unfold hostForget
  repeat' (first | exact keeps_drop _ _ _ _ | exact Keeps.same _ | exact Keeps.boxes _ _ | split | (dsimp only; split))
theorem keeps_yield {vm : VM} (x : Ctx β) : Keeps x (hostYield env vm x).2 := by keeps hostYield
theorem keeps_provide {vm : VM} (x : Ctx β) : Keeps x (hostProvide S env vm x).2 := by keeps hostProvide

theorem keeps_fn {h : Nat} {f : HostFn β} (hf : accFn S h = some f) (vm : VM) (x : Ctx β) : Keeps x (f env vm x).2 := by
  unfold accFn at hf
  by_cases c : h = 0
  · rw [if_pos c] at hf; cases hf; exact keeps_gas x
  rw [if_neg c] at hf; clear c
  by_cases c : h = 1
  · rw [if_pos c] at hf; cases hf; exact keeps_fetch x
  rw [if_neg c] at hf; clear c
  by_cases c : h = 2
  · rw [if_pos c] at hf; cases hf; exact keeps_lookup x
  rw [if_neg c] at hf; clear c
  by_cases c : h = 3
  · rw [if_pos c] at hf; cases hf; exact keeps_read x
  rw [if_neg c] at hf; clear c
  by_cases c : h = 4
  · rw [if_pos c] at hf; cases hf; exact keeps_write x
  rw [if_neg c] at hf; clear c
  by_cases c : h = 5
  · rw [if_pos c] at hf; cases hf; exact keeps_info x
  rw [if_neg c] at hf; clear c
  by_cases c : h = 14
  · rw [if_pos c] at hf; cases hf; exact keeps_bless x
  rw [if_neg c] at hf; clear c
  by_cases c : h = 15
  · rw [if_pos c] at hf; cases hf; exact keeps_assign x
  rw [if_neg c] at hf; clear c
  by_cases c : h = 16
  · rw [if_pos c] at hf; cases hf; exact keeps_designate x
  rw [if_neg c] at hf; clear c
  by_cases c : h = 18
  · rw [if_pos c] at hf; cases hf; exact keeps_new x
  rw [if_neg c] at hf; clear c
  by_cases c : h = 19
  · rw [if_pos c] at hf; cases hf; exact keeps_upgrade x
  rw [if_neg c] at hf; clear c
  by_cases c : h = 20
  · rw [if_pos c] at hf; cases hf; exact keeps_transfer x
  rw [if_neg c] at hf; clear c
  by_cases c : h = 21
  · rw [if_pos c] at hf; cases hf; exact keeps_eject x
  rw [if_neg c] at hf; clear c
  by_cases c : h = 22
  · rw [if_pos c] at hf; cases hf; exact keeps_query x
  rw [if_neg c] at hf; clear c
  by_cases c : h = 23
  · rw [if_pos c] at hf; cases hf; exact keeps_solicit x
  rw [if_neg c] at hf; clear c
  by_cases c : h = 24
  · rw [if_pos c] at hf; cases hf; exact keeps_forget x
  rw [if_neg c] at hf; clear c
  by_cases c : h = 25
  · rw [if_pos c] at hf; cases hf; exact keeps_yield x
  rw [if_neg c] at hf; clear c
  by_cases c : h = 26
  · rw [if_pos c] at hf; cases hf; exact keeps_provide x
  rw [if_neg c] at hf; cases hf

theorem calls_keep {cs : List (Nat × VM)} {q q' : Pair β} (h : runCalls (accHost S env) cs q = some q') (host : Nat) (p : PState β)
    (hx : q.x.host = host ∧ Kept p q.x.p) (hy : q.y.host = host ∧ Kept p q.y.p) :
    (q'.x.host = host ∧ Kept p q'.x.p) ∧ (q'.y.host = host ∧ Kept p q'.y.p) := by
  refine runCalls_inv (P := fun _ => True) (I := fun q => (q.x.host = host ∧ Kept p q.x.p) ∧ (q.y.host = host ∧ Kept p q.y.p))
    ?_ cs q ⟨hx, hy⟩ (fun _ _ _ _ => trivial) q' h
  intro c s s' r I _ _ hc
  rcases accHost_cases S env c.1 c.2 s with e | ⟨_, e⟩ | ⟨f, e1, e2⟩
  · rw [hc] at e; simp only at e; rw [e]; exact I
  · rw [hc] at e; simp only at e; rw [e]; exact ⟨I.1, I.1⟩
  · rw [hc] at e2
    injection e2 with _ e2
    have k := keeps_fn (env := env) e1 c.2 s.x
    rw [e2]
    exact ⟨⟨k.1.trans I.1.1, I.1.2.trans k.2⟩, I.2⟩

/-! ## Calls that do not touch privileges -/

/-- Only the accounts may differ. -/
def OnlyBoxes (x x' : Ctx β) : Prop := x'.p = { x.p with boxes := x'.p.boxes }

theorem OnlyBoxes.same (x : Ctx β) : OnlyBoxes x x := rfl
theorem OnlyBoxes.set (x : Ctx β) (bs : β) : OnlyBoxes x (x.setBoxes bs) := rfl

local macro "only" f:ident : tactic =>
  `(tactic| (unfold $f; repeat' (first | exact OnlyBoxes.same _ | exact OnlyBoxes.set _ _ | exact rfl | split | (dsimp only; split))))

theorem only_drop (x : Ctx β) (bs : β) (hash : Bytes) (len : Nat) : OnlyBoxes x (dropRequest S x bs hash len).2 := by
  unfold dropRequest; dsimp only; split <;> exact OnlyBoxes.set _ _
theorem only_forget {vm : VM} (x : Ctx β) : OnlyBoxes x (hostForget S env vm x).2 := by
  unfold hostForget
  repeat' (first | exact only_drop _ _ _ _ | exact OnlyBoxes.same _ | exact OnlyBoxes.set _ _ | split | (dsimp only; split))

theorem only_fn {h : Nat} {f : HostFn β} (hf : accFn S h = some f) (h14 : h ≠ 14) (h15 : h ≠ 15) (h16 : h ≠ 16)
    (vm : VM) (x : Ctx β) : OnlyBoxes x (f env vm x).2 := by
  unfold accFn at hf
  by_cases c : h = 0
  · rw [if_pos c] at hf; cases hf; only hostGas
  rw [if_neg c] at hf; clear c
  by_cases c : h = 1
  · rw [if_pos c] at hf; cases hf; only hostFetch
  rw [if_neg c] at hf; clear c
  by_cases c : h = 2
  · rw [if_pos c] at hf; cases hf; only hostLookup
  rw [if_neg c] at hf; clear c
  by_cases c : h = 3
  · rw [if_pos c] at hf; cases hf; only hostRead
  rw [if_neg c] at hf; clear c
  by_cases c : h = 4
  · rw [if_pos c] at hf; cases hf; only hostWrite
  rw [if_neg c] at hf; clear c
  by_cases c : h = 5
  · rw [if_pos c] at hf; cases hf; only hostInfo
  rw [if_neg c, if_neg h14, if_neg h15, if_neg h16] at hf; clear c
  by_cases c : h = 18
  · rw [if_pos c] at hf; cases hf; only hostNew
  rw [if_neg c] at hf; clear c
  by_cases c : h = 19
  · rw [if_pos c] at hf; cases hf; only hostUpgrade
  rw [if_neg c] at hf; clear c
  by_cases c : h = 20
  · rw [if_pos c] at hf; cases hf; only hostTransfer
  rw [if_neg c] at hf; clear c
  by_cases c : h = 21
  · rw [if_pos c] at hf; cases hf; only hostEject
  rw [if_neg c] at hf; clear c
  by_cases c : h = 22
  · rw [if_pos c] at hf; cases hf; only hostQuery
  rw [if_neg c] at hf; clear c
  by_cases c : h = 23
  · rw [if_pos c] at hf; cases hf; only hostSolicit
  rw [if_neg c] at hf; clear c
  by_cases c : h = 24
  · rw [if_pos c] at hf; cases hf; exact only_forget x
  rw [if_neg c] at hf; clear c
  by_cases c : h = 25
  · rw [if_pos c] at hf; cases hf; only hostYield
  rw [if_neg c] at hf; clear c
  by_cases c : h = 26
  · rw [if_pos c] at hf; cases hf; only hostProvide
  rw [if_neg c] at hf; cases hf

/-! ## One accumulation -/

/-- An invocation that is not aborted is its host calls. -/
theorem invoke_trace {σ : Type} {p : Prog} {host : Host σ} {init : Option VM} {pc gas : Nat} {s s' : σ} {out : Output} {used : Nat}
    (h : invokeWithArgs p host init pc gas s = (.ok (out, used), s')) :
    ∃ cs, runCalls host cs s = some s' := by
  unfold invokeWithArgs at h
  cases init with
  | none => cases h; exact ⟨[], rfl⟩
  | some vm =>
    simp only at h
    generalize hvm : ({ vm with pc := pc, gas := asI64 gas } : VM) = v at h
    cases hr : extRun p host ((asI64 gas).toNat + 1) ((asI64 gas).toNat + 1) v s with
    | mk o rest =>
      obtain ⟨vm', s1⟩ := rest
      rw [hr] at h
      have key : (∀ e, o ≠ .done (.error e)) → s1 = s' → ∃ cs, runCalls host cs s = some s' := fun hne e =>
        ⟨_, e ▸ extRun_trace p _ _ v s o vm' s1 hr hne⟩
      cases o with
      | «continue» => cases h
      | stuck => cases h
      | done r =>
        cases r with
        | error e => cases h
        | ok ex =>
          refine key (fun e c => by cases c) ?_
          simp only at h
          by_cases c1 : ex = .outOfGas
          · rw [if_pos c1] at h; cases h; rfl
          rw [if_neg c1] at h
          by_cases c2 : ex = .halt
          · rw [if_pos c2] at h
            by_cases c3 : (vm'.r 7).toNat ≥ 2 ^ 32
            · rw [if_pos c3] at h; cases h
            rw [if_neg c3] at h
            by_cases c4 : (!vm'.mem.rangeReadable (vm'.r 7).toNat (vm'.r 8).toNat) = true
            · rw [if_pos c4] at h; cases h; rfl
            rw [if_neg c4] at h
            cases hm : vm'.mem.readBytes (vm'.r 7).toNat (vm'.r 8).toNat with
            | error e => rw [hm] at h; cases h
            | ok bs => rw [hm] at h; cases h; rfl
          · rw [if_neg c2] at h; cases h; rfl

/-- What an accumulation that is not aborted did. -/
theorem accumulate_cases {g : Global} {mach : Machine} {p : PState Boxes} {a : AccArgs} {r : AccResult}
    (h : accumulate g env mach p a = .ok (some r)) :
    (∃ bs, r = { host := a.host, p := { p with boxes := boxOnly bs a.host } }) ∨
    (∃ bs id prog init out used q', invokeWithArgs prog (accHost (boxStore g) env) init 5 a.gasLimit
        { x := freshCtx a.host { p with boxes := bs } id, y := freshCtx a.host { p with boxes := bs } id } = (.ok (out, used), q') ∧
      r = select out used q') := by
  unfold accumulate at h
  cases h1 : existsActive g p.boxes a.host with
  | mk ex bs =>
    rw [h1] at h
    cases ex with
    | false => cases h
    | true =>
      simp only at h
      cases h2 : receive g bs a.host (received a.incoming) with
      | none => rw [h2] at h; cases h
      | some bs1 =>
        rw [h2] at h
        simp only at h
        cases h3 : accountCode g mach bs1 a.host with
        | mk c bs2 =>
          rw [h3] at h
          cases c with
          | error e => cases h
          | ok c =>
            cases c with
            | none => cases h; exact .inl ⟨bs2, rfl⟩
            | some code =>
              simp only at h
              by_cases c1 : code.length > MAX_CODE
              · rw [if_pos c1] at h; cases h; exact .inl ⟨bs2, rfl⟩
              rw [if_neg c1] at h
              cases h4 : initialId (boxStore g) bs2 a.seed with
              | none => rw [h4] at h; cases h
              | some id =>
                cases h5 : mach.load code with
                | none => rw [h4, h5] at h; cases h
                | some pi =>
                  obtain ⟨prog, init⟩ := pi
                  rw [h4, h5] at h
                  simp only at h
                  cases h6 : invokeWithArgs prog (accHost (boxStore g) env) init 5 a.gasLimit
                    { x := freshCtx a.host { p with boxes := bs2 } id, y := freshCtx a.host { p with boxes := bs2 } id } with
                  | mk o q' =>
                    rw [h6] at h
                    cases o with
                    | error e => cases h
                    | ok ou =>
                      obtain ⟨out, used⟩ := ou
                      cases h
                      exact .inr ⟨bs2, id, prog, init, out, used, q', h6, rfl⟩

theorem accumulate_kept {g : Global} {mach : Machine} {p : PState Boxes} {a : AccArgs} {r : AccResult}
    (h : accumulate g env mach p a = .ok (some r)) : r.host = a.host ∧ Kept p r.p := by
  rcases accumulate_cases h with ⟨bs, e⟩ | ⟨bs, id, prog, init, out, used, q', e1, e2⟩
  · subst e; exact ⟨rfl, rfl, rfl, rfl⟩
  · obtain ⟨cs, hcs⟩ := invoke_trace e1
    have k := calls_keep hcs a.host p ⟨rfl, rfl, rfl, rfl⟩ ⟨rfl, rfl, rfl, rfl⟩
    subst e2
    cases out <;> exact ⟨k.1.1, by first | exact k.1.2 | exact k.2.2⟩

end Fastroll.Svc
