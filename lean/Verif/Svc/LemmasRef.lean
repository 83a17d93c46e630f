import Verif.Svc.LemmasBox

/-! # Lemmas: every host function on the sandbox simulates the same function on plain maps -/
namespace Fastroll.Svc
open Fastroll.Pvm

def ResSim (g : Global) (D : Nat → Prop) (host : Nat) (r : Except VmErr HostResult × Ctx Boxes)
    (r' : Except VmErr HostResult × Ctx Global) : Prop :=
  r'.1 = r.1 ∧ r'.2 = r.2.view g ∧ Inv g D host r.2.p.boxes ∧ r.2.host = host

theorem info_ex {g : Global} {D : Nat → Prop} {host : Nat} {bs : Boxes} (H : Inv g D host bs) (s : Nat) :
    ∃ bs', (boxStore g).info bs s = ((view g bs).metas s, bs') ∧ view g bs' = view g bs ∧ Inv g D host bs' := by
  obtain ⟨a, b, c⟩ := info_sim H s
  exact ⟨_, Prod.ext a rfl, b, c⟩

theorem act_ex {g : Global} {D : Nat → Prop} {host : Nat} {bs : Boxes} (H : Inv g D host bs) (s : Nat) :
    ∃ bs', (boxStore g).existsAct bs s = (((view g bs).metas s).isSome, bs') ∧ view g bs' = view g bs ∧ Inv g D host bs' := by
  obtain ⟨a, b, c⟩ := existsAct_sim H s
  exact ⟨_, Prod.ext a rfl, b, c⟩

theorem getS_ex {g : Global} {D : Nat → Prop} {host : Nat} {bs : Boxes} (O : g.NoOrphans) (H : Inv g D host bs) (s : Nat) (k : Bytes) :
    ∃ bs', (boxStore g).getS bs s k = ((view g bs).storage s k, bs') ∧ view g bs' = view g bs ∧ Inv g D host bs' := by
  obtain ⟨a, b, c⟩ := getS_sim O H s k
  exact ⟨_, Prod.ext a rfl, b, c⟩

theorem getP_ex {g : Global} {D : Nat → Prop} {host : Nat} {bs : Boxes} (O : g.NoOrphans) (H : Inv g D host bs) (s : Nat) (k : Bytes) :
    ∃ bs', (boxStore g).getP bs s k = ((view g bs).preimages s k, bs') ∧ view g bs' = view g bs ∧ Inv g D host bs' := by
  obtain ⟨a, b, c⟩ := getP_sim O H s k
  exact ⟨_, Prod.ext a rfl, b, c⟩

theorem getL_ex {g : Global} {D : Nat → Prop} {host : Nat} {bs : Boxes} (O : g.NoOrphans) (H : Inv g D host bs) (s : Nat) (k : LKey) :
    ∃ bs', (boxStore g).getL bs s k = ((view g bs).lookups s k, bs') ∧ view g bs' = view g bs ∧ Inv g D host bs' := by
  obtain ⟨a, b, c⟩ := getL_sim O H s k
  exact ⟨_, Prod.ext a rfl, b, c⟩

theorem opt_ex {g : Global} {D : Nat → Prop} {host : Nat} {r : Option Boxes} {a : Option Global} (h : SimOpt g D host r a) :
    (r = none ∧ a = none) ∨ ∃ bs', r = some bs' ∧ a = some (view g bs') ∧ Inv g D host bs' := by
  cases r <;> cases a
  · exact .inl ⟨rfl, rfl⟩
  · exact h.elim
  · exact h.elim
  · exact .inr ⟨_, rfl, by rw [h.1], h.2⟩

section fns
variable {g : Global} {D : Nat → Prop} (O : g.NoOrphans) (env : Env) (vm : VM) (x : Ctx Boxes) (H : Inv g D x.host x.p.boxes)

theorem res_id {r : Except VmErr HostResult} (H : Inv g D x.host x.p.boxes) :
    ResSim g D x.host (r, x) (r, x.view g) := ⟨rfl, rfl, H, rfl⟩

theorem res_set {r : Except VmErr HostResult} {bs : Boxes} {a : Global} (hv : view g bs = a) (H : Inv g D x.host bs) :
    ResSim g D x.host (r, x.setBoxes bs) (r, (x.view g).setBoxes a) := by
  subst hv; exact ⟨rfl, rfl, H, rfl⟩

theorem boxes_view : (x.view g).p.boxes = view g x.p.boxes := rfl
theorem host_view : (x.view g).host = x.host := rfl

include H

theorem bless_sim : ResSim g D x.host (hostBless env vm x) (hostBless env vm (x.view g)) := by
  unfold hostBless
  split
  · exact res_id x H
  cases u32? vm 8 <;> cases u32? vm 11 <;> try exact res_id x H
  next ao zo =>
  simp only
  cases readMem vm ao (4 * env.par.cores) with
  | none => exact res_id x H
  | some abytes =>
    simp only
    split
    · exact res_id x H
    cases readMem vm zo (VM.n vm 12 * 12) with
    | none => exact res_id x H
    | some zbytes =>
      simp only
      cases u32? vm 7 <;> cases u32? vm 9 <;> cases u32? vm 10 <;>
        first | exact res_id x H | exact ⟨rfl, rfl, H, rfl⟩

theorem assign_sim : ResSim g D x.host (hostAssign env vm x) (hostAssign env vm (x.view g)) := by
  unfold hostAssign
  split
  · exact res_id x H
  cases u32? vm 8 with
  | none => exact res_id x H
  | some a =>
    simp only
    cases readMem vm a (32 * env.par.authQueue) with
    | none => exact res_id x H
    | some bs =>
      simp only
      split
      · exact res_id x H
      have : (x.view g).p.assign = x.p.assign := rfl
      rw [this]
      cases x.p.assign.current (VM.n vm 7) with
      | none => exact res_id x H
      | some s =>
        by_cases c : x.host ≠ s
        · have c' : (x.view g).host ≠ s := c
          simp only [if_pos c, if_pos c']; exact res_id x H
        have c' : ¬ (x.view g).host ≠ s := c
        simp only [if_neg c, if_neg c']
        cases u32? vm 9 with
        | none => exact res_id x H
        | some s' => exact ⟨rfl, rfl, H, rfl⟩

theorem designate_sim : ResSim g D x.host (hostDesignate env vm x) (hostDesignate env vm (x.view g)) := by
  unfold hostDesignate
  split
  · exact res_id x H
  cases u32? vm 7 with
  | none => exact res_id x H
  | some a =>
    simp only
    cases readMem vm a (env.par.keySize * env.par.validators) with
    | none => exact res_id x H
    | some bs =>
      have : (x.view g).p.designate = x.p.designate := rfl
      simp only [host_view, this]
      split
      · exact res_id x H
      · exact ⟨rfl, rfl, H, rfl⟩

theorem gas_sim : ResSim g D x.host (hostGas env vm x) (hostGas env vm (x.view g)) := by
  unfold hostGas
  split <;> exact ⟨rfl, rfl, H, rfl⟩

theorem fetch_sim : ResSim g D x.host (hostFetch env vm x) (hostFetch env vm (x.view g)) := by
  unfold hostFetch
  split
  · exact res_id x H
  cases env.fetch vm <;> exact res_id x H

theorem yield_sim : ResSim g D x.host (hostYield env vm x) (hostYield env vm (x.view g)) := by
  unfold hostYield
  split
  · exact res_id x H
  cases readHash vm 7 with
  | none => exact res_id x H
  | some h => exact ⟨rfl, rfl, H, rfl⟩

theorem hinfo_sim : ResSim g D x.host (hostInfo (boxStore g) env vm x) (hostInfo mapStore env vm (x.view g)) := by
  unfold hostInfo
  split
  · exact res_id x H
  have ht : target vm (x.view g) = target vm x := rfl
  rw [ht]
  cases target vm x with
  | none => exact res_id x H
  | some s =>
    obtain ⟨bs1, h1, v1, I1⟩ := info_ex H s
    simp only [h1, boxes_view, mapStore]
    cases (view g x.p.boxes).metas s with
    | none => exact res_set x v1 I1
    | some m => exact res_set x v1 I1

theorem upgrade_sim : ResSim g D x.host (hostUpgrade (boxStore g) env vm x) (hostUpgrade mapStore env vm (x.view g)) := by
  unfold hostUpgrade
  split
  · exact res_id x H
  cases readHash vm 7 with
  | none => exact res_id x H
  | some hash =>
    have S := modify_sim H x.host (fun m => { m with codeHash := hash, gasAcc := VM.n vm 8, gasXfer := VM.n vm 9 }) rfl
    simp only [boxes_view, host_view]
    rcases opt_ex S with ⟨a, b⟩ | ⟨bs', a, b, I⟩
    · simp only [boxStore, a, b]; exact res_id x H
    · simp only [boxStore, a, b]; exact res_set x rfl I

include O

theorem lookup_sim : ResSim g D x.host (hostLookup (boxStore g) env vm x) (hostLookup mapStore env vm (x.view g)) := by
  unfold hostLookup
  split
  · exact res_id x H
  cases readHash vm 8 with
  | none => exact res_id x H
  | some hash =>
    have ht : target vm (x.view g) = target vm x := rfl
    simp only [ht]
    cases target vm x with
    | none => exact res_id x H
    | some s =>
      obtain ⟨bs1, h1, v1, I1⟩ := getP_ex O H s hash
      simp only [h1, boxes_view, mapStore]
      cases (view g x.p.boxes).preimages s hash with
      | none => exact res_set x v1 I1
      | some m => exact res_set x v1 I1

theorem read_sim : ResSim g D x.host (hostRead (boxStore g) env vm x) (hostRead mapStore env vm (x.view g)) := by
  unfold hostRead
  split
  · exact res_id x H
  cases u32? vm 8 with
  | none => exact res_id x H
  | some a =>
    simp only
    cases readMem vm a (VM.n vm 9) with
    | none => exact res_id x H
    | some key =>
      have ht : target vm (x.view g) = target vm x := rfl
      simp only [ht]
      cases target vm x with
      | none => exact res_id x H
      | some s =>
        obtain ⟨bs1, h1, v1, I1⟩ := getS_ex O H s key
        simp only [h1, boxes_view, mapStore]
        cases (view g x.p.boxes).storage s key with
        | none => exact res_set x v1 I1
        | some m => exact res_set x v1 I1

theorem query_sim : ResSim g D x.host (hostQuery (boxStore g) env vm x) (hostQuery mapStore env vm (x.view g)) := by
  unfold hostQuery
  split
  · exact res_id x H
  cases readHash vm 7 with
  | none => exact res_id x H
  | some hash =>
    simp only
    cases u32? vm 8 with
    | none => exact res_id x H
    | some len =>
      obtain ⟨bs1, h1, v1, I1⟩ := getL_ex O H x.host (hash, len)
      simp only [h1, boxes_view, host_view, mapStore]
      cases (view g x.p.boxes).lookups x.host (hash, len) with
      | none => exact res_set x v1 I1
      | some ts =>
        match ts with
        | [] => exact res_set x v1 I1
        | [_] => exact res_set x v1 I1
        | [_, _] => exact res_set x v1 I1
        | [_, _, _] => exact res_set x v1 I1
        | _ :: _ :: _ :: _ :: _ => exact res_set x v1 I1

theorem provide_sim : ResSim g D x.host (hostProvide (boxStore g) env vm x) (hostProvide mapStore env vm (x.view g)) := by
  unfold hostProvide
  split
  · exact res_id x H
  cases u32? vm 8 with
  | none => exact res_id x H
  | some a =>
    simp only
    cases readMem vm a (VM.n vm 9) with
    | none => exact res_id x H
    | some data =>
      have ht : target vm (x.view g) = target vm x := rfl
      simp only [ht]
      cases target vm x with
      | none => exact res_id x H
      | some s =>
        obtain ⟨bs1, h1, v1, I1⟩ := info_ex H s
        obtain ⟨bs2, h2, v2, I2⟩ := getL_ex O I1 s (env.hash data, VM.n vm 9 % U32)
        rw [v1] at h2 v2
        simp only [h1, boxes_view, mapStore]
        cases (view g x.p.boxes).metas s with
        | none => exact res_set x v1 I1
        | some m =>
          simp only [h2]
          cases (view g x.p.boxes).lookups s (env.hash data, VM.n vm 9 % U32) with
          | none => exact res_set x v2 I2
          | some ts =>
            simp only
            have hp : (x.view g).provided = x.provided := rfl
            rw [hp]
            split
            · exact res_set x v2 I2
            · split
              · exact res_set x v2 I2
              · refine ⟨rfl, ?_, I2, rfl⟩
                show _ = Ctx.view g _
                simp only [Ctx.setBoxes, Ctx.view, v2]

theorem solicit_sim : ResSim g D x.host (hostSolicit (boxStore g) env vm x) (hostSolicit mapStore env vm (x.view g)) := by
  unfold hostSolicit
  split
  · exact res_id x H
  cases readHash vm 7 with
  | none => exact res_id x H
  | some hash =>
    simp only
    cases u32? vm 8 with
    | none => exact res_id x H
    | some len =>
      simp only
      obtain ⟨bs1, h1, v1, I1⟩ := getL_ex O H x.host (hash, len)
      have e1 : mapStore.getL (x.view g).p.boxes (x.view g).host (hash, len) =
          ((view g x.p.boxes).lookups x.host (hash, len), view g x.p.boxes) := rfl
      rw [h1, e1]
      cases (view g x.p.boxes).lookups x.host (hash, len) with
      | some ts =>
        simp only
        split
        · exact res_set x v1 I1
        · have S := insL_sim I1 x.host (hash, len) (ts ++ [env.slot]) I1.alive
          rw [v1] at S
          rcases opt_ex S with ⟨a, b⟩ | ⟨bs', a, b, I⟩
          · simp only [boxStore, a, b, host_view]; exact res_set x v1 I1
          · simp only [boxStore, a, b, host_view]; exact res_set x rfl I
      | none =>
        simp only
        obtain ⟨bs2, h2, v2, I2⟩ := info_ex I1 x.host
        rw [v1] at h2 v2
        have e2 : mapStore.info (view g x.p.boxes) (x.view g).host = ((view g x.p.boxes).metas x.host, view g x.p.boxes) := rfl
        rw [h2, e2]
        cases (view g x.p.boxes).metas x.host with
        | none => exact res_set x v2 I2
        | some m =>
          simp only
          split
          · exact res_set x v2 I2
          · have S := insL_sim I2 x.host (hash, len) [] I2.alive
            rw [v2] at S
            rcases opt_ex S with ⟨a, b⟩ | ⟨bs', a, b, I⟩
            · simp only [boxStore, a, b, host_view]; exact res_set x v2 I2
            · simp only [boxStore, a, b, host_view]
              have S2 := footprints_sim I x.host {} (usageDelta none (some len)) rfl
              rcases opt_ex S2 with ⟨a2, b2⟩ | ⟨bs'', a2, b2, I'⟩
              · simp only [a2, b2]; exact res_set x rfl I
              · simp only [a2, b2]; exact res_set x rfl I'

theorem drop_sim {bs : Boxes} (Hb : Inv g D x.host bs) (hash : Bytes) (len : Nat) :
    ResSim g D x.host (dropRequest (boxStore g) x bs hash len)
      (dropRequest mapStore (x.view g) (view g bs) hash len) := by
  unfold dropRequest
  obtain ⟨p1, P1⟩ := remP_sim O Hb x.host hash
  obtain ⟨l1, L1⟩ := remL_sim O P1 x.host (hash, len)
  rw [p1] at l1
  have S := footprints_sim L1 x.host {} (usageDelta (some len) none) rfl
  rw [l1] at S
  simp only [host_view, boxStore]
  rcases opt_ex S with ⟨a, b⟩ | ⟨bs', a, b, I⟩
  · simp only [a, b]; exact res_set x l1 L1
  · simp only [a, b]; exact res_set x rfl I

theorem push_sim {bs : Boxes} (Hb : Inv g D x.host bs) (k : LKey) (t : Nat) :
    SimOpt g D x.host ((boxStore g).push bs x.host k t) (mapStore.push (view g bs) x.host k t) := by
  unfold Store.push
  obtain ⟨bs1, h1, v1, I1⟩ := getL_ex O Hb x.host k
  have e1 : mapStore.getL (view g bs) x.host k = ((view g bs).lookups x.host k, view g bs) := rfl
  rw [h1, e1]
  cases (view g bs).lookups x.host k with
  | none => trivial
  | some ts =>
    simp only
    split
    · have S := insL_sim I1 x.host k (ts ++ [t]) I1.alive
      rw [v1] at S; exact S
    · trivial

theorem drain_sim {bs : Boxes} (Hb : Inv g D x.host bs) (k : LKey) :
    SimOpt g D x.host ((boxStore g).drain bs x.host k) (mapStore.drain (view g bs) x.host k) := by
  unfold Store.drain
  obtain ⟨bs1, h1, v1, I1⟩ := getL_ex O Hb x.host k
  have e1 : mapStore.getL (view g bs) x.host k = ((view g bs).lookups x.host k, view g bs) := rfl
  rw [h1, e1]
  cases (view g bs).lookups x.host k with
  | none => exact ⟨v1, I1⟩
  | some ts =>
    have S := insL_sim I1 x.host k [] I1.alive
    rw [v1] at S; exact S

theorem extend_sim {bs : Boxes} (Hb : Inv g D x.host bs) (k : LKey) (l : List Nat) :
    SimOpt g D x.host ((boxStore g).extend bs x.host k l) (mapStore.extend (view g bs) x.host k l) := by
  unfold Store.extend
  obtain ⟨bs1, h1, v1, I1⟩ := getL_ex O Hb x.host k
  have e1 : mapStore.getL (view g bs) x.host k = ((view g bs).lookups x.host k, view g bs) := rfl
  rw [h1, e1]
  cases (view g bs).lookups x.host k with
  | none => trivial
  | some ts =>
    simp only
    split
    · have S := insL_sim I1 x.host k (ts ++ l) I1.alive
      rw [v1] at S; exact S
    · trivial

theorem forget_sim : ResSim g D x.host (hostForget (boxStore g) env vm x) (hostForget mapStore env vm (x.view g)) := by
  unfold hostForget
  split
  · exact res_id x H
  cases readHash vm 7 with
  | none => exact res_id x H
  | some hash =>
    simp only
    cases u32? vm 8 with
    | none => exact res_id x H
    | some len =>
      simp only
      obtain ⟨bs1, h1, v1, I1⟩ := getL_ex O H x.host (hash, len)
      have e1 : mapStore.getL (x.view g).p.boxes (x.view g).host (hash, len) =
          ((view g x.p.boxes).lookups x.host (hash, len), view g x.p.boxes) := rfl
      rw [h1, e1]
      have D := drop_sim O x H I1 hash len
      rw [v1] at D
      cases (view g x.p.boxes).lookups x.host (hash, len) with
      | none => exact res_set x v1 I1
      | some ts =>
        match ts with
        | [] => exact D
        | [_] =>
          simp only [host_view]
          have S := push_sim O x H I1 (hash, len) env.slot
          rw [v1] at S
          rcases opt_ex S with ⟨a, b⟩ | ⟨bs', a, b, I⟩
          · simp only [a, b]; exact res_set x v1 I1
          · simp only [a, b]; exact res_set x rfl I
        | [_, b] =>
          simp only
          split
          · exact D
          · exact res_set x v1 I1
        | [_, b, c] =>
          simp only [host_view]
          split
          · have S := drain_sim O x H I1 (hash, len)
            rw [v1] at S
            rcases opt_ex S with ⟨a, b⟩ | ⟨bs', a, b, I⟩
            · simp only [a, b]; exact res_set x v1 I1
            · simp only [a, b]
              have S2 := extend_sim O x H I (hash, len) [c, env.slot]
              rcases opt_ex S2 with ⟨a2, b2⟩ | ⟨bs'', a2, b2, I'⟩
              · simp only [a2, b2]; exact res_set x rfl I
              · simp only [a2, b2]; exact res_set x rfl I'
          · exact res_set x v1 I1
        | _ :: _ :: _ :: _ :: _ => exact res_set x v1 I1

theorem write_sim : ResSim g D x.host (hostWrite (boxStore g) env vm x) (hostWrite mapStore env vm (x.view g)) := by
  unfold hostWrite
  split
  · exact res_id x H
  cases u32? vm 7 <;> cases u32? vm 9 <;> try exact res_id x H
  next ka va =>
  simp only
  cases readMem vm ka (VM.n vm 8) <;> cases writeValue vm va <;> try exact res_id x H
  next key value =>
  obtain ⟨bs1, h1, v1, I1⟩ := getS_ex O H x.host key
  have e1 : mapStore.getS (x.view g).p.boxes (x.view g).host key =
      ((view g x.p.boxes).storage x.host key, view g x.p.boxes) := rfl
  simp only [h1, e1]
  simp only [host_view]
  generalize (view g x.p.boxes).storage x.host key = prev
  generalize usageDelta (prev.map (storOctets key)) (value.map (storOctets key)) = d
  have AF : ∃ bs2 r, affordable (boxStore g) bs1 x.host d = (r, bs2) ∧
      affordable mapStore (view g x.p.boxes) x.host d = (r, view g x.p.boxes) ∧
      view g bs2 = view g x.p.boxes ∧ Inv g D x.host bs2 := by
    unfold affordable
    cases d.isZero with
    | true => exact ⟨bs1, some true, rfl, rfl, v1, I1⟩
    | false =>
      obtain ⟨bs2, h2, v2, I2⟩ := info_ex I1 x.host
      rw [v1] at h2 v2
      have e2 : mapStore.info (view g x.p.boxes) x.host = ((view g x.p.boxes).metas x.host, view g x.p.boxes) := rfl
      rw [h2, e2]
      cases (view g x.p.boxes).metas x.host with
      | none => exact ⟨bs2, _, rfl, rfl, v2, I2⟩
      | some m => exact ⟨bs2, _, rfl, rfl, v2, I2⟩
  obtain ⟨bs2, r, a1, a2, v2, I2⟩ := AF
  rw [a1, a2]
  cases r with
  | none => exact res_set x v2 I2
  | some t =>
    cases t with
    | false => exact res_set x v2 I2
    | true =>
      simp only
      have S : SimOpt g D x.host (storeValue (boxStore g) bs2 x.host key value)
          (storeValue mapStore (view g x.p.boxes) x.host key value) := by
        rw [← v2]
        cases value with
        | none => exact remS_sim O I2 x.host key
        | some v => exact insS_sim I2 x.host key v I2.alive
      rcases opt_ex S with ⟨a, b⟩ | ⟨bs', a, b, I⟩
      · simp only [a, b]; exact res_set x v2 I2
      · simp only [a, b]
        have S2 := footprints_sim I x.host d {} rfl
        rcases opt_ex S2 with ⟨a3, b3⟩ | ⟨bs'', a3, b3, I'⟩
        · simp only [boxStore, a3, b3]; exact res_set x rfl I
        · simp only [boxStore, a3, b3]; exact res_set x rfl I'

omit O in
theorem checkLoop_sim {bs : Boxes} (Hb : Inv g D x.host bs) (n id : Nat) :
    checkLoop (boxStore g) bs n id = checkLoop mapStore (view g bs) n id := by
  induction n generalizing id with
  | zero => rfl
  | succ n ih =>
    simp only [checkLoop, ih]
    have e : (boxStore g).existsEff bs id = mapStore.existsEff (view g bs) id := existsEff_sim Hb id
    rw [e]

omit O in
theorem sub_sim {bs : Boxes} (Hb : Inv g D x.host bs) (n : Nat) :
    SimOpt g D x.host (subBalance (boxStore g) bs x.host n) (subBalance mapStore (view g bs) x.host n) := by
  unfold subBalance
  obtain ⟨bs1, h1, v1, I1⟩ := info_ex Hb x.host
  have e1 : mapStore.info (view g bs) x.host = ((view g bs).metas x.host, view g bs) := rfl
  rw [h1, e1]
  cases (view g bs).metas x.host with
  | none => trivial
  | some m =>
    simp only
    split
    · have S := modify_sim I1 x.host (fun m => { m with balance := m.balance - n }) rfl
      rw [v1] at S; exact S
    · trivial

omit O in
theorem add_sim {bs : Boxes} (Hb : Inv g D x.host bs) (n : Nat) :
    SimOpt g D x.host (addBalance (boxStore g) bs x.host n) (addBalance mapStore (view g bs) x.host n) := by
  unfold addBalance
  obtain ⟨bs1, h1, v1, I1⟩ := info_ex Hb x.host
  have e1 : mapStore.info (view g bs) x.host = ((view g bs).metas x.host, view g bs) := rfl
  rw [h1, e1]
  cases (view g bs).metas x.host with
  | none => trivial
  | some m =>
    simp only
    split
    · have S := modify_sim I1 x.host (fun m => { m with balance := m.balance + n }) rfl
      rw [v1] at S; exact S
    · trivial

omit O in
theorem transfer_sim : ResSim g D x.host (hostTransfer (boxStore g) env vm x) (hostTransfer mapStore env vm (x.view g)) := by
  unfold hostTransfer
  split
  · exact res_id x H
  simp only
  cases u32? vm 10 with
  | none => exact res_id x H
  | some a =>
    simp only
    cases readMem vm a env.par.memo with
    | none => exact res_id x H
    | some memo =>
      simp only
      cases u32? vm 7 with
      | none => exact res_id x H
      | some dest =>
        obtain ⟨bs1, h1, v1, I1⟩ := info_ex H dest
        obtain ⟨bs2, h2, v2, I2⟩ := info_ex I1 x.host
        rw [v1] at h2 v2
        have e1 : mapStore.info (x.view g).p.boxes dest = ((view g x.p.boxes).metas dest, view g x.p.boxes) := rfl
        have e2 : mapStore.info (view g x.p.boxes) (x.view g).host = ((view g x.p.boxes).metas x.host, view g x.p.boxes) := rfl
        simp only [h1, e1]
        cases (view g x.p.boxes).metas dest with
        | none => exact res_set x v1 I1
        | some dm =>
          simp only [h2, e2]
          cases (view g x.p.boxes).metas x.host with
          | none => exact res_set x v2 I2
          | some am =>
            simp only
            split
            · exact res_set x v2 I2
            split
            · exact res_set x v2 I2
            split
            · exact res_set x v2 I2
            have S := sub_sim x H I2 (VM.n vm 8)
            rw [v2] at S
            have e3 : subBalance mapStore (view g x.p.boxes) (x.view g).host (VM.n vm 8) =
              subBalance mapStore (view g x.p.boxes) x.host (VM.n vm 8) := rfl
            rw [e3]
            rcases opt_ex S with ⟨a, b⟩ | ⟨bs', a, b, I⟩
            · simp only [a, b]; exact res_set x v2 I2
            · simp only [a, b]; exact ⟨rfl, rfl, I, rfl⟩

/-- The condition under which ejecting agrees: the account to eject owns nothing but the request
named by the caller. -/
def EjectOk (vm : VM) (x : Ctx Global) : Prop :=
  ∀ hash e m ts, readHash vm 8 = some hash → u32? vm 7 = some e → x.p.boxes.metas e = some m →
    m.items = 2 → x.p.boxes.lookups e (hash, max 81 m.octets - 81) = some ts →
    x.p.boxes.OnlyRequest e (hash, max 81 m.octets - 81)

theorem eject_fn_sim (ht : EjectOk vm (x.view g)) (hD : ∀ e, u32? vm 7 = some e → e ≠ x.host → ¬ D e) :
    ResSim g D x.host (hostEject (boxStore g) env vm x) (hostEject mapStore env vm (x.view g)) := by
  unfold EjectOk at ht
  unfold hostEject
  split
  · exact res_id x H
  cases hh : readHash vm 8 with
  | none => exact res_id x H
  | some hash =>
    simp only
    cases he : u32? vm 7 with
    | none => exact res_id x H
    | some e =>
      simp only
      by_cases c : e = x.host
      · have c' : e = (x.view g).host := c
        simp only [if_pos c, if_pos c']; exact res_id x H
      have c' : ¬ e = (x.view g).host := c
      simp only [if_neg c, if_neg c']
      obtain ⟨bs1, h1, v1, I1⟩ := info_ex H e
      have e1 : mapStore.info (x.view g).p.boxes e = ((view g x.p.boxes).metas e, view g x.p.boxes) := rfl
      simp only [h1, e1]
      cases hm : (view g x.p.boxes).metas e with
      | none => exact res_set x v1 I1
      | some em =>
        simp only
        have hh' : hostAsHash (x.view g).host = hostAsHash x.host := rfl
        rw [hh']
        split
        · exact res_set x v1 I1
        split
        · exact res_set x v1 I1
        split
        · exact res_set x v1 I1
        next ci =>
        obtain ⟨bs2, h2, v2, I2⟩ := getL_ex O I1 e (hash, max 81 em.octets - 81)
        rw [v1] at h2 v2
        have e2 : mapStore.getL (view g x.p.boxes) e (hash, max 81 em.octets - 81) =
          ((view g x.p.boxes).lookups e (hash, max 81 em.octets - 81), view g x.p.boxes) := rfl
        simp only [h2, e2]
        cases hl : (view g x.p.boxes).lookups e (hash, max 81 em.octets - 81) with
        | none => exact res_set x v2 I2
        | some ts =>
          have T := ht hash e em ts hh he hm (Decidable.byContradiction ci) hl
          simp only
          split
          · exact res_set x v2 I2
          have S := add_sim x H I2 em.balance
          rw [v2] at S
          have e3 : addBalance mapStore (view g x.p.boxes) (x.view g).host em.balance =
            addBalance mapStore (view g x.p.boxes) x.host em.balance := rfl
          rw [e3]
          rcases opt_ex S with ⟨a, b⟩ | ⟨bs3, a, b, I3⟩
          · simp only [a, b]; exact res_set x v2 I2
          · simp only [a, b]
            have T' : (view g bs3).OnlyRequest e (hash, max 81 em.octets - 81) := by
              have : (view g bs3).storage = (view g x.p.boxes).storage ∧
                  (view g bs3).preimages = (view g x.p.boxes).preimages ∧
                  (view g bs3).lookups = (view g x.p.boxes).lookups := by
                unfold addBalance mapStore at b
                simp only at b
                cases hx : (view g x.p.boxes).metas x.host with
                | none => simp [hx] at b
                | some am =>
                  simp only [hx, Option.map_some] at b
                  split at b
                  · rw [← Option.some.inj b]; exact ⟨rfl, rfl, rfl⟩
                  · cases b
              unfold Global.OnlyRequest
              rw [this.1, this.2.1, this.2.2]; exact T
            have S2 := eject_sim O I3 e (hash, max 81 em.octets - 81) c (hD e he c) T'
            rcases opt_ex S2 with ⟨a2, b2⟩ | ⟨bs4, a2, b2, I4⟩
            · simp only [boxStore, a2, b2]; exact res_set x rfl I3
            · simp only [boxStore, a2, b2]; exact res_set x rfl I4

theorem new_fn_sim (hf : g.metas (newTarget vm x) = none) :
    ResSim g D x.host (hostNew (boxStore g) env vm x) (hostNew mapStore env vm (x.view g)) := by
  unfold hostNew
  split
  · exact res_id x H
  cases u32? vm 7 <;> cases u32? vm 8 <;> try exact res_id x H
  next a len =>
  simp only
  cases readMem vm a 32 with
  | none => exact res_id x H
  | some hash =>
    simp only
    by_cases c : VM.n vm 11 ≠ 0 ∧ x.host ≠ x.p.manager
    · have c' : VM.n vm 11 ≠ 0 ∧ (x.view g).host ≠ (x.view g).p.manager := c
      simp only [if_pos c, if_pos c']; exact res_id x H
    have c' : ¬ (VM.n vm 11 ≠ 0 ∧ (x.view g).host ≠ (x.view g).p.manager) := c
    simp only [if_neg c, if_neg c']
    obtain ⟨bs1, h1, v1, I1⟩ := info_ex H x.host
    have e1 : mapStore.info (x.view g).p.boxes (x.view g).host = ((view g x.p.boxes).metas x.host, view g x.p.boxes) := rfl
    simp only [h1, e1]
    cases (view g x.p.boxes).metas x.host with
    | none => exact res_set x v1 I1
    | some am =>
      simp only
      split
      · exact res_set x v1 I1
      obtain ⟨bs2, h2, v2, I2⟩ := act_ex I1 ((u32? vm 12).getD (U32 - 1))
      rw [v1] at h2 v2
      have e2 : mapStore.existsAct (view g x.p.boxes) ((u32? vm 12).getD (U32 - 1)) =
        (((view g x.p.boxes).metas ((u32? vm 12).getD (U32 - 1))).isSome, view g x.p.boxes) := rfl
      simp only [h2, e2]
      unfold newTarget at hf
      have er : ((x.view g).host = (x.view g).p.registrar.current) = (x.host = x.p.registrar.current) := rfl
      have en : (x.view g).nextId = x.nextId := rfl
      generalize hsm : (u32? vm 12).getD (U32 - 1) = small at hf ⊢
      by_cases d : (small < MIN_ID ∧ x.host = x.p.registrar.current) ∧
          ((view g x.p.boxes).metas small).isSome = true
      · have d' : (small < MIN_ID ∧ (x.view g).host = (x.view g).p.registrar.current) ∧
          ((view g x.p.boxes).metas small).isSome = true := d
        simp only [if_pos d, if_pos d']; exact res_set x v2 I2
      have d' : ¬ ((small < MIN_ID ∧ (x.view g).host = (x.view g).p.registrar.current) ∧
          ((view g x.p.boxes).metas small).isSome = true) := d
      simp only [if_neg d, if_neg d']
      have S := sub_sim x H I2 (initialThreshold len (VM.n vm 11))
      rw [v2] at S
      have e3 : subBalance mapStore (view g x.p.boxes) (x.view g).host (initialThreshold len (VM.n vm 11)) =
        subBalance mapStore (view g x.p.boxes) x.host (initialThreshold len (VM.n vm 11)) := rfl
      rw [e3]
      rcases opt_ex S with ⟨a, b⟩ | ⟨bs3, a, b, I3⟩
      · simp only [a, b]; exact res_set x v2 I2
      simp only [a, b]
      have ADD : ∀ id m, g.metas id = none → SimOpt g D x.host
          (addAccount (boxStore g) bs3 id m (hash, len)) (addAccount mapStore (view g bs3) id m (hash, len)) := by
        intro id m hid
        unfold addAccount
        obtain ⟨cv, cI⟩ := create_sim O I3 id m hid
        have T := insL_sim cI id (hash, len) [] (by rw [cv]; simp [mapStore, upd])
        rw [cv] at T; exact T
      by_cases k : small < MIN_ID ∧ x.host = x.p.registrar.current
      · have k' : small < MIN_ID ∧ (x.view g).host = (x.view g).p.registrar.current := k
        simp only [if_pos k] at hf
        simp only [if_pos k, if_pos k']
        have A := ADD small (newMeta hash (initialThreshold len (VM.n vm 11)) (VM.n vm 9) (VM.n vm 10) (VM.n vm 11) len env.slot x.host) hf
        rcases opt_ex A with ⟨a, b⟩ | ⟨bs4, a, b, I4⟩
        · simp only [host_view, a, b]; exact res_set x rfl I3
        · simp only [host_view, a, b]; exact res_set x rfl I4
      · have k' : ¬ (small < MIN_ID ∧ (x.view g).host = (x.view g).p.registrar.current) := k
        simp only [if_neg k] at hf
        simp only [if_neg k, if_neg k', en]
        have A := ADD x.nextId (newMeta hash (initialThreshold len (VM.n vm 11)) (VM.n vm 9) (VM.n vm 10) (VM.n vm 11) len env.slot x.host) hf
        rcases opt_ex A with ⟨a, b⟩ | ⟨bs4, a, b, I4⟩
        · simp only [host_view, a, b]; exact res_set x rfl I3
        · simp only [host_view, a, b]
          have R : rotateId (boxStore g) bs4 x.nextId = rotateId mapStore (view g bs4) x.nextId :=
            checkLoop_sim x H I4 _ _
          rw [R]
          cases rotateId mapStore (view g bs4) x.nextId with
          | none => exact res_set x rfl I4
          | some next => exact ⟨rfl, rfl, I4, rfl⟩

/-- Every host function, by number. -/
theorem fn_sim (h : Nat) (hf : h = 18 → g.metas (newTarget vm x) = none)
    (ht : h = 21 → EjectOk vm (x.view g) ∧ ∀ e, u32? vm 7 = some e → e ≠ x.host → ¬ D e) :
    (accFn (boxStore g) h = none ∧ accFn mapStore h = none) ∨
    ∃ f f', accFn (boxStore g) h = some f ∧ accFn mapStore h = some f' ∧
      ResSim g D x.host (f env vm x) (f' env vm (x.view g)) := by
  unfold accFn
  by_cases c : h = 0
  · rw [if_pos c, if_pos c]; exact .inr ⟨_, _, rfl, rfl, gas_sim env vm x H⟩
  rw [if_neg c, if_neg c]; clear c
  by_cases c : h = 1
  · rw [if_pos c, if_pos c]; exact .inr ⟨_, _, rfl, rfl, fetch_sim env vm x H⟩
  rw [if_neg c, if_neg c]; clear c
  by_cases c : h = 2
  · rw [if_pos c, if_pos c]; exact .inr ⟨_, _, rfl, rfl, lookup_sim O env vm x H⟩
  rw [if_neg c, if_neg c]; clear c
  by_cases c : h = 3
  · rw [if_pos c, if_pos c]; exact .inr ⟨_, _, rfl, rfl, read_sim O env vm x H⟩
  rw [if_neg c, if_neg c]; clear c
  by_cases c : h = 4
  · rw [if_pos c, if_pos c]; exact .inr ⟨_, _, rfl, rfl, write_sim O env vm x H⟩
  rw [if_neg c, if_neg c]; clear c
  by_cases c : h = 5
  · rw [if_pos c, if_pos c]; exact .inr ⟨_, _, rfl, rfl, hinfo_sim env vm x H⟩
  rw [if_neg c, if_neg c]; clear c
  by_cases c : h = 14
  · rw [if_pos c, if_pos c]; exact .inr ⟨_, _, rfl, rfl, bless_sim env vm x H⟩
  rw [if_neg c, if_neg c]; clear c
  by_cases c : h = 15
  · rw [if_pos c, if_pos c]; exact .inr ⟨_, _, rfl, rfl, assign_sim env vm x H⟩
  rw [if_neg c, if_neg c]; clear c
  by_cases c : h = 16
  · rw [if_pos c, if_pos c]; exact .inr ⟨_, _, rfl, rfl, designate_sim env vm x H⟩
  rw [if_neg c, if_neg c]; clear c
  by_cases c : h = 18
  · rw [if_pos c, if_pos c]; exact .inr ⟨_, _, rfl, rfl, new_fn_sim O env vm x H (hf c)⟩
  rw [if_neg c, if_neg c]; clear c
  by_cases c : h = 19
  · rw [if_pos c, if_pos c]; exact .inr ⟨_, _, rfl, rfl, upgrade_sim env vm x H⟩
  rw [if_neg c, if_neg c]; clear c
  by_cases c : h = 20
  · rw [if_pos c, if_pos c]; exact .inr ⟨_, _, rfl, rfl, transfer_sim env vm x H⟩
  rw [if_neg c, if_neg c]; clear c
  by_cases c : h = 21
  · rw [if_pos c, if_pos c]; exact .inr ⟨_, _, rfl, rfl, eject_fn_sim O env vm x H (ht c).1 (ht c).2⟩
  rw [if_neg c, if_neg c]; clear c
  by_cases c : h = 22
  · rw [if_pos c, if_pos c]; exact .inr ⟨_, _, rfl, rfl, query_sim O env vm x H⟩
  rw [if_neg c, if_neg c]; clear c
  by_cases c : h = 23
  · rw [if_pos c, if_pos c]; exact .inr ⟨_, _, rfl, rfl, solicit_sim O env vm x H⟩
  rw [if_neg c, if_neg c]; clear c
  by_cases c : h = 24
  · rw [if_pos c, if_pos c]; exact .inr ⟨_, _, rfl, rfl, forget_sim O env vm x H⟩
  rw [if_neg c, if_neg c]; clear c
  by_cases c : h = 25
  · rw [if_pos c, if_pos c]; exact .inr ⟨_, _, rfl, rfl, yield_sim env vm x H⟩
  rw [if_neg c, if_neg c]; clear c
  by_cases c : h = 26
  · rw [if_pos c, if_pos c]; exact .inr ⟨_, _, rfl, rfl, provide_sim O env vm x H⟩
  rw [if_neg c, if_neg c]; clear c
  exact .inl ⟨rfl, rfl⟩

end fns
end Fastroll.Svc
