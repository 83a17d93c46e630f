import Verif.Svc.Spec

/-! # Lemmas: what one host call can do to the accounts, as a list of cases -/
namespace Fastroll.Svc
open Fastroll.Pvm

/-- The accounts after `new`. -/
def created (x : Ctx Global) (m : Meta) (id : Nat) (nm : Meta) (key : LKey) : Global where
  metas := upd (upd x.p.boxes.metas x.host (some { m with balance := m.balance - nm.balance })) id (some nm)
  storage := clear x.p.boxes.storage id
  preimages := clear x.p.boxes.preimages id
  lookups := upd2 (clear x.p.boxes.lookups id) id key (some [])

/-- The effects of one host call of a live service `x.host` on plain maps; `ok` says the call did
not abort. -/
inductive Step (env : Env) (ok : Bool) (x : Ctx Global) : Ctx Global → Prop where
  /-- The accounts and the transfers are untouched. -/
  | same (x') (hb : x'.p.boxes = x.p.boxes) (ht : x'.transfers = x.transfers) (hn : x'.nextId = x.nextId)
      (hh : x'.host = x.host) : Step env ok x x'
  | write (m k v) (hm : x.p.boxes.metas x.host = some m)
      (ha : (usageDelta ((x.p.boxes.storage x.host k).map (storOctets k)) (v.map (storOctets k))).isZero = false →
        m.simulate (usageDelta ((x.p.boxes.storage x.host k).map (storOctets k)) (v.map (storOctets k))) {} ≤ m.balance) :
      Step env ok x (x.setBoxes { x.p.boxes with
        metas := upd x.p.boxes.metas x.host (some (m.updateFootprints
          (usageDelta ((x.p.boxes.storage x.host k).map (storOctets k)) (v.map (storOctets k))) {}).1),
        storage := upd2 x.p.boxes.storage x.host k v })
  | upgrade (m c g t) (hm : x.p.boxes.metas x.host = some m) :
      Step env ok x (x.setBoxes { x.p.boxes with
        metas := upd x.p.boxes.metas x.host (some { m with codeHash := c, gasAcc := g, gasXfer := t }) })
  | solicit (m) (k : LKey) (hm : x.p.boxes.metas x.host = some m) (hl : x.p.boxes.lookups x.host k = none)
      (ha : m.simulate {} (usageDelta none (some k.2)) ≤ m.balance) :
      Step env ok x (x.setBoxes { x.p.boxes with
        metas := upd x.p.boxes.metas x.host (some (m.updateFootprints {} (usageDelta none (some k.2))).1),
        lookups := upd2 x.p.boxes.lookups x.host k (some []) })
  | resolicit (k a b) (hl : x.p.boxes.lookups x.host k = some [a, b]) :
      Step env ok x (x.setBoxes { x.p.boxes with lookups := upd2 x.p.boxes.lookups x.host k (some [a, b, env.slot]) })
  | drop (m) (k : LKey) (ts) (hm : x.p.boxes.metas x.host = some m) (hl : x.p.boxes.lookups x.host k = some ts)
      (he : ts = [] ∨ ∃ a b, ts = [a, b] ∧ expiresAt env b < env.slot) :
      Step env ok x (x.setBoxes { x.p.boxes with
        metas := upd x.p.boxes.metas x.host (some (m.updateFootprints {} (usageDelta (some k.2) none)).1),
        preimages := upd2 x.p.boxes.preimages x.host k.1 none,
        lookups := upd2 x.p.boxes.lookups x.host k none })
  | unavail (k a) (hl : x.p.boxes.lookups x.host k = some [a]) :
      Step env ok x (x.setBoxes { x.p.boxes with lookups := upd2 x.p.boxes.lookups x.host k (some [a, env.slot]) })
  | cycle (k a b c) (hl : x.p.boxes.lookups x.host k = some [a, b, c]) (he : expiresAt env b < env.slot) :
      Step env ok x (x.setBoxes { x.p.boxes with lookups := upd2 x.p.boxes.lookups x.host k (some [c, env.slot]) })
  | pay (m dm) (t : Transfer) (hm : x.p.boxes.metas x.host = some m) (hd : x.p.boxes.metas t.dst = some dm)
      (hs : t.src = x.host) (hg : dm.gasXfer ≤ t.gas) (hc : t.amount ≤ m.balance)
      (ht : m.threshold ≤ m.balance - t.amount) :
      Step env ok x { x.setBoxes { x.p.boxes with
          metas := upd x.p.boxes.metas x.host (some { m with balance := m.balance - t.amount }) } with
        transfers := x.transfers ++ [t] }
  | create (m id nm) (key : LKey) (next) (hm : x.p.boxes.metas x.host = some m)
      (hc : nm.balance ≤ m.balance - m.threshold) (ht : nm.threshold = nm.balance)
      (hi : nm.items = 2) (ho : nm.octets = 81 + key.2) (hlen : key.2 < U32)
      (hid : (id < MIN_ID ∧ x.host = x.p.registrar.current ∧ x.p.boxes.metas id = none ∧ next = x.nextId) ∨
        (id = x.nextId ∧ ((ok = false ∧ next = x.nextId) ∨
          rotateId mapStore (created x m id nm key) x.nextId = some next)))
      (hgr : nm.gratis ≠ 0 → x.host = x.p.manager) :
      Step env ok x { x.setBoxes (created x m id nm key) with nextId := next }
  | eject (m e em) (key : LKey) (a b) (hm : x.p.boxes.metas x.host = some m) (he : x.p.boxes.metas e = some em)
      (hne : e ≠ x.host) (hcode : em.codeHash = hostAsHash x.host) (hi : em.items = 2)
      (hk : key.2 = max 81 em.octets - 81) (hl : x.p.boxes.lookups e key = some [a, b])
      (hx : expiresAt env b < env.slot) (hov : m.balance + em.balance < U64) :
      Step env ok x (x.setBoxes
          { metas := upd (upd x.p.boxes.metas x.host (some { m with balance := m.balance + em.balance })) e none,
            storage := clear x.p.boxes.storage e, preimages := clear x.p.boxes.preimages e,
            lookups := clear x.p.boxes.lookups e })

variable {env : Env} {ok : Bool} {vm : VM} {x : Ctx Global} {m : Meta}

theorem same_self : Step env ok x x := .same x rfl rfl rfl rfl
theorem same_set : Step env ok x (x.setBoxes x.p.boxes) := .same _ rfl rfl rfl rfl

local macro "readonly" : tactic => `(tactic| (repeat' split) <;> exact .same _ rfl rfl rfl rfl)

theorem bless_step : Step env ok x (hostBless env vm x).2 := by
  simp only [hostBless]; readonly
theorem assign_step : Step env ok x (hostAssign env vm x).2 := by
  simp only [hostAssign]; readonly
theorem designate_step : Step env ok x (hostDesignate env vm x).2 := by
  simp only [hostDesignate]; readonly
theorem gas_step : Step env ok x (hostGas env vm x).2 := by
  simp only [hostGas]; readonly
theorem fetch_step : Step env ok x (hostFetch env vm x).2 := by
  simp only [hostFetch]; readonly
theorem yield_step : Step env ok x (hostYield env vm x).2 := by
  simp only [hostYield]; readonly
theorem info_step : Step env ok x (hostInfo mapStore env vm x).2 := by
  unfold hostInfo
  split
  · exact same_self
  cases target vm x with
  | none => exact same_self
  | some s =>
    dsimp only
    cases h : x.p.boxes.metas s <;> simp only [mapStore, h] <;> exact same_set

theorem lookup_step : Step env ok x (hostLookup mapStore env vm x).2 := by
  unfold hostLookup
  split
  · exact same_self
  cases readHash vm 8 with
  | none => exact same_self
  | some k =>
    dsimp only
    cases target vm x with
    | none => exact same_self
    | some s =>
      dsimp only
      cases h : x.p.boxes.preimages s k <;> simp only [mapStore, h] <;> exact same_set

theorem read_step : Step env ok x (hostRead mapStore env vm x).2 := by
  unfold hostRead
  split
  · exact same_self
  cases u32? vm 8 with
  | none => exact same_self
  | some a =>
    dsimp only
    cases readMem vm a (VM.n vm 9) with
    | none => exact same_self
    | some k =>
      dsimp only
      cases target vm x with
      | none => exact same_self
      | some s =>
        dsimp only
        cases h : x.p.boxes.storage s k <;> simp only [mapStore, h] <;> exact same_set

theorem query_step : Step env ok x (hostQuery mapStore env vm x).2 := by
  unfold hostQuery
  split
  · exact same_self
  cases readHash vm 7 with
  | none => exact same_self
  | some k =>
    dsimp only
    cases u32? vm 8 with
    | none => exact same_self
    | some l =>
      dsimp only
      cases h : x.p.boxes.lookups x.host (k, l) with
      | none => simp only [mapStore, h]; exact same_set
      | some ts => simp only [mapStore, h]; split <;> exact same_set

theorem provide_step : Step env ok x (hostProvide mapStore env vm x).2 := by
  unfold hostProvide
  split
  · exact same_self
  cases u32? vm 8 with
  | none => exact same_self
  | some a =>
    dsimp only
    cases readMem vm a (VM.n vm 9) with
    | none => exact same_self
    | some d =>
      dsimp only
      cases target vm x with
      | none => exact same_self
      | some s =>
        dsimp only
        cases h : x.p.boxes.metas s with
        | none => simp only [mapStore, h]; exact same_set
        | some m =>
          cases h' : x.p.boxes.lookups s (env.hash d, VM.n vm 9 % U32) with
          | none => simp only [mapStore, h, h']; exact same_set
          | some ts =>
            simp only [mapStore, h, h']
            split
            · exact same_set
            · split
              · exact same_set
              · exact .same _ rfl rfl rfl rfl

theorem upd_at {κ α : Type} [DecidableEq κ] (f : κ → Option α) (k : κ) (v : Option α) : upd f k v k = v := by
  simp [upd]

theorem upd2_at {κ α : Type} [DecidableEq κ] (f : Nat → κ → Option α) (s : Nat) (k : κ) (v : Option α) :
    upd2 f s k v s k = v := by simp [upd2, upd]

theorem upd2_upd2 {κ α : Type} [DecidableEq κ] (f : Nat → κ → Option α) (s : Nat) (k : κ) (v w : Option α) :
    upd2 (upd2 f s k v) s k w = upd2 f s k w := by
  funext s' k'
  simp only [upd2]
  by_cases c : s' = s
  · simp only [if_pos c, if_true, upd]
    split <;> rfl
  · simp only [if_neg c]

section live
variable (hm : x.p.boxes.metas x.host = some m)
include hm

theorem upgrade_step : Step env ok x (hostUpgrade mapStore env vm x).2 := by
  unfold hostUpgrade
  split
  · exact same_self
  cases readHash vm 7 with
  | none => exact same_self
  | some k =>
    simp only [mapStore, hm, Option.map_some]
    exact .upgrade m _ _ _ hm

theorem solicit_step : Step env ok x (hostSolicit mapStore env vm x).2 := by
  unfold hostSolicit
  split
  · exact same_self
  cases readHash vm 7 with
  | none => exact same_self
  | some k =>
    dsimp only
    cases u32? vm 8 with
    | none => exact same_self
    | some l =>
      dsimp only
      cases h : x.p.boxes.lookups x.host (k, l) with
      | some ts =>
        simp only [mapStore, h]
        by_cases c : ts.length ≠ 2
        · simp only [if_pos c]; exact same_set
        · simp only [if_neg c, hm, Option.map_some]
          match ts, c with
          | [a, b], _ => exact .resolicit (k, l) a b h
          | [], c => exact absurd (by simp) c
          | [_], c => exact absurd (by simp) c
          | _ :: _ :: _ :: _, c => exact absurd (by simp) c
      | none =>
        simp only [mapStore, h, hm]
        by_cases c : m.simulate {} (usageDelta none (some l)) > m.balance
        · simp only [if_pos c]; exact same_set
        · simp only [if_neg c, Option.map_some, hm]
          exact .solicit m (k, l) hm h (Nat.le_of_not_lt c)

theorem drop_step {k : Bytes} {l : Nat} {ts : List Nat} (h : x.p.boxes.lookups x.host (k, l) = some ts)
    (he : ts = [] ∨ ∃ a b, ts = [a, b] ∧ expiresAt env b < env.slot) :
    Step env ok x (dropRequest mapStore x x.p.boxes k l).2 := by
  simp only [dropRequest, mapStore, hm, Option.map_some]
  exact .drop m (k, l) ts hm h he

theorem forget_step : Step env ok x (hostForget mapStore env vm x).2 := by
  unfold hostForget
  split
  · exact same_self
  cases readHash vm 7 with
  | none => exact same_self
  | some k =>
    dsimp only
    cases u32? vm 8 with
    | none => exact same_self
    | some l =>
      dsimp only
      cases h : x.p.boxes.lookups x.host (k, l) with
      | none => simp only [mapStore, h]; exact same_set
      | some ts =>
        have e : mapStore.getL x.p.boxes x.host (k, l) = (some ts, x.p.boxes) := by simp only [mapStore, h]
        simp only [e]
        match ts, h with
        | [], h => exact drop_step hm h (.inl rfl)
        | [a], h =>
          simp only [Store.push, mapStore, h, hm, Option.map_some, List.length_singleton,
            show (1 : Nat) < 3 from by decide, if_true]
          exact .unavail (k, l) a h
        | [a, b], h =>
          dsimp only
          by_cases c : expiresAt env b < env.slot
          · rw [if_pos c]; exact drop_step hm h (.inr ⟨a, b, rfl, c⟩)
          · rw [if_neg c]; exact same_set
        | [a, b, d], h =>
          dsimp only
          by_cases c : expiresAt env b < env.slot
          · simp only [if_pos c, Store.drain, Store.extend, mapStore, h, hm, Option.map_some, upd2_at, upd2_upd2,
              List.length_nil, List.length_cons, List.nil_append, show 0 + (0 + 1 + 1) ≤ 3 from by decide, if_true]
            exact .cycle (k, l) a b d h c
          · rw [if_neg c]; exact same_set
        | _ :: _ :: _ :: _ :: _, h => exact same_set

theorem write_step : Step env ok x (hostWrite mapStore env vm x).2 := by
  unfold hostWrite
  split
  · exact same_self
  cases u32? vm 7 with
  | none => exact same_self
  | some ka =>
  cases u32? vm 9 with
  | none => exact same_self
  | some va =>
  dsimp only
  cases readMem vm ka (VM.n vm 8) with
  | none => exact same_self
  | some k =>
  cases writeValue vm va with
  | none => exact same_self
  | some v =>
  have e : mapStore.getS x.p.boxes x.host k = (x.p.boxes.storage x.host k, x.p.boxes) := rfl
  simp only [e]
  generalize hd : usageDelta ((x.p.boxes.storage x.host k).map (storOctets k)) (v.map (storOctets k)) = d
  have e2 : affordable mapStore x.p.boxes x.host d =
      (some (d.isZero || decide (m.simulate d {} ≤ m.balance)), x.p.boxes) := by
    unfold affordable
    by_cases c : d.isZero = true
    · rw [if_pos c, c]; rfl
    · rw [if_neg c]
      simp only [Bool.not_eq_true] at c
      simp only [mapStore, hm, c, Bool.false_or]
  simp only [e2]
  by_cases c : (d.isZero || decide (m.simulate d {} ≤ m.balance)) = true
  · have ha : d.isZero = false → m.simulate d {} ≤ m.balance := by
      intro hz; simpa [hz] using c
    simp only [c]
    have st := Step.write (env := env) (ok := ok) (x := x) m k v hm (by rw [hd]; exact ha)
    rw [hd] at st
    cases v <;> simp only [storeValue, mapStore, hm, Option.map_some] <;> exact st
  · simp only [Bool.not_eq_true] at c
    simp only [c]
    exact same_set

theorem transfer_step : Step env ok x (hostTransfer mapStore env vm x).2 := by
  unfold hostTransfer
  split
  · exact same_self
  cases u32? vm 10 with
  | none => exact same_self
  | some a =>
  dsimp only
  cases readMem vm a env.par.memo with
  | none => exact same_self
  | some memo =>
  dsimp only
  cases u32? vm 7 with
  | none => exact same_self
  | some dest =>
  dsimp only
  cases h : x.p.boxes.metas dest with
  | none => simp only [mapStore, h]; exact same_set
  | some dm =>
  simp only [mapStore, h, hm]
  by_cases c1 : VM.n vm 9 < dm.gasXfer
  · simp only [if_pos c1]; exact same_set
  by_cases c2 : m.balance < VM.n vm 8 ∨ m.balance - VM.n vm 8 < m.threshold
  · simp only [if_neg c1, if_pos c2]; exact same_set
  simp only [if_neg c1, if_neg c2]
  split
  · exact same_set
  · have hc : VM.n vm 8 ≤ m.balance := by omega
    simp only [subBalance, hm, if_pos hc, Option.map_some]
    exact .pay m dm ⟨x.host, dest, VM.n vm 8, memo, VM.n vm 9⟩ hm h rfl (Nat.le_of_not_lt c1) hc (Nat.le_of_not_lt fun h => c2 (.inr h))

theorem eject_step : Step env ok x (hostEject mapStore env vm x).2 := by
  unfold hostEject
  split
  · exact same_self
  cases readHash vm 8 with
  | none => exact same_self
  | some k =>
  dsimp only
  cases u32? vm 7 with
  | none => exact same_self
  | some e =>
  dsimp only
  by_cases c0 : e = x.host
  · rw [if_pos c0]; exact same_self
  rw [if_neg c0]
  cases h : x.p.boxes.metas e with
  | none => simp only [mapStore, h]; exact same_set
  | some em =>
  have e1 : mapStore.info x.p.boxes e = (some em, x.p.boxes) := by simp only [mapStore, h]
  simp only [e1]
  by_cases c1 : em.codeHash ≠ hostAsHash x.host
  · simp only [if_pos c1]; exact same_set
  by_cases c2 : max 81 em.octets - 81 ≥ U32
  · simp only [if_neg c1, if_pos c2]; exact same_set
  by_cases c3 : em.items ≠ 2
  · simp only [if_neg c1, if_neg c2, if_pos c3]; exact same_set
  simp only [if_neg c1, if_neg c2, if_neg c3]
  cases hl : x.p.boxes.lookups e (k, max 81 em.octets - 81) with
  | none => simp only [mapStore, hl]; exact same_set
  | some ts =>
  have e2 : mapStore.getL x.p.boxes e (k, max 81 em.octets - 81) = (some ts, x.p.boxes) := by simp only [mapStore, hl]
  simp only [e2]
  by_cases c4 : ts.length ≠ 2 ∨ expiresAt env (ts.getD 1 0) ≥ env.slot
  · simp only [if_pos c4]; exact same_set
  simp only [if_neg c4]
  have e3 : mapStore.info x.p.boxes x.host = (some m, x.p.boxes) := by simp only [mapStore, hm]
  by_cases c5 : m.balance + em.balance < U64
  · have hm' : mapStore.modify x.p.boxes x.host (fun m => { m with balance := m.balance + em.balance }) =
        some { x.p.boxes with metas := upd x.p.boxes.metas x.host (some { m with balance := m.balance + em.balance }) } := by
      simp only [mapStore, hm, Option.map_some]
    have he : (upd x.p.boxes.metas x.host (some { m with balance := m.balance + em.balance })) e = some em := by
      simp only [upd, if_neg c0, h]
    simp only [addBalance, e3, if_pos c5, hm']
    simp only [mapStore, he, Option.map_some]
    match ts, hl, c4 with
    | [a, b], hl, c4 =>
      refine .eject m e em (k, _) a b hm h c0 (Classical.not_not.1 c1) (Classical.not_not.1 c3) rfl hl ?_ c5
      have : ¬ expiresAt env b ≥ env.slot := fun hh => c4 (.inr hh)
      omega
    | [], _, c4 => exact absurd (.inl (by simp)) c4
    | [_], _, c4 => exact absurd (.inl (by simp)) c4
    | _ :: _ :: _ :: _, _, c4 => exact absurd (.inl (by simp)) c4
  · simp only [addBalance, e3, if_neg c5]; exact same_set

theorem new_step : Step env (hostNew mapStore env vm x).1.isOk x (hostNew mapStore env vm x).2 := by
  unfold hostNew
  split
  · exact same_self
  cases u32? vm 7 with
  | none => exact same_self
  | some a =>
  cases hlen : u32? vm 8 with
  | none => exact same_self
  | some len =>
  have hl32 : len < U32 := by
    unfold u32? at hlen
    split at hlen
    · injection hlen with e; omega
    · cases hlen
  dsimp only
  cases readMem vm a 32 with
  | none => exact same_self
  | some hash =>
  dsimp only
  by_cases c1 : VM.n vm 11 ≠ 0 ∧ x.host ≠ x.p.manager
  · rw [if_pos c1]; exact same_self
  rw [if_neg c1]
  have e3 : mapStore.info x.p.boxes x.host = (some m, x.p.boxes) := by simp only [mapStore, hm]
  simp only [e3]
  by_cases c2 : m.balance - m.threshold < initialThreshold len (VM.n vm 11)
  · rw [if_pos c2]; exact same_set
  rw [if_neg c2]
  generalize hsm : (u32? vm 12).getD (U32 - 1) = small
  have e4 : mapStore.existsAct x.p.boxes small = ((x.p.boxes.metas small).isSome, x.p.boxes) := rfl
  simp only [e4]
  generalize ht : initialThreshold len (VM.n vm 11) = t at c2 ⊢
  have hc : t ≤ m.balance := by omega
  have hsub : subBalance mapStore x.p.boxes x.host t = some { x.p.boxes with
      metas := upd x.p.boxes.metas x.host (some { m with balance := m.balance - t }) } := by
    simp only [subBalance, e3, if_pos hc, mapStore, hm, Option.map_some]
  have hadd : ∀ id nm key, addAccount mapStore { x.p.boxes with
      metas := upd x.p.boxes.metas x.host (some { m with balance := m.balance - t }) } id nm key =
      some { metas := upd (upd x.p.boxes.metas x.host (some { m with balance := m.balance - t })) id (some nm),
             storage := clear x.p.boxes.storage id, preimages := clear x.p.boxes.preimages id,
             lookups := upd2 (clear x.p.boxes.lookups id) id key (some []) } := by
    intro id nm key
    simp only [addAccount, mapStore, upd, if_true, Option.map_some]
  have hth : ∀ sl p, (newMeta hash t (VM.n vm 9) (VM.n vm 10) (VM.n vm 11) len sl p).threshold = t := by
    intro sl p
    rw [← ht]
    simp only [newMeta, Meta.threshold, initialThreshold]
    have : 100 + 10 * 2 + 1 * (81 + len) = 100 + 10 * 2 + 1 * (len + 81) := by omega
    rw [this]
  have hgr : VM.n vm 11 ≠ 0 → x.host = x.p.manager := fun h => Classical.byContradiction fun h' => c1 ⟨h, h'⟩
  by_cases c3 : small < MIN_ID ∧ x.host = x.p.registrar.current
  · by_cases c4 : (x.p.boxes.metas small).isSome = true
    · simp only [if_pos (And.intro c3 c4)]; exact same_set
    · have c5 : ¬ ((small < MIN_ID ∧ x.host = x.p.registrar.current) ∧ (x.p.boxes.metas small).isSome = true) := fun h => c4 h.2
      simp only [if_neg c5, hsub, hadd, if_pos c3]
      exact .create m small (newMeta hash t (VM.n vm 9) (VM.n vm 10) (VM.n vm 11) len env.slot x.host) (hash, len) x.nextId
        hm (by simp only [newMeta]; omega) (hth _ _) rfl rfl hl32
        (.inl ⟨c3.1, c3.2, by simpa using c4, rfl⟩) hgr
  · have c5 : ¬ ((small < MIN_ID ∧ x.host = x.p.registrar.current) ∧ (x.p.boxes.metas small).isSome = true) := fun h => c3 h.1
    simp only [if_neg c5, hsub, hadd, if_neg c3]
    have key := fun ok next h => Step.create (env := env) (ok := ok) (x := x) m x.nextId
      (newMeta hash t (VM.n vm 9) (VM.n vm 10) (VM.n vm 11) len env.slot x.host) (hash, len) next
      hm (by simp only [newMeta]; omega) (hth _ _) rfl rfl hl32 (.inr ⟨rfl, h⟩) hgr
    split
    · exact key false x.nextId (.inl ⟨rfl, rfl⟩)
    · rename_i next hr
      exact key _ next (.inr hr)

/-- Every host function of a live service has one of the effects listed. -/
theorem step_of_fn {h : Nat} {f : HostFn Global} (hf : accFn mapStore h = some f) :
    Step env (f env vm x).1.isOk x (f env vm x).2 := by
  unfold accFn at hf
  by_cases c : h = 0
  · rw [if_pos c] at hf; cases hf; exact gas_step
  rw [if_neg c] at hf; clear c
  by_cases c : h = 1
  · rw [if_pos c] at hf; cases hf; exact fetch_step
  rw [if_neg c] at hf; clear c
  by_cases c : h = 2
  · rw [if_pos c] at hf; cases hf; exact lookup_step
  rw [if_neg c] at hf; clear c
  by_cases c : h = 3
  · rw [if_pos c] at hf; cases hf; exact read_step
  rw [if_neg c] at hf; clear c
  by_cases c : h = 4
  · rw [if_pos c] at hf; cases hf; exact write_step hm
  rw [if_neg c] at hf; clear c
  by_cases c : h = 5
  · rw [if_pos c] at hf; cases hf; exact info_step
  rw [if_neg c] at hf; clear c
  by_cases c : h = 14
  · rw [if_pos c] at hf; cases hf; exact bless_step
  rw [if_neg c] at hf; clear c
  by_cases c : h = 15
  · rw [if_pos c] at hf; cases hf; exact assign_step
  rw [if_neg c] at hf; clear c
  by_cases c : h = 16
  · rw [if_pos c] at hf; cases hf; exact designate_step
  rw [if_neg c] at hf; clear c
  by_cases c : h = 18
  · rw [if_pos c] at hf; cases hf; exact new_step hm
  rw [if_neg c] at hf; clear c
  by_cases c : h = 19
  · rw [if_pos c] at hf; cases hf; exact upgrade_step hm
  rw [if_neg c] at hf; clear c
  by_cases c : h = 20
  · rw [if_pos c] at hf; cases hf; exact transfer_step hm
  rw [if_neg c] at hf; clear c
  by_cases c : h = 21
  · rw [if_pos c] at hf; cases hf; exact eject_step hm
  rw [if_neg c] at hf; clear c
  by_cases c : h = 22
  · rw [if_pos c] at hf; cases hf; exact query_step
  rw [if_neg c] at hf; clear c
  by_cases c : h = 23
  · rw [if_pos c] at hf; cases hf; exact solicit_step hm
  rw [if_neg c] at hf; clear c
  by_cases c : h = 24
  · rw [if_pos c] at hf; cases hf; exact forget_step hm
  rw [if_neg c] at hf; clear c
  by_cases c : h = 25
  · rw [if_pos c] at hf; cases hf; exact yield_step
  rw [if_neg c] at hf; clear c
  by_cases c : h = 26
  · rw [if_pos c] at hf; cases hf; exact provide_step
  rw [if_neg c] at hf; clear c
  cases hf

end live

end Fastroll.Svc
