import Verif.Delta.SpecAcct
import Verif.Delta.LemmasFrame
import Verif.Delta.LemmasRound
import Verif.Svc.LemmasApply
import Verif.Svc.LemmasHist

/-! # Lemmas: the accounts that a block leaves -/
namespace Fastroll.Delta
open Fastroll.Pvm Fastroll.Svc

variable {g : Global} {D : Nat → Prop} {env : Env} {mach : Machine}

/-! ## One account -/

/-- The account `s` is consistent. -/
structure OkAt (a : Global) (s : Nat) : Prop where
  orphans : a.metas s = none → (∀ k, a.storage s k = none) ∧ (∀ k, a.preimages s k = none) ∧ (∀ k, a.lookups s k = none)
  exact : ∀ m, a.metas s = some m → Usage a s m.items m.octets
  requested : ∀ h d, a.preimages s h = some d → ∃ l, (a.lookups s (h, l)).isSome
  range : ∀ i o, Usage a s i o → i < U32 ∧ deposit i o < U64
  solvent : ∀ m, a.metas s = some m → ∃ i o, Usage a s i o ∧ deposit i o ≤ m.balance + m.gratis

theorem healthy_iff {a : Global} : Healthy a ↔ ∀ s, OkAt a s :=
  ⟨fun h s => ⟨h.sound.orphans s, h.sound.exact s, h.sound.requested s, h.range s, h.solvent s⟩,
   fun h => ⟨⟨fun s => (h s).orphans, fun s => (h s).exact, fun s => (h s).requested⟩, fun s => (h s).range, fun s => (h s).solvent⟩⟩

/-- `a` and `b` have the same account at `s`. -/
structure SameAt (a b : Global) (s : Nat) : Prop where
  metas : b.metas s = a.metas s
  storage : b.storage s = a.storage s
  preimages : b.preimages s = a.preimages s
  lookups : b.lookups s = a.lookups s

theorem SameAt.ok {a b : Global} {s : Nat} (h : SameAt a b s) (o : OkAt a s) : OkAt b s := by
  obtain ⟨h1, h2, h3, h4⟩ := h
  refine ⟨?_, ?_, ?_, ?_, ?_⟩
  · rw [h1, h2, h3, h4]; exact o.orphans
  · intro m hm; rw [h1] at hm; exact usage_congr h2 h4 (o.exact m hm)
  · rw [h3, h4]; exact o.requested
  · intro i o' hu; exact o.range i o' (usage_congr h2.symm h4.symm hu)
  · intro m hm; rw [h1] at hm
    obtain ⟨i, o', k1, k2⟩ := o.solvent m hm
    exact ⟨i, o', usage_congr h2 h4 k1, k2⟩

theorem same_box {bs bs' : Boxes} {s : Nat} (h : boxGet bs' s = boxGet bs s) : SameAt (view g bs) (view g bs') s := by
  constructor <;> simp only [view, h]

/-! ## Sandboxes -/

/-- Good sandboxes that mean consistent accounts. -/
structure Fit (g : Global) (D : Nat → Prop) (bs : Boxes) : Prop where
  good : AllGood g D bs
  ok : ∀ s, OkAt (view g bs) s

theorem allGood_ensure {bs : Boxes} (H : AllGood g D bs) (s : Nat) : AllGood g D (ensure g bs s) := by
  by_cases c : ((view g bs).metas s).isSome
  · intro s' b hb
    have I : Inv g (fun t => D t ∨ t = s) s bs := ⟨fun s b hb => (H s b hb).mono fun _ => .inl, .inr rfl, c⟩
    have B := (ensure_inv s I).boxes s' b hb
    refine ⟨B.info, ?_, B.fresh, B.idle, B.storage, B.preimages, B.lookups⟩
    intro hd
    by_cases e : s' = s
    · subst e
      unfold ensure at hb
      cases h1 : boxGet bs s' with
      | some b0 => rw [h1] at hb; exact (H s' b hb).clean hd
      | none =>
        rw [h1] at hb
        cases h2 : g.metas s' with
        | none => rw [h2] at hb; simp only at hb; rw [h1] at hb; cases hb
        | some m =>
          rw [h2] at hb
          simp only at hb
          rw [boxGet_set, if_pos rfl] at hb
          cases hb
          rfl
    · exact B.clean (fun h => h.elim hd e)
  · unfold ensure
    cases hb : boxGet bs s with
    | some b => exact H
    | none =>
      cases hg : g.metas s with
      | none => exact H
      | some m => simp [view, hb, hg] at c

theorem Fit.ensure {bs : Boxes} (F : Fit g D bs) (s : Nat) : Fit g D (ensure g bs s) :=
  ⟨allGood_ensure F.good s, by rw [ensure_view]; exact F.ok⟩

theorem Fit.set {bs bs' : Boxes} (F : Fit g D bs) (F' : Fit g D bs') {s : Nat} {bx : Box} (h : boxGet bs' s = some bx) :
    Fit g D (boxSet bs s bx) := by
  constructor
  · intro t b hb
    rw [boxGet_set] at hb
    by_cases c : t = s
    · rw [if_pos c] at hb; cases hb; exact c ▸ F'.good s bx h
    · rw [if_neg c] at hb; exact F.good t b hb
  · intro t
    by_cases c : t = s
    · subst c
      exact (same_box (by rw [boxGet_set, if_pos rfl, h])).ok (F'.ok t)
    · exact (same_box (by rw [boxGet_set, if_neg c])).ok (F.ok t)

theorem given_ok {a : Global} (e : Nat × Bytes) (h : ∀ s, OkAt a s) (s : Nat) : OkAt (given env a e) s := by
  rw [given_eq]
  split
  · rename_i c
    by_cases cs : s = e.1
    · subst cs
      have o := h e.1
      have hl : (upd2 a.lookups e.1 (env.hash e.2, e.2.length % U32) (some [env.slot])) e.1 = upd (a.lookups e.1) (env.hash e.2, e.2.length % U32) (some [env.slot]) := upd2_self ..
      have us : ∀ {i o}, Usage a e.1 i o → Usage { a with preimages := upd2 a.preimages e.1 (env.hash e.2) (some e.2), lookups := upd2 a.lookups e.1 (env.hash e.2, e.2.length % U32) (some [env.slot]) } e.1 i o := by
        intro i o hu
        obtain ⟨i', o', k1, k2, k3⟩ := usage_lookups (a := a) (a' := { a with preimages := upd2 a.preimages e.1 (env.hash e.2) (some e.2), lookups := upd2 a.lookups e.1 (env.hash e.2, e.2.length % U32) (some [env.slot]) }) rfl hl hu
        rw [c.2] at k2 k3
        have e1 : i' = i := by simp [cnt] at k2; omega
        have e2 : o' = o := by simp only [wt, lookWeight] at k3; omega
        rw [← e1, ← e2]; exact k1
      refine ⟨fun hm => ?_, fun m hm => us (o.exact m hm), ?_, ?_, ?_⟩
      · have := c.1; simp only at hm; rw [hm] at this; cases this
      · intro k d hk
        simp only at hk ⊢
        rw [upd2_self] at hk ⊢
        simp only [upd] at hk ⊢
        by_cases ck : k = env.hash e.2
        · exact ⟨e.2.length % U32, by rw [if_pos (by rw [ck])]; rfl⟩
        · rw [if_neg ck] at hk
          obtain ⟨l, hl⟩ := o.requested k d hk
          refine ⟨l, ?_⟩
          rw [if_neg (fun c => ck (congrArg Prod.fst c))]; exact hl
      · intro i o' hu
        have ha : ∃ i o, Usage a e.1 i o := by
          obtain ⟨m, hm⟩ := Option.isSome_iff_exists.1 c.1
          exact ⟨_, _, o.exact m hm⟩
        obtain ⟨i2, o2, h2⟩ := ha
        obtain ⟨e1, e2⟩ := usage_unique (us h2) hu
        rw [← e1, ← e2]; exact o.range _ _ h2
      · intro m hm
        obtain ⟨i, o', k1, k2⟩ := o.solvent m hm
        exact ⟨i, o', us k1, k2⟩
    · exact SameAt.ok (a := a) ⟨rfl, rfl, upd2_other _ cs _ _, upd2_other _ cs _ _⟩ (h s)
  · exact h s

theorem Fit.provideOne (O : g.NoOrphans) {bs bs' : Boxes} {e : Nat × Bytes} (F : Fit g D bs) (h : provideOne g env bs e = some bs') : Fit g D bs' := by
  obtain ⟨h1, h2⟩ := provideOne_good O F.good h
  refine ⟨fun s b hb => ?_, by rw [h1]; exact given_ok e F.ok⟩
  have B := h2 s b hb
  refine ⟨B.info, fun hd => ?_, B.fresh, B.idle, B.storage, B.preimages, B.lookups⟩
  have hi := provideOne_info h s
  rw [infoAt_some hb] at hi
  unfold infoAt at hi
  cases h3 : boxGet bs s with
  | some b0 =>
    rw [h3] at hi
    have := (F.good s b0 h3).clean hd
    simp only [Option.some.injEq] at hi
    rw [hi]; exact this
  | none =>
    rw [h3] at hi
    cases h4 : g.metas s with
    | none => rw [h4] at hi; cases hi
    | some m =>
      rw [h4] at hi
      simp only [Option.map_some, Option.some.injEq] at hi
      rw [hi]; rfl

theorem Fit.provideAll (O : g.NoOrphans) : ∀ (es : List (Nat × Bytes)) {bs bs' : Boxes}, Fit g D bs → provideAll g env es bs = some bs' → Fit g D bs'
  | [], bs, bs', F, h => by cases h; exact F
  | e :: es, bs, bs', F, h => by
    unfold Svc.provideAll at h
    cases h1 : Svc.provideOne g env bs e with
    | none => rw [h1] at h; cases h
    | some b1 => rw [h1] at h; exact Fit.provideAll O es (F.provideOne O h1) h

/-! ## The merge -/

theorem Fit.mergeAccounts {b : Base} {host : Nat} {bs : Boxes} (F' : Fit g D bs) : ∀ (ks : List Nat) {st st' : Svc.Round}, Fit g D st.u.boxes →
    mergeAccounts g b host bs ks st = some st' → Fit g D st'.u.boxes
  | [], st, st', F, h => by cases h; exact F
  | k :: ks, st, st', F, h => by
    unfold Svc.mergeAccounts at h
    split at h
    · exact Fit.mergeAccounts F' ks F h
    · split at h
      · exact Fit.mergeAccounts F' ks F h
      · rename_i bx hb
        split at h
        · cases h
        · rename_i st1 h1
          refine Fit.mergeAccounts F' ks ?_ h
          rcases mergeAccount_spec h1 with ⟨_, e⟩ | ⟨_, _, e, _⟩
          · rw [e]; exact F
          · rw [e]; exact F.set F' hb

theorem Fit.mergeOne {b : Base} {st st' : Svc.Round} {r : AccResult} (F : Fit g D st.u.boxes) (F' : Fit g D r.p.boxes)
    (h : mergeOne g b st r = some st') : Fit g D st'.u.boxes := by
  unfold Svc.mergeOne at h
  dsimp only at h
  split at h
  · cases h
  · rename_i hb h1
    split at h
    · cases h; exact F.ensure _
    · split at h
      · cases h
      · split at h
        · cases h
        · rename_i bx h2
          exact Fit.mergeAccounts (F'.ensure _) _ ((F.ensure _).set (F'.ensure _) h2) h

theorem Fit.mergeResults (O : g.NoOrphans) {b : Base} {metered : Nat → Bool} : ∀ (rs : List AccResult) {m m' : Merged}, Fit g D m.st.u.boxes →
    (∀ r ∈ rs, Fit g D r.p.boxes) → mergeResults g env b metered rs m = some m' → Fit g D m'.st.u.boxes
  | [], m, m', F, _, h => by cases h; exact F
  | r :: rs, m, m', F, F', h => by
    unfold Svc.mergeResults at h
    split at h
    · cases h
    · rename_i m1 h1
      refine Fit.mergeResults O rs ?_ (fun r hr => F' r (List.mem_cons_of_mem _ hr)) h
      unfold mergeResult at h1
      split at h1
      · cases h1
      · rename_i st h2
        have F2 := F.mergeOne (F' r (List.mem_cons_self ..)) h2
        split at h1
        · split at h1
          · cases h1
          · rename_i bs h3
            cases h1; exact F2.provideAll O _ h3
        · cases h1; exact F2

theorem Fit.mergeRound (O : g.NoOrphans) {metered : Nat → Bool} {u : PState Boxes} {rs : List AccResult} {m : Merged} (F : Fit g D u.boxes)
    (F' : ∀ r ∈ rs, Fit g D r.p.boxes) (h : mergeRound g env metered u rs = some m) : Fit g D m.st.u.boxes := by
  unfold Svc.mergeRound at h
  split at h
  · cases h
  · rename_i m1 h1
    cases h
    have := Fit.mergeResults O rs (m := { st := { u := u } }) F F' h1
    exact this

/-! ## Writing back -/

theorem Fit.written {bs : Boxes} (F : Fit g D bs) : WrittenBack g bs (view g bs) := by
  have key : ∀ s, applyMeta g bs s = some ((view g bs).metas s) ∧ (∀ k, applyStorage g bs s k = some ((view g bs).storage s k)) ∧
      (∀ k, applyPreimages g bs s k = some ((view g bs).preimages s k)) ∧ (∀ k, applyLookups g bs s k = some ((view g bs).lookups s k)) := by
    intro s
    cases hb : boxGet bs s with
    | none => simp only [applyMeta, applyStorage, applyPreimages, applyLookups, view, hb]; simp
    | some b =>
      have B := F.good s b hb
      have hv := view_metas_some (g := g) hb
      have hgone : b.gone = true → (view g bs).metas s = none := by
        intro h; rw [hv]; exact B.info.1 (by simpa [Box.gone] using h)
      simp only [applyMeta, applyStorage, applyPreimages, applyLookups, hb]
      have O := (F.ok s).orphans
      refine ⟨?_, ?_, ?_, ?_⟩
      · rw [hv]; exact applyEntry_good B.idle B.info B.fresh
      · intro k; rw [view_storage_some hb]
        exact applyAt_good B.storage (fun h k => by
          have := (O (hgone h)).1 k; rw [view_storage_some hb] at this; exact this) k
      · intro k; rw [view_preimages_some hb]
        exact applyAt_good B.preimages (fun h k => by
          have := (O (hgone h)).2.1 k; rw [view_preimages_some hb] at this; exact this) k
      · intro k; rw [view_lookups_some hb]
        exact applyAt_good B.lookups (fun h k => by
          have := (O (hgone h)).2.2 k; rw [view_lookups_some hb] at this; exact this) k
  exact ⟨fun s => (key s).1, fun s => (key s).2.1, fun s => (key s).2.2.1, fun s => (key s).2.2.2⟩

/-! ## Before the program runs -/

theorem active_alive {bs bs1 : Boxes} {s : Nat} (H : AllGood g D bs) (h : existsActive g bs s = (true, bs1)) :
    ((view g bs).metas s).isSome ∧ (boxGet bs1 s).isSome := by
  have H1 := allGood_ensure H s
  unfold existsActive at h
  dsimp only at h
  cases hb : boxGet (ensure g bs s) s with
  | none => rw [hb] at h; cases h
  | some b =>
    rw [hb] at h
    simp only [Prod.mk.injEq] at h
    obtain ⟨h1, h2⟩ := h
    subst h2
    refine ⟨?_, by rw [hb]; rfl⟩
    rw [← ensure_view g bs s, view_metas_some hb]
    cases hv : b.info.value with
    | some v => rfl
    | none => rw [(H1 s b hb).info.2 hv] at h1; simp at h1

/-- The account of the service with the tokens it receives. -/
def credit (a : Global) (s n : Nat) : Global := { a with metas := upd a.metas s ((a.metas s).map fun m => { m with balance := m.balance + n }) }

theorem prepare (O : g.NoOrphans) {bs bs1 bs2 bs3 : Boxes} {s n : Nat} {c} (H : AllGood g D bs) (hd : D s) (h1 : existsActive g bs s = (true, bs1))
    (h2 : receive g bs1 s n = some bs2) (h3 : accountCode g mach bs2 s = (c, bs3)) :
    view g bs3 = credit (view g bs) s n ∧ Inv g D s bs3 ∧ (boxGet bs3 s).isSome := by
  obtain ⟨k1, k2⟩ := active_alive H h1
  have I : Inv g D s bs := ⟨H, hd, k1⟩
  obtain ⟨m, hm⟩ := Option.isSome_iff_exists.1 k1
  have K := keeps_box g s s
  have s1 := (existsAct_sim I s).2
  rw [h1] at s1
  -- the tokens
  have s2 : view g bs2 = credit (view g bs) s n ∧ Inv g D s bs2 ∧ (boxGet bs2 s).isSome := by
    unfold receive at h2
    split at h2
    · refine and_assoc.1 ⟨?_, K.add h2 k2⟩
      have := add_sim (x := freshCtx s { boxes := bs1, staging := none, authQueue := [], manager := 0, assign := { confirmed := [] }, designate := { confirmed := 0 }, registrar := { confirmed := 0 }, always := [] } 0) s1.2 s1.2 n
      rw [show (freshCtx s _ 0).host = s from rfl, h2] at this
      simp only [addBalance, mapStore, s1.1, hm] at this
      split at this
      · simp only [Option.map_some, SimOpt] at this
        refine ⟨?_, this.2⟩
        rw [this.1]
        unfold credit
        rw [hm]; rfl
      · exact absurd this id
    · rename_i c0
      cases h2
      have e : n = 0 := by omega
      subst e
      refine ⟨?_, s1.2, k2⟩
      rw [s1.1]
      unfold credit
      have : upd (view g bs).metas s (((view g bs).metas s).map fun m => { m with balance := m.balance + 0 }) = (view g bs).metas := by
        rw [hm]
        funext t
        simp only [upd]
        split
        · rename_i e; rw [e, hm]; rfl
        · rfl
      rw [this]
  obtain ⟨v2, I2, b2⟩ := s2
  unfold accountCode at h3
  have s3 := info_sim I2 s
  generalize hq : getMeta g bs2 s = q at h3 s3
  obtain ⟨om, bsa⟩ := q
  have ba := K.info _ _ _ _ hq b2
  cases om with
  | none => cases h3; exact ⟨s3.2.1.trans v2, s3.2.2, ba⟩
  | some m' =>
    simp only at h3
    have s4 := getP_sim O s3.2.2 s m'.codeHash
    generalize hq : getPreimage g bsa s m'.codeHash = q at h3 s4
    obtain ⟨op, bsb⟩ := q
    have bb := K.getP _ _ _ _ _ hq ba
    have v4 : view g bsb = credit (view g bs) s n := s4.2.1.trans (s3.2.1.trans v2)
    cases op with
    | none => cases h3; exact ⟨v4, s4.2.2, bb⟩
    | some blob =>
      simp only at h3
      split at h3 <;> (cases h3; exact ⟨v4, s4.2.2, bb⟩)

theorem credit_ok {a : Global} {s n : Nat} (h : ∀ t, OkAt a t) (t : Nat) : OkAt (credit a s n) t := by
  have us : ∀ {i o}, Usage a t i o → Usage (credit a s n) t i o := fun hu => usage_congr rfl rfl hu
  have us' : ∀ {i o}, Usage (credit a s n) t i o → Usage a t i o := fun hu => usage_congr rfl rfl hu
  have o := h t
  have hm : ∀ m, (credit a s n).metas t = some m → ∃ m0, a.metas t = some m0 ∧ m.items = m0.items ∧ m.octets = m0.octets ∧ m.gratis = m0.gratis ∧ m0.balance ≤ m.balance := by
    intro m hm
    unfold credit upd at hm
    simp only at hm
    split at hm
    · rename_i e
      subst e
      cases h1 : a.metas t with
      | none => rw [h1] at hm; cases hm
      | some m0 => rw [h1] at hm; cases hm; exact ⟨m0, rfl, rfl, rfl, rfl, Nat.le_add_right ..⟩
    · exact ⟨m, hm, rfl, rfl, rfl, Nat.le_refl _⟩
  refine ⟨fun h0 => o.orphans ?_, ?_, o.requested, fun i o' hu => o.range i o' (us' hu), ?_⟩
  · cases h1 : a.metas t with
    | none => rfl
    | some m0 =>
      unfold credit upd at h0
      simp only at h0
      split at h0
      · rename_i e; subst e; rw [h1] at h0; cases h0
      · rw [h1] at h0; cases h0
  · intro m h1
    obtain ⟨m0, k1, k2, k3, _⟩ := hm m h1
    rw [k2, k3]; exact us (o.exact m0 k1)
  · intro m h1
    obtain ⟨m0, k1, k2, k3, k4, k5⟩ := hm m h1
    obtain ⟨i, o', l1, l2⟩ := o.solvent m0 k1
    exact ⟨i, o', us l1, by omega⟩

theorem credit_held {a : Global} {s n h0 : Nat} (hs : (a.metas s).isSome) (H : Held a h0) : Held (credit a s n) (h0 + n) := by
  obtain ⟨m, hm⟩ := Option.isSome_iff_exists.1 hs
  obtain ⟨n', e1, e2⟩ := total_upd (s := s) (v := some { m with balance := m.balance + n }) H
  rw [hm] at e2
  simp only [wt] at e2
  have : n' = h0 + n := by omega
  rw [← this]
  unfold credit
  rw [hm]
  exact e1

/-! ## One accumulation -/

/-- The calls of an invocation. -/
def callsOf (prog : Prog) (g : Global) (env : Env) (gas : Nat) (init : Option VM) (q : Pair Boxes) : List (Nat × VM) :=
  match init with
  | none => []
  | some vm => extTrace prog (accHost (boxStore g) env) ((asI64 gas).toNat + 1) ((asI64 gas).toNat + 1) { vm with pc := 5, gas := asI64 gas } q

theorem invoke_calls {p : Prog} {init : Option VM} {gas : Nat} {q q' : Pair Boxes} {out : Output} {used : Nat}
    (h : invokeWithArgs p (accHost (boxStore g) env) init 5 gas q = (.ok (out, used), q')) :
    runCalls (accHost (boxStore g) env) (callsOf p g env gas init q) q = some q' := by
  unfold invokeWithArgs at h
  cases init with
  | none => cases h; rfl
  | some vm =>
    simp only at h
    unfold callsOf
    simp only
    generalize hvm : ({ vm with pc := 5, gas := asI64 gas } : VM) = v at h
    cases hr : extRun p (accHost (boxStore g) env) ((asI64 gas).toNat + 1) ((asI64 gas).toNat + 1) v q with
    | mk o rest =>
      obtain ⟨vm', s1⟩ := rest
      rw [hr] at h
      have key : (∀ e, o ≠ .done (.error e)) → s1 = q' →
          runCalls (accHost (boxStore g) env) (extTrace p (accHost (boxStore g) env) ((asI64 gas).toNat + 1) ((asI64 gas).toNat + 1) v q) q = some q' :=
        fun hne e => e ▸ extRun_trace p _ _ v q o vm' s1 hr hne
      cases o with
      | «continue» => cases h
      | stuck => cases h
      | done r =>
        cases r with
        | error e => cases h
        | ok ex =>
          refine key (fun e c => by cases c) ?_
          simp only at h
          by_cases c1 : ex = .outOfGas
          · rw [if_pos c1] at h; cases h; rfl
          rw [if_neg c1] at h
          by_cases c2 : ex = .halt
          · rw [if_pos c2] at h
            by_cases c3 : (vm'.r 7).toNat ≥ 2 ^ 32
            · rw [if_pos c3] at h; cases h
            rw [if_neg c3] at h
            by_cases c4 : (!vm'.mem.rangeReadable (vm'.r 7).toNat (vm'.r 8).toNat) = true
            · rw [if_pos c4] at h; cases h; rfl
            rw [if_neg c4] at h
            cases hm : vm'.mem.readBytes (vm'.r 7).toNat (vm'.r 8).toNat with
            | error e => rw [hm] at h; cases h
            | ok bs => rw [hm] at h; cases h; rfl
          · rw [if_neg c2] at h; cases h; rfl

theorem accumulate_opening {p : PState Boxes} {a : AccArgs} {r : AccResult} (h : accumulate g env mach p a = .ok (some r)) :
    ∃ bs1 bs2 bs3 c, existsActive g p.boxes a.host = (true, bs1) ∧ receive g bs1 a.host (received a.incoming) = some bs2 ∧
      accountCode g mach bs2 a.host = (c, bs3) ∧
      (r = { host := a.host, p := { p with boxes := boxOnly bs3 a.host } } ∨
       ∃ id out used cs q', let x := freshCtx a.host { p with boxes := bs3 } id
         initialId (boxStore g) bs3 a.seed = some id ∧ opening g env mach p a = some ({ x := x, y := x }, cs) ∧
         runCalls (accHost (boxStore g) env) cs { x := x, y := x } = some q' ∧ r = select out used q') := by
  unfold accumulate at h
  cases h1 : existsActive g p.boxes a.host with
  | mk ex bs =>
    rw [h1] at h
    cases ex with
    | false => cases h
    | true =>
      simp only at h
      cases h2 : receive g bs a.host (received a.incoming) with
      | none => rw [h2] at h; cases h
      | some bs1 =>
        rw [h2] at h
        simp only at h
        cases h3 : accountCode g mach bs1 a.host with
        | mk c bs2 =>
          refine ⟨bs, bs1, bs2, c, rfl, h2, h3, ?_⟩
          rw [h3] at h
          cases c with
          | error e => cases h
          | ok c =>
            cases c with
            | none => cases h; exact .inl rfl
            | some code =>
              simp only at h
              by_cases c1 : code.length > MAX_CODE
              · rw [if_pos c1] at h; cases h; exact .inl rfl
              rw [if_neg c1] at h
              cases h4 : initialId (boxStore g) bs2 a.seed with
              | none => rw [h4] at h; cases h
              | some id =>
                cases h5 : mach.load code with
                | none => rw [h4, h5] at h; cases h
                | some pi =>
                  obtain ⟨prog, init⟩ := pi
                  rw [h4, h5] at h
                  simp only at h
                  cases h6 : invokeWithArgs prog (accHost (boxStore g) env) init 5 a.gasLimit
                    { x := freshCtx a.host { p with boxes := bs2 } id, y := freshCtx a.host { p with boxes := bs2 } id } with
                  | mk o q' =>
                    rw [h6] at h
                    cases o with
                    | error e => cases h
                    | ok ou =>
                      obtain ⟨out, used⟩ := ou
                      cases h
                      refine .inr ⟨id, out, used, _, q', rfl, ?_, invoke_calls h6, rfl⟩
                      unfold opening
                      rw [h1]
                      simp only
                      rw [h2]
                      simp only [Option.bind_some]
                      rw [h3]
                      simp only
                      rw [if_neg (show ¬ code.length > 4000000 from c1), h4, h5]
                      rfl

theorem held_congr {a b : Global} (h : a.metas = b.metas) {n : Nat} (H : Held a n) : Held b n := by
  unfold Held at *; rw [← h]; exact H

theorem initial_free {bs : Boxes} {s seed id : Nat} (I : Inv g D s bs) (h : initialId (boxStore g) bs seed = some id) :
    Public id ∧ (view g bs).metas id = none := by
  unfold initialId checkId at h
  have hs : checkLoop (boxStore g) bs RING (seed % RING + MIN_ID) = checkLoop mapStore (view g bs) RING (seed % RING + MIN_ID) :=
    checkLoop_sim (x := freshCtx s { boxes := bs, staging := none, authQueue := [], manager := 0, assign := { confirmed := [] }, designate := { confirmed := 0 }, registrar := { confirmed := 0 }, always := [] } 0) I I _ _
  rw [hs] at h
  have := checkLoop_spec _ _ _ _ h ⟨Nat.le_add_left .., by have := Nat.mod_lt seed (show 0 < RING by decide); omega⟩
  exact this.symm

theorem boxOnly_get (bs : Boxes) (h s : Nat) : boxGet (boxOnly bs h) s = if s = h then boxGet bs h else none := by
  unfold boxOnly
  induction bs with
  | nil => simp [boxGet]
  | cons e bs ih =>
    obtain ⟨k, b⟩ := e
    by_cases c : k = h
    · subst c
      rw [List.filter_cons_of_pos (by simp)]
      unfold boxGet
      by_cases d : s = k
      · subst d; simp
      · rw [if_neg (Ne.symm d), ih, if_neg d, if_neg d]
    · rw [List.filter_cons_of_neg (by simp [c]), ih]
      show _ = if s = h then (if k = h then some b else boxGet bs h) else none
      rw [if_neg c]

theorem result_ok (hg : Healthy g) (hD : ∀ s, g.metas s = none → D s) {u : PState Boxes} {a : AccArgs} {r : AccResult} (F : Fit g D u.boxes)
    (hd : D a.host) (hin : inFlight a.incoming < U64) (h : accumulate g env mach u a = .ok (some r))
    (C : ∀ q cs, opening g env mach u a = some (q, cs) →
      Throughout (accHost mapStore env) (fun p => p.x.p.boxes.InRange) cs (q.view g) ∧ BeforeEach (accHost mapStore env) (CallOk g D) cs (q.view g))
    {n0 : Nat} (h0 : Held (view g u.boxes) n0) :
    Fit g D r.p.boxes ∧ (boxGet r.p.boxes a.host).isSome ∧ ((view g u.boxes).metas a.host).isSome ∧
    Framed g D a.host (view g u.boxes) (Alone (view g u.boxes) r) ∧ ((Alone (view g u.boxes) r).metas a.host).isSome ∧
    ∃ n, Held (Alone (view g u.boxes) r) n ∧ n + inFlight r.transfers = n0 + inFlight a.incoming := by
  obtain ⟨bs1, bs2, bs3, c, h1, h2, h3, h4⟩ := accumulate_opening h
  have O := hg.sound.orphans
  obtain ⟨v3, I3, b3⟩ := prepare O F.good hd h1 h2 h3
  have ha := (active_alive F.good h1).1
  have hrec : received a.incoming = inFlight a.incoming := Nat.mod_eq_of_lt hin
  rw [hrec] at v3
  have hc := credit_held (n := inFlight a.incoming) ha h0
  have ok3 : ∀ s, OkAt (view g bs3) s := by rw [v3]; exact credit_ok F.ok
  have out3 : ∀ s, s ≠ a.host → (view g bs3).metas s = (view g u.boxes).metas s := by
    intro s hs; rw [v3]; unfold credit upd; simp only; rw [if_neg hs]
  rcases h4 with e | ⟨id, out, used, cs, q', e1, e2, e3, e4⟩
  · -- no program: only the tokens received
    subst e
    simp only
    obtain ⟨b, hb⟩ := Option.isSome_iff_exists.1 b3
    have only : ∀ s, boxGet (boxOnly bs3 a.host) s = if s = a.host then some b else none := by
      intro s; rw [boxOnly_get]; split
      · exact hb
      · rfl
    have hal : (Alone (view g u.boxes) { host := a.host, p := { u with boxes := boxOnly bs3 a.host } }).metas = (view g bs3).metas := by
      funext s
      by_cases e : s = a.host
      · subst e
        rw [alone_some (b := b) (by show boxGet (boxOnly bs3 a.host) a.host = _; rw [only, if_pos rfl]), view_metas_some hb]
      · rw [alone_none (by show boxGet (boxOnly bs3 a.host) s = _; rw [only, if_neg e]), out3 s e]
    refine ⟨⟨?_, ?_⟩, by rw [only, if_pos rfl]; rfl, ha, ?_, by rw [hal]; exact I3.alive, n0 + inFlight a.incoming, ?_, rfl⟩
    · intro s b' hb'
      rw [only] at hb'
      split at hb'
      · rename_i e; cases hb'; exact e ▸ I3.boxes _ _ hb
      · cases hb'
    · intro s
      by_cases e : s = a.host
      · subst e
        exact (same_box (by rw [only, if_pos rfl, hb])).ok (ok3 _)
      · refine SameAt.ok (a := g) ?_ (healthy_iff.1 hg s)
        constructor <;> simp only [view, only, if_neg e]
    · intro s hs; left; rw [hal]; exact out3 s hs
    · exact held_congr hal.symm (v3 ▸ hc)
  · -- the program
    obtain ⟨T, B⟩ := C _ _ e2
    generalize hx : freshCtx a.host { u with boxes := bs3 } id = x at *
    have xh : x.host = a.host := by rw [← hx]; rfl
    have xb : x.p.boxes = bs3 := by rw [← hx]; rfl
    have xt : x.transfers = [] := by rw [← hx]; rfl
    have xn : x.nextId = id := by rw [← hx]; rfl
    have I : PairInv g D a.host { x := x, y := x } := ⟨by rw [xb]; exact I3, by rw [xb]; exact I3, xh, xh⟩
    have hh3 := healthy_iff.2 ok3
    have Gd : Good (Pair.view g { x := x, y := x }) := by
      have k1 : (x.view g).p.boxes.Sound := by show (view g x.p.boxes).Sound; rw [xb]; exact hh3.sound
      have k2 : ((x.view g).p.boxes.metas (x.view g).host).isSome := by show ((view g x.p.boxes).metas x.host).isSome; rw [xb, xh]; exact I3.alive
      exact ⟨k1, k1, k2, k2⟩
    have R : Run g D a.host env cs { x := x, y := x } q' := ⟨O, I, Gd, T, B, e3⟩
    have NF : NextFree (x.view g) := by
      have := initial_free I3 e1
      refine ⟨by show Public x.nextId; rw [xn]; exact this.1, ?_⟩
      show (view g x.p.boxes).metas x.nextId = none
      rw [xb, xn]; exact this.2
    have P0 : (view g x.p.boxes).InRange ∧ Covered (view g x.p.boxes) := by
      rw [xb]; exact ⟨hh3.range, covered_of hh3.sound hh3.range hh3.solvent⟩
    have Tk : Tokens (x.view g) (n0 + inFlight a.incoming) := by
      refine ⟨n0 + inFlight a.incoming, ?_, ?_⟩
      · show Held (view g x.p.boxes) _; rw [xb, v3]; exact hc
      · show _ = _ + inFlight x.transfers; rw [xt]; rfl
    have key := R.keeps (P := fun x => (x.p.boxes.InRange ∧ Covered x.p.boxes) ∧ NextFree x ∧ Tokens x (n0 + inFlight a.incoming))
      ⟨P0, NF, Tk⟩ ⟨P0, NF, Tk⟩ (fun y y' hp S r r' st => ⟨⟨r', st.covered S r r' hp.1.2⟩, st.next hp.2.1, st.tokens hp.2.1 hp.2.2⟩)
    have fr0 : Framed g D a.host (view g u.boxes) (view g x.p.boxes) := by
      intro s hs; left; rw [xb]; exact out3 s hs
    have fr := calls_framed hD cs _ _ R.good R.range R.ok xh NF fr0 fr0 R.maps
    have bx := calls_own (keeps_box g a.host a.host) (fun _ => trivial) (fun e he => he) (env := env)
      cs _ _ xh (by show (boxGet x.p.boxes a.host).isSome; rw [xb]; exact b3) (by show (boxGet x.p.boxes a.host).isSome; rw [xb]; exact b3) e3
    obtain ⟨Ia, Ga⟩ := R.after
    -- either context
    have fin : ∀ y : Ctx Boxes, Inv g D a.host y.p.boxes → (view g y.p.boxes).Sound → (view g y.p.boxes).InRange → Covered (view g y.p.boxes) →
        Tokens (y.view g) (n0 + inFlight a.incoming) → Framed g D a.host (view g u.boxes) (view g y.p.boxes) → (boxGet y.p.boxes a.host).isSome →
        r.p = y.p → r.transfers = y.transfers →
        Fit g D r.p.boxes ∧ (boxGet r.p.boxes a.host).isSome ∧ ((view g u.boxes).metas a.host).isSome ∧
        Framed g D a.host (view g u.boxes) (Alone (view g u.boxes) r) ∧ ((Alone (view g u.boxes) r).metas a.host).isSome ∧
        ∃ n, Held (Alone (view g u.boxes) r) n ∧ n + inFlight r.transfers = n0 + inFlight a.incoming := by
      intro y Iy Sy Ry Cy Ty Fy By rp rt
      have hal : (Alone (view g u.boxes) r).metas = (view g y.p.boxes).metas := by
        funext s
        cases hb : boxGet y.p.boxes s with
        | some b => rw [alone_some (b := b) (by rw [rp, hb]), view_metas_some hb]
        | none =>
          rw [alone_none (by rw [rp, hb])]
          have hv : (view g y.p.boxes).metas s = g.metas s := by simp only [view, hb]
          have hs : s ≠ a.host := fun e => by rw [e] at hb; rw [hb] at By; cases By
          rcases Fy s hs with k | k | k
          · exact k.symm
          · rw [hv, k.1, k.2]
          · exact absurd (hD s (hv ▸ k.1)) k.2
      refine ⟨⟨by rw [rp]; exact Iy.boxes, by rw [rp]; exact healthy_iff.1 ⟨Sy, Ry, solvent_iff Sy Ry Cy⟩⟩, by rw [rp]; exact By, ha, ?_, by rw [hal]; exact Iy.alive, ?_⟩
      · intro s hs; rw [hal]; exact Fy s hs
      · obtain ⟨n, k1, k2⟩ := Ty
        exact ⟨n, held_congr hal.symm k1, by rw [rt]; exact k2.symm⟩
    have hrp : (r.p = q'.x.p ∧ r.transfers = q'.x.transfers) ∨ (r.p = q'.y.p ∧ r.transfers = q'.y.transfers) := by
      rw [e4]; cases out <;> first | exact .inl ⟨rfl, rfl⟩ | exact .inr ⟨rfl, rfl⟩
    rcases hrp with ⟨k1, k2⟩ | ⟨k1, k2⟩
    · exact fin q'.x Ia.x Ga.sx key.1.1.1 key.1.1.2 key.1.2.2 fr.1 bx.1 k1 k2
    · exact fin q'.y Ia.y Ga.sy key.2.1.1 key.2.1.2 key.2.2.2 fr.2 bx.2 k1 k2

/-! ## One round -/

theorem inFlight_filter (p : Transfer → Bool) : ∀ ts : List Transfer, inFlight (ts.filter p) ≤ inFlight ts
  | [] => Nat.le_refl _
  | t :: ts => by
    have ih := inFlight_filter p ts
    rw [List.filter_cons]
    split
    · rw [inFlight_cons, inFlight_cons]; omega
    · rw [inFlight_cons]; omega

variable {W : World} {R : Round}

theorem round_ok (hg : Healthy W.g) (hD : ∀ s, W.g.metas s = none → D s) (hr : ∀ r ∈ R.results, D r.host) (Fa : R.Faithful W) (C : R.Careful W D)
    (F : Fit W.g D R.start.boxes) {n0 : Nat} (h0 : Held (view W.g R.start.boxes) n0) (hin : inFlight R.delivered < U64) :
    R.Clean W ∧ Fit W.g D R.finish.boxes := by
  have key : ∀ r ∈ R.results, _ := fun r hr' =>
    result_ok hg hD (a := { host := r.host, gasLimit := R.limit r.host, incoming := R.delivered.filter fun t => t.dst == r.host, seed := W.seed r.host })
      F (hr r hr') (Nat.lt_of_le_of_lt (inFlight_filter _ _) hin) (Fa.run r hr').2 (C r hr') h0
  refine ⟨⟨⟨D, F.good, fun r h => (key r h).1.good, ?_, fun r h => (key r h).2.1, fun r h => (key r h).2.2.1, ?_, ?_⟩, ?_, ?_⟩, ?_⟩
  · have := Fa.order
    exact this.imp fun h => Nat.ne_of_lt h
  · intro r h r' h'
    obtain ⟨_, _, k3, k4, k5, _⟩ := key r h
    by_cases e : r'.host = r.host
    · rw [e]; exact k5
    · have ha := (key r' h').2.2.1
      simp only at ha
      rcases k4 r'.host e with k | k | k
      · rw [k]; exact ha
      · rw [k.1] at ha; cases ha
      · exact absurd (hr r' h') k.2
  · intro r h s hs hn
    obtain ⟨_, _, k3, k4, k5, _⟩ := key r h
    have e : s ≠ r.host := fun e => by rw [e] at hn; simp only at k3; rw [hn] at k3; cases k3
    rcases k4 s e with k | k | k
    · rw [k]; exact hn
    · exact absurd k.2 hs
    · exact k.1
  · intro r h s hs hf
    obtain ⟨_, _, k3, k4, k5, _⟩ := key r h
    have hf' : ((Alone (view W.g R.start.boxes) r).metas s).isSome = ((view W.g R.start.boxes).metas s).isSome := Decidable.not_not.1 hf
    rcases k4 s hs with k | k | k
    · exact k
    · rw [k.1] at hf' ⊢
      cases h1 : (Alone (view W.g R.start.boxes) r).metas s with
      | none => rfl
      | some m => rw [h1] at hf'; cases hf'
    · rw [k.1] at hf' ⊢
      cases h1 : (view W.g R.start.boxes).metas s with
      | none => rfl
      | some m => rw [h1] at hf'; cases hf'
  · intro r h
    obtain ⟨_, _, _, _, _, n, k1, k2⟩ := key r h
    exact ⟨n0, n, h0, k1, k2⟩
  · obtain ⟨m, h1, h2⟩ := Fa.merge
    rw [← h2]
    exact F.mergeRound hg.sound.orphans (fun r h => (key r h).1) h1

/-! ## The block -/

theorem chain_fit (hg : Healthy W.g) (hD : ∀ s, W.g.metas s = none → D s) {N : Nat} (hN : N < U64) : ∀ {Rs : List Round} {u : PState Boxes} {ts v} {n0 : Nat},
    Chain u ts Rs v → (∀ R ∈ Rs, R.Faithful W) → (∀ R ∈ Rs, Fit W.g D R.start.boxes → R.Careful W D) → (∀ R ∈ Rs, ∀ r ∈ R.results, D r.host) →
    Fit W.g D u.boxes → Held (view W.g u.boxes) n0 → n0 + inFlight ts ≤ N →
    Fit W.g D v.boxes ∧ ∀ R ∈ Rs, R.Clean W ∧ Fit W.g D R.start.boxes
  | [], u, ts, v, n0, h, _, _, _, F, _, _ => ⟨h.1 ▸ F, by simp⟩
  | R :: Rs, u, ts, v, n0, h, Fa, C, hr, F, h0, hn => by
    obtain ⟨h1, h2, h3⟩ := h
    subst h1 h2
    have m := List.mem_cons_self (a := R) (l := Rs)
    obtain ⟨k1, k2⟩ := round_ok hg hD (hr R m) (Fa R m) (C R m F) F h0 (by omega)
    obtain ⟨n1, l1, l2⟩ := k1.tokens (Fa R m) h0
    have ih := chain_fit hg hD hN h3 (fun R hR => Fa R (List.mem_cons_of_mem _ hR)) (fun R hR => C R (List.mem_cons_of_mem _ hR))
      (fun R hR => hr R (List.mem_cons_of_mem _ hR)) k2 l1 (by omega)
    refine ⟨ih.1, fun R' hR' => ?_⟩
    rcases List.mem_cons.1 hR' with e | e
    · subst e; exact ⟨k1, F⟩
    · exact ih.2 R' e

theorem fit_start (hg : Healthy g) : Fit g D [] := ⟨fun _ _ h => (by cases h), healthy_iff.1 hg⟩

/-! ## After the rounds -/

theorem stamp_meta {a : Global} {slot : Nat} {ids : List Nat} (s : Nat) :
    (stamp slot ids a).metas s = a.metas s ∨ (stamp slot ids a).metas s = (a.metas s).map fun m => { m with lastAcc := slot } := by
  simp only [stamp]; split
  · exact .inr rfl
  · exact .inl rfl

theorem stamp_ok {a : Global} {slot : Nat} {ids : List Nat} (h : Healthy a) : Healthy (stamp slot ids a) := by
  refine healthy_iff.2 fun s => ?_
  have o := healthy_iff.1 h s
  have us : ∀ i o, Usage (stamp slot ids a) s i o ↔ Usage a s i o := fun i o => ⟨usage_congr rfl rfl, usage_congr rfl rfl⟩
  refine ⟨fun hm => o.orphans ?_, fun m hm => ?_, o.requested, fun i o' U => o.range i o' ((us _ _).1 U), fun m hm => ?_⟩
  · rcases stamp_meta (slot := slot) (ids := ids) (a := a) s with e | e
    · rw [← e]; exact hm
    · rw [hm] at e; exact Option.map_eq_none_iff.1 e.symm
  · rw [us]
    rcases stamp_meta (slot := slot) (ids := ids) (a := a) s with e | e
    · exact o.exact m (e ▸ hm)
    · rw [hm] at e
      obtain ⟨m', h1, h2⟩ := Option.map_eq_some_iff.1 e.symm
      subst h2; exact o.exact m' h1
  · rcases stamp_meta (slot := slot) (ids := ids) (a := a) s with e | e
    · obtain ⟨i, o', k1, k2⟩ := o.solvent m (e ▸ hm)
      exact ⟨i, o', (us _ _).2 k1, k2⟩
    · rw [hm] at e
      obtain ⟨m', h1, h2⟩ := Option.map_eq_some_iff.1 e.symm
      obtain ⟨i, o', k1, k2⟩ := o.solvent m' h1
      subst h2; exact ⟨i, o', (us _ _).2 k1, k2⟩

theorem stamp_held {a : Global} {slot : Nat} {ids : List Nat} {n : Nat} (h : Held a n) : Held (stamp slot ids a) n := by
  obtain ⟨l, h1, h2⟩ := h
  refine ⟨l, ⟨h1.1, fun k => ?_⟩, ?_⟩
  · rw [h1.2 k]
    rcases stamp_meta (slot := slot) (ids := ids) (a := a) k with e | e <;> rw [e]
    simp
  · rw [h2]
    unfold total
    congr 1
    refine List.map_congr_left fun k _ => ?_
    rcases stamp_meta (slot := slot) (ids := ids) (a := a) k with e | e <;> rw [e]
    cases a.metas k <;> rfl

theorem integrate_metas {env : Env} : ∀ (es : List (Nat × Bytes)) (a : Global), (integrate env es a).metas = a.metas
  | [], _ => rfl
  | e :: es, a => by
    show (integrate env es (integrateOne env a e)).metas = _
    rw [integrate_metas es]
    rcases integrateOne_cases (env := env) a e with h | ⟨_, _, h⟩ <;> rw [h]

theorem integrate_ok {env : Env} : ∀ (es : List (Nat × Bytes)) {a : Global}, Healthy a → Healthy (integrate env es a)
  | [], _, h => h
  | e :: es, a, h => by
    show Healthy (integrate env es (integrateOne env a e))
    refine integrate_ok es ?_
    rcases integrateOne_cases (env := env) a e with k | ⟨_, k1, k2⟩
    · rw [k]; exact h
    · have hm : (a.metas e.1).isSome := by
        cases hm : a.metas e.1 with
        | some m => rfl
        | none => rw [(h.sound.orphans _ hm).2.2] at k1; cases k1
      have : integrateOne env a e = given env a e := by rw [k2]; rw [given_eq]; rw [if_pos ⟨hm, k1⟩]
      rw [this]
      exact healthy_iff.2 (given_ok e (healthy_iff.1 h))

end Fastroll.Delta
