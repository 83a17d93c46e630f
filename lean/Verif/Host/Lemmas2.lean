import Verif.Host.Lemmas

/-! Lemmas: the general functions and the ones on privileges follow the paper. -/
namespace Fastroll.Host
open Fastroll.Pvm Fastroll.Svc
open Refine (Sound sound_read sound_write sound_bound octets_length octets_get)
open Refine.Paper (CanRead CanWrite octets)
open Pvm.Paper (word)
open Paper (Acct Holds Needs Const Res Acts Answers Offers FirstFree Listed cells little named fresh)

/-- The contexts the theorems speak of: the accounts are consistent and solvent, with room in their counters;
identifiers, lengths and slots are in the range of their types with the expiry period added; the
running service exists; the lists of cores are complete; and the identifier kept for the next account
is free, and so is another one. -/
structure Fit (env : Env) (x : Svc.Ctx Global) : Prop where
  sound : x.p.boxes.Sound
  solvent : Solvent x.p.boxes
  room : Roomy x.p.boxes
  alive : (x.p.boxes.metas x.host).isSome
  ids : ∀ s, (x.p.boxes.metas s).isSome → s < 2 ^ 32
  lens : ∀ s h z ts, x.p.boxes.lookups s (h, z) = some ts → z < 2 ^ 32
  slots : ∀ s k ts, x.p.boxes.lookups s k = some ts → ts.length ≤ 3 ∧ ∀ t ∈ ts, t + env.par.expiry < 2 ^ 32
  funds : ∀ s m e d, s ≠ e → x.p.boxes.metas s = some m → x.p.boxes.metas e = some d → m.balance + d.balance < 2 ^ 64
  queues : x.p.authQueue.length = env.par.cores
  assigned : ∀ c, c < env.par.cores → x.p.assign.current c ≠ none
  next : NextFree x
  free : ∃ id, Public id ∧ id ≠ x.nextId ∧ x.p.boxes.metas id = none

variable {env : Env} {vm : VM} {x : Svc.Ctx Global}

theorem Fit.range (F : Fit env x) : x.p.boxes.InRange :=
  Svc.Ex.inRange_of F.sound fun s m h => ⟨by have := F.room s m h; unfold U32 at *; omega, roomy_deposit (F.room s m h)⟩

theorem Fit.covered (F : Fit env x) : Covered x.p.boxes := covered_of F.sound F.range F.solvent

/-- The account the code and the paper see under a number. -/
theorem Fit.needs (F : Fit env x) {s : Nat} {m : Meta} (h : x.p.boxes.metas s = some m) :
    ∃ a, acct x.p.boxes s = some a ∧ a.balance = m.balance ∧ a.gratis = m.gratis ∧ Holds a m.items m.octets ∧ Needs a m.threshold := by
  refine ⟨_, acct_some h, rfl, rfl, holds_of (F.sound.exact s m h) rfl rfl, ?_⟩
  rw [threshold_eq (roomy_deposit (F.room s m h))]
  exact needs_of (F.sound.exact s m h) rfl rfl

theorem gas_acts (hg : noGas vm = false) : ActsAs env vm x 0 (hostGas env vm x) := by
  unfold hostGas
  rw [hg]
  exact ⟨_, _, rfl, means_ret _, .gas⟩

theorem fetch_acts (hg : noGas vm = false) (hm : Sound vm.mem) (ha : VM.n vm 7 < 2 ^ 32) :
    ActsAs env vm x 1 (hostFetch env vm x) := by
  unfold hostFetch
  rw [hg]
  simp only [Bool.false_eq_true, if_false]
  cases h : env.fetch vm with
  | none =>
    refine ⟨_, _, rfl, means_ret NONE, ?_⟩
    rw [h]; exact .fetch .none
  | some v =>
    obtain ⟨res, h1, h2⟩ := serve_offers hm v 7 8 9 ha
    refine ⟨res, _, rfl, h1, ?_⟩
    rw [h]; exact .fetch h2

/-- The service in register 7. -/
theorem target_cases (vm : VM) (x : Svc.Ctx Global) : target vm x = some (named (paper x) (VM.n vm 7)) ∨
    (target vm x = none ∧ named (paper x) (VM.n vm 7) = VM.n vm 7 ∧ 2 ^ 32 ≤ VM.n vm 7) := by
  unfold target named
  have e : U64 - 1 = 2 ^ 64 - 1 := rfl
  rw [e]
  by_cases c : VM.n vm 7 = 2 ^ 64 - 1
  · rw [if_pos c, if_pos c]; exact .inl rfl
  · rw [if_neg c, if_neg c]
    rcases u32_cases vm 7 with ⟨h, _⟩ | ⟨h, h2⟩
    · exact .inl h
    · exact .inr ⟨h, rfl, h2⟩

theorem Fit.wide (F : Fit env x) {s : Nat} (h : 2 ^ 32 ≤ s) : x.p.boxes.metas s = none := by
  cases hs : x.p.boxes.metas s with
  | none => rfl
  | some m => exact absurd (F.ids s (by rw [hs]; rfl)) (by omega)

theorem Fit.preimage (F : Fit env x) (s : Nat) (k : Bytes) :
    ((paper x).accts s).bind (fun a => a.preimages k) = x.p.boxes.preimages s k := by
  cases h : x.p.boxes.metas s with
  | none =>
    show (acct x.p.boxes s).bind _ = _
    rw [acct_none h, (F.sound.orphans s h).2.1 k]; rfl
  | some m =>
    show (acct x.p.boxes s).bind _ = _
    rw [acct_some h]; rfl

theorem Fit.stored (F : Fit env x) (s : Nat) (k : Bytes) :
    ((paper x).accts s).bind (fun a => a.storage k) = x.p.boxes.storage s k := by
  cases h : x.p.boxes.metas s with
  | none =>
    show (acct x.p.boxes s).bind _ = _
    rw [acct_none h, (F.sound.orphans s h).1 k]; rfl
  | some m =>
    show (acct x.p.boxes s).bind _ = _
    rw [acct_some h]; rfl

theorem lookup_acts (F : Fit env x) (hg : noGas vm = false) (hm : Sound vm.mem) (ha : VM.n vm 9 < 2 ^ 32) :
    ActsAs env vm x 2 (hostLookup mapStore env vm x) := by
  unfold hostLookup
  rw [hg]
  simp only [Bool.false_eq_true, if_false]
  rcases readHash_spec hm 8 with ⟨e, hr⟩ | ⟨e, hr⟩
  · simp only [e]
    rcases target_cases vm x with t | ⟨t, t1, t2⟩
    · simp only [t, mapStore]
      have hp := F.preimage (named (paper x) (VM.n vm 7)) (octets vm.mem.abs (VM.n vm 8) 32)
      cases h : x.p.boxes.preimages (named (paper x) (VM.n vm 7)) (octets vm.mem.abs (VM.n vm 8) 32) with
      | none =>
        rw [h] at hp
        exact ⟨_, _, rfl, means_ret NONE, .lookup hr (by rw [hp]; exact .none)⟩
      | some v =>
        rw [h] at hp
        obtain ⟨res, h1, h2⟩ := serve_offers hm v 9 10 11 ha
        exact ⟨res, _, rfl, h1, .lookup hr (by rw [hp]; exact h2)⟩
    · simp only [t]
      have hp := F.preimage (named (paper x) (VM.n vm 7)) (octets vm.mem.abs (VM.n vm 8) 32)
      rw [t1, (F.sound.orphans _ (F.wide t2)).2.1] at hp
      exact ⟨_, _, rfl, means_ret NONE, .lookup hr (by rw [t1, hp]; exact .none)⟩
  · simp only [e]
    exact ⟨_, _, rfl, means_panic, .lookupPanic hr⟩

theorem read_acts (F : Fit env x) (hg : noGas vm = false) (hm : Sound vm.mem) (ha : VM.n vm 10 < 2 ^ 32)
    (hk : VM.n vm 8 < 2 ^ 32 ∨ VM.n vm 9 ≠ 0) : ActsAs env vm x 3 (hostRead mapStore env vm x) := by
  unfold hostRead
  rw [hg]
  simp only [Bool.false_eq_true, if_false]
  rcases u32_cases vm 8 with ⟨e, _⟩ | ⟨e, e2⟩
  · simp only [e]
    rcases read_at hm 8 (VM.n vm 9) with ⟨e, hr⟩ | ⟨e, hr⟩
    · simp only [e]
      rcases target_cases vm x with t | ⟨t, t1, t2⟩
      · simp only [t, mapStore]
        have hp := F.stored (named (paper x) (VM.n vm 7)) (octets vm.mem.abs (VM.n vm 8) (VM.n vm 9))
        cases h : x.p.boxes.storage (named (paper x) (VM.n vm 7)) (octets vm.mem.abs (VM.n vm 8) (VM.n vm 9)) with
        | none =>
          rw [h] at hp
          exact ⟨_, _, rfl, means_ret NONE, .read hr (by rw [hp]; exact .none)⟩
        | some v =>
          rw [h] at hp
          obtain ⟨res, h1, h2⟩ := serve_offers hm v 10 11 12 ha
          exact ⟨res, _, rfl, h1, .read hr (by rw [hp]; exact h2)⟩
      · simp only [t]
        have hp := F.stored (named (paper x) (VM.n vm 7)) (octets vm.mem.abs (VM.n vm 8) (VM.n vm 9))
        rw [t1, (F.sound.orphans _ (F.wide t2)).1] at hp
        exact ⟨_, _, rfl, means_ret NONE, .read hr (by rw [t1, hp]; exact .none)⟩
    · simp only [e]
      exact ⟨_, _, rfl, means_panic, .readPanic hr⟩
  · simp only [e]
    exact ⟨_, _, rfl, means_panic, .readPanic (wide_unreadable hm (hk.resolve_left (by omega)) e2)⟩

theorem info_acts (F : Fit env x) (hg : noGas vm = false) (hm : Sound vm.mem) (ha : VM.n vm 8 < 2 ^ 32) :
    ActsAs env vm x 5 (hostInfo mapStore env vm x) := by
  unfold hostInfo
  rw [hg]
  simp only [Bool.false_eq_true, if_false]
  rcases target_cases vm x with t | ⟨t, t1, t2⟩
  · simp only [t, mapStore]
    cases h : x.p.boxes.metas (named (paper x) (VM.n vm 7)) with
    | none => exact ⟨_, _, rfl, means_ret NONE, .infoNone (acct_none h)⟩
    | some m =>
      obtain ⟨a, h1, _, _, h2, h3⟩ := F.needs h
      have e : m.infoBytes = a.told m.items m.octets m.threshold := by
        rw [acct_some h] at h1; cases h1
        unfold Meta.infoBytes Acct.told
        simp only [le_leBytes]
      obtain ⟨res, hr1, hr2⟩ := serve_offers hm (a.told m.items m.octets m.threshold) 8 9 10 ha
      refine ⟨res, _, rfl, ?_, .info h1 h2 h3 hr2⟩
      rw [e]; exact hr1
  · simp only [t]
    exact ⟨_, _, rfl, means_ret NONE, .infoNone (by rw [t1]; exact acct_none (F.wide t2))⟩

/-! ## Privileges -/

theorem get_sortedSet (l : List (Nat × Nat)) (k v k' : Nat) :
    assocGet (sortedSet l k v) k' = if k' = k then some v else assocGet l k' := by
  induction l with
  | nil =>
    simp only [sortedSet, assocGet]
    by_cases c : k = k'
    · rw [if_pos c, if_pos c.symm]
    · rw [if_neg c, if_neg (Ne.symm c)]
  | cons p l ih =>
    obtain ⟨a, b⟩ := p
    simp only [sortedSet]
    split
    · simp only [assocGet]
      by_cases c : k = k'
      · rw [if_pos c, if_pos c.symm]
      · rw [if_neg c, if_neg (Ne.symm c)]
    · split
      · rename_i e
        subst e
        simp only [assocGet]
        by_cases c : k = k'
        · rw [if_pos c, if_pos c.symm]
        · rw [if_neg c, if_neg (Ne.symm c), if_neg c]
      · rename_i e
        simp only [assocGet, ih]
        by_cases c : a = k'
        · rw [if_pos c, if_pos c, if_neg (by omega)]
        · rw [if_neg c, if_neg c]

theorem always_spec (m : PMem) : ∀ (n o : Nat) (acc : List (Nat × Nat)) (s g : Nat),
    assocGet (readAlways (cells m o 12 n) acc) s = some g ↔
      Listed m o n s g ∨ ((∀ i, i < n → word m (o + 12 * i) 4 ≠ s) ∧ assocGet acc s = some g) := by
  intro n
  induction n with
  | zero =>
    intro o acc s g
    constructor
    · exact fun h => .inr ⟨fun i hi => absurd hi (by omega), h⟩
    · rintro (⟨i, hi, _⟩ | ⟨_, h⟩)
      · omega
      · exact h
  | succ n ih =>
    intro o acc s g
    have e : cells m o 12 (n + 1) = octets m o 12 :: cells m (o + 12) 12 n := by
      unfold cells
      rw [List.range_succ_eq_map, List.map_cons, List.map_map]
      congr 1
      refine List.map_congr_left fun i _ => ?_
      simp only [Function.comp, Nat.succ_eq_add_one]
      congr 1; omega
    rw [e]
    show assocGet (readAlways (cells m (o + 12) 12 n) (sortedSet acc (Svc.fromLE ((octets m o 12).take 4)) (Svc.fromLE ((octets m o 12).drop 4)))) s = some g ↔ _
    rw [ih, get_sortedSet, show (12 : Nat) = 4 + 8 from rfl, octets_take, octets_drop, fromLE_word, fromLE_word]
    have sh : ∀ i, o + (4 + 8) + (4 + 8) * i = o + 12 * (i + 1) := fun i => by omega
    unfold Listed
    simp only [sh, show (4 + 8 : Nat) = 12 from rfl] at *
    constructor
    · rintro (⟨i, hi, h1, h2, h3⟩ | ⟨h1, h2⟩)
      · left
        refine ⟨i + 1, by omega, h1, h2, ?_⟩
        intro j hj hjn
        have := h3 (j - 1) (by omega) (by omega)
        rw [show j - 1 + 1 = j by omega] at this
        exact this
      · by_cases c : s = word m o 4
        · rw [if_pos c] at h2
          cases h2
          left
          refine ⟨0, by omega, by rw [c]; rfl, rfl, ?_⟩
          intro j hj hjn
          have := h1 (j - 1) (by omega)
          rw [show o + 12 * (j - 1 + 1) = o + 12 * j by omega] at this
          exact this
        · rw [if_neg c] at h2
          right
          refine ⟨fun i hi => ?_, h2⟩
          cases i with
          | zero => exact fun e => c e.symm
          | succ i => exact h1 i (by omega)
    · rintro (⟨i, hi, h1, h2, h3⟩ | ⟨h1, h2⟩)
      · cases i with
        | zero =>
          right
          refine ⟨fun i hi => h3 (i + 1) (by omega) (by omega), ?_⟩
          simp only [Nat.mul_zero, Nat.add_zero] at h1 h2
          rw [if_pos h1.symm, h2]
        | succ i =>
          left
          exact ⟨i, by omega, h1, h2, fun j hj hjn => h3 (j + 1) (by omega) (by omega)⟩
      · right
        refine ⟨fun i hi => h1 (i + 1) (by omega), ?_⟩
        have := h1 0 (by omega)
        rw [if_neg (fun e => this e.symm)]
        exact h2

theorem bless_acts (hg : noGas vm = false) (hm : Sound vm.mem) (h8 : VM.n vm 8 < 2 ^ 32 ∨ env.par.cores ≠ 0)
    (h11 : VM.n vm 11 < 2 ^ 32 ∨ VM.n vm 12 ≠ 0) : ActsAs env vm x 14 (hostBless env vm x) := by
  unfold hostBless
  rw [hg]
  simp only [Bool.false_eq_true, if_false]
  rcases u32_cases vm 8 with ⟨e8, _⟩ | ⟨e8, w8⟩
  · rcases u32_cases vm 11 with ⟨e11, _⟩ | ⟨e11, w11⟩
    · simp only [e8, e11]
      rcases read_at hm 8 (4 * env.par.cores) with ⟨e, hr⟩ | ⟨e, hr⟩
      · simp only [e]
        have pan : ¬ CanRead vm.mem.abs (VM.n vm 11) (12 * VM.n vm 12) → Acts (consts env) (env.fetch vm) (VM.n vm) vm.mem.abs vm.gas (paper x) 14 .panic (paper x) :=
          fun h => .blessPanic fun h' => h h'.2
        by_cases c : VM.n vm 12 * 12 ≥ U64
        · rw [if_pos c]
          refine ⟨_, _, rfl, means_panic, pan fun hc => ?_⟩
          have := sound_bound hm (VM.n vm 11 + 12 * VM.n vm 12 - 1) (hc _ (by unfold U64 at c; omega) (by unfold U64 at c; omega))
          unfold U64 at c; omega
        · rw [if_neg c, Nat.mul_comm (VM.n vm 12)]
          rcases read_at hm 11 (12 * VM.n vm 12) with ⟨e', hr'⟩ | ⟨e', hr'⟩
          · simp only [e']
            have both : CanRead vm.mem.abs (VM.n vm 8) (4 * (consts env).cores) ∧ CanRead vm.mem.abs (VM.n vm 11) (12 * VM.n vm 12) := ⟨hr, hr'⟩
            rcases u32_cases vm 7 with ⟨e7, w7⟩ | ⟨e7, w7⟩
            · rcases u32_cases vm 9 with ⟨e9, w9⟩ | ⟨e9, w9⟩
              · rcases u32_cases vm 10 with ⟨e10, w10⟩ | ⟨e10, w10⟩
                · simp only [e7, e9, e10]
                  refine ⟨_, _, rfl, means_ret OK, ?_⟩
                  have := Acts.bless (P := consts env) (datum := env.fetch vm) (φ := VM.n vm) (μ := vm.mem.abs) (ϱ := vm.gas) (x := paper x)
                    (as := fun c => (((chunks 4 env.par.cores (octets vm.mem.abs (VM.n vm 8) (4 * env.par.cores))).map Svc.fromLE))[c]?)
                    (zs := assocGet (readAlways (chunks 12 (VM.n vm 12) (octets vm.mem.abs (VM.n vm 11) (12 * VM.n vm 12))) []))
                    both ⟨w7, w9, w10⟩ ?_ ?_
                  · exact this
                  · intro c
                    rw [chunks_octets]
                    unfold cells
                    rw [List.map_map, List.getElem?_map]
                    show _ = if c < env.par.cores then _ else _
                    by_cases hc : c < env.par.cores
                    · rw [List.getElem?_range hc, if_pos hc, Option.map_some]
                      simp only [Function.comp, fromLE_word]
                    · rw [List.getElem?_eq_none (by simp; omega), if_neg hc]; rfl
                  · intro s g
                    rw [chunks_octets, always_spec]
                    constructor
                    · rintro (h | ⟨_, h⟩)
                      · exact h
                      · cases h
                    · exact .inl
                · simp only [e7, e9, e10]
                  exact ⟨_, _, rfl, means_ret WHO, .blessWho both (by omega)⟩
              · simp only [e7, e9]
                exact ⟨_, _, rfl, means_ret WHO, .blessWho both (by omega)⟩
            · simp only [e7]
              exact ⟨_, _, rfl, means_ret WHO, .blessWho both (by omega)⟩
          · simp only [e']
            exact ⟨_, _, rfl, means_panic, pan hr'⟩
      · simp only [e]
        exact ⟨_, _, rfl, means_panic, .blessPanic fun h => hr h.1⟩
    · simp only [e8, e11]
      exact ⟨_, _, rfl, means_panic, .blessPanic fun h => wide_unreadable hm (by have := h11.resolve_left (by omega); omega) w11 h.2⟩
  · simp only [e8]
    exact ⟨_, _, rfl, means_panic, .blessPanic fun h => wide_unreadable hm (by have := h8.resolve_left (by omega); show 4 * env.par.cores ≠ 0; omega) w8 h.1⟩

theorem current_assigned (a : Assigns) (core s : Nat) (hc : a.current core ≠ none) (c : Nat) :
    Assigns.current ⟨a.confirmed, a.byBless.map (fun l => l.set core s), assocSet a.bySelf core s⟩ c =
      if c = core then some s else a.current c := by
  have gset : ∀ l : List (Nat × Nat), assocGet (assocSet l core s) c = if c = core then some s else assocGet l c := by
    intro l
    induction l with
    | nil =>
      simp only [assocSet, assocGet]
      by_cases e : core = c
      · rw [if_pos e, if_pos e.symm]
      · rw [if_neg e, if_neg (Ne.symm e)]
    | cons p l ih =>
      obtain ⟨k, v⟩ := p
      simp only [assocSet]
      by_cases e : k = core
      · rw [if_pos e]
        simp only [assocGet]
        by_cases e' : core = c
        · rw [if_pos e', if_pos e'.symm]
        · rw [if_neg e', if_neg (Ne.symm e'), if_neg (by omega)]
      · rw [if_neg e]
        simp only [assocGet, ih]
        by_cases e' : k = c
        · rw [if_pos e', if_pos e', if_neg (by omega)]
        · rw [if_neg e', if_neg e']
  obtain ⟨cf, bb, bs⟩ := a
  unfold Assigns.current at *
  cases bb with
  | some l =>
    simp only [Option.map_some] at *
    rw [List.getElem?_set]
    by_cases e : core = c
    · rw [if_pos e, if_pos e.symm]
      cases h : l[core]? with
      | none => exact absurd h hc
      | some v => rw [if_pos (List.getElem?_eq_some_iff.1 h).1]
    · rw [if_neg e, if_neg (Ne.symm e)]
  | none =>
    simp only [Option.map_none, gset]
    by_cases e : c = core
    · rw [if_pos e, if_pos e]
    · rw [if_neg e, if_neg e]

theorem assign_acts (F : Fit env x) (hg : noGas vm = false) (hm : Sound vm.mem) (h8 : VM.n vm 8 < 2 ^ 32 ∨ env.par.authQueue ≠ 0) :
    ActsAs env vm x 15 (hostAssign env vm x) := by
  unfold hostAssign
  rw [hg]
  simp only [Bool.false_eq_true, if_false]
  rcases u32_cases vm 8 with ⟨e8, _⟩ | ⟨e8, w8⟩
  · simp only [e8]
    rcases read_at hm 8 (32 * env.par.authQueue) with ⟨e, hr⟩ | ⟨e, hr⟩
    · simp only [e]
      by_cases c : VM.n vm 7 ≥ env.par.cores
      · rw [if_pos c]
        exact ⟨_, _, rfl, means_ret CORE, .assignCore hr c⟩
      · rw [if_neg c]
        have hc := F.assigned (VM.n vm 7) (by omega)
        cases h : x.p.assign.current (VM.n vm 7) with
        | none => exact absurd h hc
        | some s =>
          dsimp only
          have h' : (paper x).assigner (VM.n vm 7) = some s := h
          by_cases d : x.host = s
          · rw [if_neg (by simpa using d)]
            have hs : (paper x).assigner (VM.n vm 7) = some (paper x).self := by rw [h', ← d]; rfl
            rcases u32_cases vm 9 with ⟨e9, w9⟩ | ⟨e9, w9⟩
            · simp only [e9]
              refine ⟨_, _, rfl, means_ret OK, ?_⟩
              have := Acts.assign (P := consts env) (datum := env.fetch vm) (ϱ := vm.gas) hr (Nat.lt_of_not_le c) hs w9
              have e2 : paper (x.assigned (VM.n vm 7) (chunks 32 env.par.authQueue (octets vm.mem.abs (VM.n vm 8) (32 * env.par.authQueue))) (VM.n vm 9)) =
                  { paper x with
                    queue := fun c => if c = VM.n vm 7 then some (cells vm.mem.abs (VM.n vm 8) 32 (consts env).queueLen) else (paper x).queue c,
                    assigner := fun c => if c = VM.n vm 7 then some (VM.n vm 9) else (paper x).assigner c } := by
                unfold paper Ctx.assigned
                congr 1
                · funext k
                  exact current_assigned x.p.assign (VM.n vm 7) (VM.n vm 9) hc k
                · funext k
                  dsimp only
                  rw [chunks_octets, List.getElem?_set]
                  by_cases e : VM.n vm 7 = k
                  · rw [if_pos e, if_pos e.symm, if_pos (by rw [F.queues]; omega)]; rfl
                  · rw [if_neg e, if_neg (Ne.symm e)]
              rw [e2]; exact this
            · simp only [e9]
              exact ⟨_, _, rfl, means_ret WHO, .assignWho hr (Nat.lt_of_not_le c) hs w9⟩
          · rw [if_pos (by simpa using d)]
            exact ⟨_, _, rfl, means_ret HUH, .assignHuh hr (Nat.lt_of_not_le c) (by rw [h']; intro e; cases e; exact d rfl)⟩
    · simp only [e]
      exact ⟨_, _, rfl, means_panic, .assignPanic hr⟩
  · simp only [e8]
    exact ⟨_, _, rfl, means_panic, .assignPanic (wide_unreadable hm (by have := h8.resolve_left (by omega); show 32 * env.par.authQueue ≠ 0; omega) w8)⟩

theorem designate_acts (hg : noGas vm = false) (hm : Sound vm.mem) (h7 : VM.n vm 7 < 2 ^ 32 ∨ env.par.keySize * env.par.validators ≠ 0) :
    ActsAs env vm x 16 (hostDesignate env vm x) := by
  unfold hostDesignate
  rw [hg]
  simp only [Bool.false_eq_true, if_false]
  rcases u32_cases vm 7 with ⟨e8, _⟩ | ⟨e8, w8⟩
  · simp only [e8]
    rcases read_at hm 7 (env.par.keySize * env.par.validators) with ⟨e, hr⟩ | ⟨e, hr⟩
    · simp only [e]
      by_cases d : x.host = x.p.designate.current
      · rw [if_neg (by simpa using d), chunks_octets]
        exact ⟨_, _, rfl, means_ret OK, .designate hr d.symm⟩
      · rw [if_pos (by simpa using d)]
        exact ⟨_, _, rfl, means_ret HUH, .designateHuh hr (Ne.symm d)⟩
    · simp only [e]
      exact ⟨_, _, rfl, means_panic, .designatePanic hr⟩
  · simp only [e8]
    exact ⟨_, _, rfl, means_panic, .designatePanic (wide_unreadable hm (h7.resolve_left (by omega)) w8)⟩

theorem yield_acts (hg : noGas vm = false) (hm : Sound vm.mem) : ActsAs env vm x 25 (hostYield env vm x) := by
  unfold hostYield
  rw [hg]
  simp only [Bool.false_eq_true, if_false]
  rcases readHash_spec hm 7 with ⟨e, hr⟩ | ⟨e, hr⟩
  · simp only [e]
    exact ⟨_, _, rfl, means_ret OK, .yield hr⟩
  · simp only [e]
    exact ⟨_, _, rfl, means_panic, .yieldPanic hr⟩

end Fastroll.Host
