import Verif.Abort.LemmasVm
import Verif.Svc.LemmasTrace
import Verif.Svc.LemmasTok

/-! # Lemmas: no host call fails in a context that is ready for it -/
namespace Fastroll.Abort
open Fastroll.Pvm Fastroll.Svc
variable {β : Type} {S : Store β} {env : Env} {vm : VM}

/-! ## The shape of an answer -/

structure Shape (h : Nat) (vm : VM) (res : HostResult) : Prop where
  exit : res.exit = .cont ∨ res.exit = .panic ∨ res.exit = .outOfGas
  charge : res.charge = 10 ∨ (h = 20 ∧ res.charge ≤ 10 + (vm.r 9).toNat)
  mem : ∀ a bs, res.mem = some (a, bs) → vm.mem.rangeWritable a bs.length = true

theorem shape_ret {h code : Nat} : Shape h vm (ret code) := ⟨.inl rfl, .inl rfl, fun _ _ e => by cases e⟩
theorem shape_panic {h : Nat} : Shape h vm hpanic := ⟨.inr (.inl rfl), .inl rfl, fun _ _ e => by cases e⟩
theorem shape_oog {h : Nat} : Shape h vm oog := ⟨.inr (.inr rfl), .inl rfl, fun _ _ e => by cases e⟩
theorem shape_two {h : Nat} {a b : Option Reg} : Shape h vm { exit := .cont, charge := BASE_GAS, r7 := a, r8 := b } :=
  ⟨.inl rfl, .inl rfl, fun _ _ e => by cases e⟩
theorem shape_serve {h : Nat} {data : Bytes} {b o l : Nat} : Shape h vm (serve vm data b o l) := by
  unfold serve
  dsimp only
  split
  · exact shape_panic
  split
  · exact shape_panic
  · rename_i a _ hw
    refine ⟨.inl rfl, .inl rfl, fun a' bs e => ?_⟩
    simp only [Option.some.injEq, Prod.mk.injEq] at e
    obtain ⟨rfl, rfl⟩ := e
    rw [List.length_take, List.length_drop, Nat.min_eq_left (Nat.min_le_right _ _)]
    simpa using hw
theorem shape_pay {ex : Exit} (he : ex = .cont ∨ ex = .outOfGas) {r : Option Reg} :
    Shape 20 vm { exit := ex, charge := min (BASE_GAS + VM.n vm 9) (U64 - 1), r7 := r } :=
  ⟨by rcases he with rfl | rfl <;> simp, .inr ⟨rfl, by show min (10 + (vm.r 9).toNat) _ ≤ _; omega⟩, fun _ _ e => by cases e⟩

theorem fn_cases {h : Nat} {f : HostFn β} (hf : accFn S h = some f) :
    (h = 0 ∧ f = hostGas) ∨ (h = 1 ∧ f = hostFetch) ∨ (h = 2 ∧ f = hostLookup S) ∨ (h = 3 ∧ f = hostRead S) ∨ (h = 4 ∧ f = hostWrite S) ∨ (h = 5 ∧ f = hostInfo S) ∨ (h = 14 ∧ f = hostBless) ∨ (h = 15 ∧ f = hostAssign) ∨ (h = 16 ∧ f = hostDesignate) ∨ (h = 18 ∧ f = hostNew S) ∨ (h = 19 ∧ f = hostUpgrade S) ∨ (h = 20 ∧ f = hostTransfer S) ∨ (h = 21 ∧ f = hostEject S) ∨ (h = 22 ∧ f = hostQuery S) ∨ (h = 23 ∧ f = hostSolicit S) ∨ (h = 24 ∧ f = hostForget S) ∨ (h = 25 ∧ f = hostYield) ∨ (h = 26 ∧ f = hostProvide S) := by
  unfold accFn at hf
  by_cases c : h = 0
  · rw [if_pos c] at hf; cases hf; exact .inl ⟨c, rfl⟩
  rw [if_neg c] at hf; clear c
  by_cases c : h = 1
  · rw [if_pos c] at hf; cases hf; exact .inr (.inl ⟨c, rfl⟩)
  rw [if_neg c] at hf; clear c
  by_cases c : h = 2
  · rw [if_pos c] at hf; cases hf; exact .inr (.inr (.inl ⟨c, rfl⟩))
  rw [if_neg c] at hf; clear c
  by_cases c : h = 3
  · rw [if_pos c] at hf; cases hf; exact .inr (.inr (.inr (.inl ⟨c, rfl⟩)))
  rw [if_neg c] at hf; clear c
  by_cases c : h = 4
  · rw [if_pos c] at hf; cases hf; exact .inr (.inr (.inr (.inr (.inl ⟨c, rfl⟩))))
  rw [if_neg c] at hf; clear c
  by_cases c : h = 5
  · rw [if_pos c] at hf; cases hf; exact .inr (.inr (.inr (.inr (.inr (.inl ⟨c, rfl⟩)))))
  rw [if_neg c] at hf; clear c
  by_cases c : h = 14
  · rw [if_pos c] at hf; cases hf; exact .inr (.inr (.inr (.inr (.inr (.inr (.inl ⟨c, rfl⟩))))))
  rw [if_neg c] at hf; clear c
  by_cases c : h = 15
  · rw [if_pos c] at hf; cases hf; exact .inr (.inr (.inr (.inr (.inr (.inr (.inr (.inl ⟨c, rfl⟩)))))))
  rw [if_neg c] at hf; clear c
  by_cases c : h = 16
  · rw [if_pos c] at hf; cases hf; exact .inr (.inr (.inr (.inr (.inr (.inr (.inr (.inr (.inl ⟨c, rfl⟩))))))))
  rw [if_neg c] at hf; clear c
  by_cases c : h = 18
  · rw [if_pos c] at hf; cases hf; exact .inr (.inr (.inr (.inr (.inr (.inr (.inr (.inr (.inr (.inl ⟨c, rfl⟩)))))))))
  rw [if_neg c] at hf; clear c
  by_cases c : h = 19
  · rw [if_pos c] at hf; cases hf; exact .inr (.inr (.inr (.inr (.inr (.inr (.inr (.inr (.inr (.inr (.inl ⟨c, rfl⟩))))))))))
  rw [if_neg c] at hf; clear c
  by_cases c : h = 20
  · rw [if_pos c] at hf; cases hf; exact .inr (.inr (.inr (.inr (.inr (.inr (.inr (.inr (.inr (.inr (.inr (.inl ⟨c, rfl⟩)))))))))))
  rw [if_neg c] at hf; clear c
  by_cases c : h = 21
  · rw [if_pos c] at hf; cases hf; exact .inr (.inr (.inr (.inr (.inr (.inr (.inr (.inr (.inr (.inr (.inr (.inr (.inl ⟨c, rfl⟩))))))))))))
  rw [if_neg c] at hf; clear c
  by_cases c : h = 22
  · rw [if_pos c] at hf; cases hf; exact .inr (.inr (.inr (.inr (.inr (.inr (.inr (.inr (.inr (.inr (.inr (.inr (.inr (.inl ⟨c, rfl⟩)))))))))))))
  rw [if_neg c] at hf; clear c
  by_cases c : h = 23
  · rw [if_pos c] at hf; cases hf; exact .inr (.inr (.inr (.inr (.inr (.inr (.inr (.inr (.inr (.inr (.inr (.inr (.inr (.inr (.inl ⟨c, rfl⟩))))))))))))))
  rw [if_neg c] at hf; clear c
  by_cases c : h = 24
  · rw [if_pos c] at hf; cases hf; exact .inr (.inr (.inr (.inr (.inr (.inr (.inr (.inr (.inr (.inr (.inr (.inr (.inr (.inr (.inr (.inl ⟨c, rfl⟩)))))))))))))))
  rw [if_neg c] at hf; clear c
  by_cases c : h = 25
  · rw [if_pos c] at hf; cases hf; exact .inr (.inr (.inr (.inr (.inr (.inr (.inr (.inr (.inr (.inr (.inr (.inr (.inr (.inr (.inr (.inr (.inl ⟨c, rfl⟩))))))))))))))))
  rw [if_neg c] at hf; clear c
  by_cases c : h = 26
  · rw [if_pos c] at hf; cases hf; exact .inr (.inr (.inr (.inr (.inr (.inr (.inr (.inr (.inr (.inr (.inr (.inr (.inr (.inr (.inr (.inr (.inr (⟨c, rfl⟩)))))))))))))))))
  rw [if_neg c] at hf; clear c
  cases hf

theorem fn_shape {h : Nat} {f : HostFn β} (hf : accFn S h = some f) {x : Ctx β} {res : HostResult} (hr : (f env vm x).1 = .ok res) : Shape h vm res := by
  revert hr
  have fin : ∀ {h : Nat} {r : HostResult}, Shape h vm r → Except.ok (ε := VmErr) r = .ok res → Shape h vm res := fun s e => by cases e; exact s
  rcases fn_cases hf with ⟨rfl, rfl⟩ | ⟨rfl, rfl⟩ | ⟨rfl, rfl⟩ | ⟨rfl, rfl⟩ | ⟨rfl, rfl⟩ | ⟨rfl, rfl⟩ | ⟨rfl, rfl⟩ | ⟨rfl, rfl⟩ | ⟨rfl, rfl⟩ | ⟨rfl, rfl⟩ | ⟨rfl, rfl⟩ | ⟨rfl, rfl⟩ | ⟨rfl, rfl⟩ | ⟨rfl, rfl⟩ | ⟨rfl, rfl⟩ | ⟨rfl, rfl⟩ | ⟨rfl, rfl⟩ | ⟨rfl, rfl⟩
  all_goals
    first | unfold hostGas | unfold hostFetch | unfold hostLookup | unfold hostRead | unfold hostWrite | unfold hostInfo | unfold hostBless | unfold hostAssign | unfold hostDesignate | unfold hostNew | unfold hostUpgrade | unfold hostTransfer | unfold hostEject | unfold hostQuery | unfold hostSolicit | unfold hostForget | unfold hostYield | unfold hostProvide
    repeat' (first | exact fin shape_oog | exact fin shape_panic | exact fin shape_ret | exact fin shape_serve | exact fin shape_two | exact fin (shape_pay (.inl rfl)) | exact fin (shape_pay (.inr rfl)) | (exact fun e => by cases e) | split | (dsimp only; split) | (unfold dropRequest; dsimp only; split))

theorem acc_shape {h : Nat} {q q' : Pair β} {res : HostResult} (hr : accHost S env h vm q = (.ok res, q')) : Shape h vm res := by
  unfold accHost at hr
  split at hr
  · unfold hostCheckpoint at hr
    split at hr <;> cases hr
    · exact shape_oog
    · exact shape_ret
  split at hr
  · cases hr; exact shape_ret
  · rename_i f hf
    exact fn_shape hf (by have := congrArg Prod.fst hr; exact this)

/-! ## Two balances -/

theorem two_held {a : Global} {n s t : Nat} {m m' : Meta} (H : Held a n) (hs : a.metas s = some m) (ht : a.metas t = some m') (hne : s ≠ t) :
    m.balance + m'.balance ≤ n := by
  obtain ⟨n1, h1, e1⟩ := total_upd (s := s) (v := none) H
  obtain ⟨n2, h2, e2⟩ := total_upd (s := t) (v := none) h1
  simp only [hs, wt] at e1
  simp only [upd, if_neg (Ne.symm hne), ht, wt] at e2
  omega

/-! ## Free identifiers -/

theorem checkLoop_none (a : Global) : ∀ (n id : Nat), Public id → checkLoop mapStore a n id = none → ∀ j, j < n → a.metas ((id - MIN_ID + j) % RING + MIN_ID) ≠ none
  | 0, _, _, _, j, hj => by omega
  | n + 1, id, hp, h, j, hj => by
    rw [checkLoop] at h
    split at h
    · cases h
    rename_i he
    have hR : 0 < RING := by decide
    obtain ⟨hp1, hp2⟩ := hp
    cases j with
    | zero =>
      rw [Nat.add_zero, Nat.mod_eq_of_lt (by omega), Nat.sub_add_cancel hp1]
      intro hn
      apply he
      simp [mapStore, hn]
    | succ j =>
      have := checkLoop_none a n _ ⟨by omega, by have := Nat.mod_lt (id - MIN_ID + 1) hR; omega⟩ h j (by omega)
      rw [Nat.add_sub_cancel, Nat.mod_add_mod] at this
      rwa [show id - MIN_ID + (j + 1) = id - MIN_ID + 1 + j by omega]

/-- The search gives up only when every public identifier is in use. -/
theorem checkId_none {a : Global} {id : Nat} (hp : Public id) (h : checkId mapStore a id = none) : ∀ r, Public r → a.metas r ≠ none := by
  intro r ⟨h1, h2⟩
  obtain ⟨p1, p2⟩ := hp
  have hR : 0 < RING := by decide
  have := checkLoop_none a RING id ⟨p1, p2⟩ h ((r - MIN_ID + RING - (id - MIN_ID)) % RING) (Nat.mod_lt _ hR)
  rw [Nat.add_mod_mod] at this
  rw [show id - MIN_ID + (r - MIN_ID + RING - (id - MIN_ID)) = r - MIN_ID + RING by omega, Nat.add_mod_right, Nat.mod_eq_of_lt (by omega), Nat.sub_add_cancel h1] at this
  exact this

theorem rotate_none {a : Global} {id : Nat} (h : rotateId mapStore a id = none) : ∀ r, Public r → a.metas r ≠ none :=
  checkId_none ⟨by omega, by have : (id - MIN_ID + 42) % RING < RING := Nat.mod_lt _ (by decide)
                             omega⟩ h

theorem initial_none {a : Global} {seed : Nat} (h : initialId mapStore a seed = none) : ∀ r, Public r → a.metas r ≠ none :=
  checkId_none ⟨by omega, by have : seed % RING < RING := Nat.mod_lt _ (by decide)
                             omega⟩ h

/-! ## Host calls that do not fail -/

variable {x : Ctx Global} {e : VmErr}

theorem bless_err {y : Ctx β} : (hostBless env vm y).1 ≠ .error e := by
  unfold hostBless; repeat' (first | (intro h; cases h; done) | split | (dsimp only; split))
theorem designate_err {y : Ctx β} : (hostDesignate env vm y).1 ≠ .error e := by
  unfold hostDesignate; repeat' (first | (intro h; cases h; done) | split | (dsimp only; split))
theorem gas_err {y : Ctx β} : (hostGas env vm y).1 ≠ .error e := by
  unfold hostGas; repeat' (first | (intro h; cases h; done) | split | (dsimp only; split))
theorem fetch_err {y : Ctx β} : (hostFetch env vm y).1 ≠ .error e := by
  unfold hostFetch; repeat' (first | (intro h; cases h; done) | split | (dsimp only; split))
theorem lookup_err {y : Ctx β} : (hostLookup S env vm y).1 ≠ .error e := by
  unfold hostLookup; repeat' (first | (intro h; cases h; done) | split | (dsimp only; split))
theorem read_err {y : Ctx β} : (hostRead S env vm y).1 ≠ .error e := by
  unfold hostRead; repeat' (first | (intro h; cases h; done) | split | (dsimp only; split))
theorem info_err {y : Ctx β} : (hostInfo S env vm y).1 ≠ .error e := by
  unfold hostInfo; repeat' (first | (intro h; cases h; done) | split | (dsimp only; split))
theorem yield_err {y : Ctx β} : (hostYield env vm y).1 ≠ .error e := by
  unfold hostYield; repeat' (first | (intro h; cases h; done) | split | (dsimp only; split))
theorem provide_err {y : Ctx β} : (hostProvide S env vm y).1 ≠ .error e := by
  unfold hostProvide; repeat' (first | (intro h; cases h; done) | split | (dsimp only; split))

theorem assign_err {y : Ctx β} (Z : Sized env.par.cores y.p) : (hostAssign env vm y).1 ≠ .error e := by
  have cur : ∀ core, ¬ core ≥ env.par.cores → y.p.assign.current core ≠ none := by
    intro core hc hn
    unfold Assigns.current at hn
    split at hn
    · rename_i l hl
      rw [List.getElem?_eq_none_iff, Z.bless l hl] at hn
      omega
    · split at hn
      · cases hn
      · rw [List.getElem?_eq_none_iff, Z.confirmed] at hn
        omega
  unfold hostAssign
  repeat' (first | (intro h; cases h; done) | (exact absurd ‹_› (cur _ ‹_›)) | split | (dsimp only; split))

theorem upgrade_err {m : Meta} (hm : x.p.boxes.metas x.host = some m) : (hostUpgrade mapStore env vm x).1 ≠ .error e := by
  unfold hostUpgrade mapStore
  simp only [hm, Option.map_some]
  repeat' (first | (intro h; cases h; done) | split | (dsimp only; split))

theorem query_err (hs : x.p.boxes.SlotsOk env.slot) : (hostQuery mapStore env vm x).1 ≠ .error e := by
  unfold hostQuery
  split
  · intro h; cases h
  split
  · intro h; cases h
  dsimp only
  split
  · intro h; cases h
  simp only [mapStore]
  split
  · intro h; cases h
  · rename_i ts _ hl
    have hl' := congrArg Prod.fst hl
    have := (hs _ _ _ hl').1
    match ts, this with
    | [], _ => intro h; cases h
    | [a], _ => intro h; cases h
    | [a, b], _ => intro h; cases h
    | [a, b, c], _ => intro h; cases h

theorem affordable_some {a : Global} {s : Nat} {m : Meta} (hm : a.metas s = some m) (d : Delta) : ∃ b, affordable mapStore a s d = (some b, a) := by
  unfold affordable
  simp only [mapStore, hm]
  split <;> exact ⟨_, rfl⟩

theorem write_host_err {m : Meta} (hm : x.p.boxes.metas x.host = some m) : (hostWrite mapStore env vm x).1 ≠ .error e := by
  unfold hostWrite
  split
  · intro h; cases h
  split
  rotate_left
  · intro h; cases h
  split
  rotate_left
  · intro h; cases h
  rename_i key value _ _
  rw [show mapStore.getS x.p.boxes x.host key = (x.p.boxes.storage x.host key, x.p.boxes) from rfl]
  dsimp only
  obtain ⟨b, hb⟩ := affordable_some hm (usageDelta ((x.p.boxes.storage x.host key).map (storOctets key)) (value.map (storOctets key)))
  rw [hb]
  cases b with
  | false => intro h; cases h
  | true =>
    cases value <;> simp only [storeValue, mapStore, hm, Option.map_some] <;> (intro h; cases h)

theorem solicit_err {m : Meta} (hm : x.p.boxes.metas x.host = some m) : (hostSolicit mapStore env vm x).1 ≠ .error e := by
  unfold hostSolicit
  simp only [mapStore, hm, Option.map_some]
  repeat' (first | (intro h; cases h; done) | contradiction | split | (dsimp only; split))
  all_goals (exfalso; grind [upd, upd2])

theorem forget_err {m : Meta} (hm : x.p.boxes.metas x.host = some m) : (hostForget mapStore env vm x).1 ≠ .error e := by
  unfold hostForget
  split
  · intro h; cases h
  split
  · intro h; cases h
  rename_i hash _
  split
  · intro h; cases h
  rename_i len _
  rw [show mapStore.getL x.p.boxes x.host (hash, len) = (x.p.boxes.lookups x.host (hash, len), x.p.boxes) from rfl]
  have drop : (dropRequest mapStore x x.p.boxes hash len).1 ≠ .error e := by
    unfold dropRequest
    simp only [mapStore, hm, Option.map_some]
    intro h; cases h
  cases hl : x.p.boxes.lookups x.host (hash, len) with
  | none => intro h; cases h
  | some ts =>
    dsimp only
    split
    · exact drop
    · unfold Store.push
      simp only [mapStore, hl, hm, Option.map_some, List.length_cons, List.length_nil]
      intro h; cases h
    · split
      · exact drop
      · intro h; cases h
    · split
      · unfold Store.drain Store.extend
        simp only [mapStore, hl, hm, Option.map_some, upd2_self, upd, if_true, List.length_cons, List.length_nil]
        intro h; cases h
      · intro h; cases h
    · intro h; cases h

theorem transfer_err {m : Meta} (hm : x.p.boxes.metas x.host = some m) : (hostTransfer mapStore env vm x).1 ≠ .error e := by
  unfold hostTransfer subBalance
  simp only [mapStore, hm, Option.map_some]
  repeat' (first | (intro h; cases h; done) | contradiction | split | (dsimp only; split))
  all_goals (exfalso; grind [upd, upd2])

theorem eject_err {m : Meta} (hm : x.p.boxes.metas x.host = some m) {n : Nat} (T : Tokens x n) (hn : n < U64) : (hostEject mapStore env vm x).1 ≠ .error e := by
  obtain ⟨n0, H, e0⟩ := T
  unfold hostEject addBalance
  simp only [mapStore, hm, Option.map_some]
  split
  · intro h; cases h
  split
  · intro h; cases h
  rename_i hash _
  split
  · intro h; cases h
  split
  · intro h; cases h
  rename_i id _ hne
  cases hi : x.p.boxes.metas id with
  | none => intro h; cases h
  | some em =>
    have hb := two_held H hi hm hne
    dsimp only
    have hb' : m.balance + em.balance < U64 := by omega
    split
    · intro h; cases h
    split
    · intro h; cases h
    split
    · intro h; cases h
    cases hl : x.p.boxes.lookups id (hash, max 81 em.octets - 81) with
    | none => intro h; cases h
    | some ts =>
      dsimp only
      split
      · intro h; cases h
      simp only [hm, if_pos hb', Option.map_some, upd, if_neg hne, hi]
      intro h; cases h

theorem sub_map {a : Global} {s t : Nat} {m : Meta} (hm : a.metas s = some m) (ht : t ≤ m.balance) :
    subBalance mapStore a s t = some { a with metas := upd a.metas s (some { m with balance := m.balance - t }) } := by
  unfold subBalance
  simp only [mapStore, hm, if_pos ht, Option.map_some]

theorem add_map (a : Global) (id : Nat) (b : Meta) (k : LKey) : ∃ a', addAccount mapStore a id b k = some a' ∧ a'.metas = upd a.metas id (some b) := by
  unfold addAccount
  simp only [mapStore, upd, if_true, Option.map_some]
  exact ⟨_, rfl, rfl⟩

theorem new_err {m : Meta} (hm : x.p.boxes.metas x.host = some m) (hl : ¬ LastId x) : (hostNew mapStore env vm x).1 ≠ .error e := by
  unfold hostNew
  split
  · intro h; cases h
  split
  rotate_left
  · intro h; cases h
  rename_i a len _ _
  split
  · intro h; cases h
  rename_i hash _
  dsimp only
  split
  · intro h; cases h
  rw [show mapStore.info x.p.boxes x.host = (some m, x.p.boxes) from by rw [← hm]; rfl]
  simp only [show ∀ s, mapStore.existsAct x.p.boxes s = ((x.p.boxes.metas s).isSome, x.p.boxes) from fun _ => rfl]
  split
  · intro h; cases h
  rename_i hc
  split
  · intro h; cases h
  rw [sub_map hm (by omega)]
  dsimp only
  generalize hid : (if (u32? vm 12).getD (U32 - 1) < MIN_ID ∧ x.host = x.p.registrar.current then (u32? vm 12).getD (U32 - 1) else x.nextId) = id
  obtain ⟨a', h1, h2⟩ := add_map { x.p.boxes with metas := upd x.p.boxes.metas x.host (some { m with balance := m.balance - initialThreshold len (VM.n vm 11) }) } id
    (newMeta hash (initialThreshold len (VM.n vm 11)) (VM.n vm 9) (VM.n vm 10) (VM.n vm 11) len env.slot x.host) (hash, len)
  rw [h1]
  dsimp only
  split
  · intro h; cases h
  rename_i hs
  rw [if_neg hs] at hid
  cases hr : rotateId mapStore a' x.nextId with
  | none =>
    exfalso
    apply hl
    intro r hp hne hn
    apply rotate_none hr r hp
    rw [h2]
    subst hid
    simp only [upd, if_neg hne]
    rw [if_neg (by intro c; rw [c, hm] at hn; cases hn)]
    exact hn
  | some next => intro h; cases h

/-- **No host call fails** in a context that is ready for it, unless it takes the last identifier. -/
theorem acc_err {h : Nat} {q q' : Pair Global} (R : Ready env q.x) (hl : h = 18 → ¬ LastId q.x) : accHost mapStore env h vm q ≠ (.error e, q') := by
  obtain ⟨m, hm⟩ := Option.isSome_iff_exists.1 R.alive
  obtain ⟨n, T, hn⟩ := R.tokens
  intro hr
  unfold accHost at hr
  split at hr
  · unfold hostCheckpoint at hr
    split at hr <;> cases hr
  split at hr
  · cases hr
  · rename_i f hf
    have hr' : (f env vm q.x).1 = .error e := by have := congrArg Prod.fst hr; exact this
    revert hr'
    rcases fn_cases hf with ⟨rfl, rfl⟩ | ⟨rfl, rfl⟩ | ⟨rfl, rfl⟩ | ⟨rfl, rfl⟩ | ⟨rfl, rfl⟩ | ⟨rfl, rfl⟩ | ⟨rfl, rfl⟩ | ⟨rfl, rfl⟩ | ⟨rfl, rfl⟩ | ⟨rfl, rfl⟩ | ⟨rfl, rfl⟩ | ⟨rfl, rfl⟩ | ⟨rfl, rfl⟩ | ⟨rfl, rfl⟩ | ⟨rfl, rfl⟩ | ⟨rfl, rfl⟩ | ⟨rfl, rfl⟩ | ⟨rfl, rfl⟩
    · exact gas_err
    · exact fetch_err
    · exact lookup_err
    · exact read_err
    · exact write_host_err hm
    · exact info_err
    · exact bless_err
    · exact assign_err R.sized
    · exact designate_err
    · exact new_err hm (hl rfl)
    · exact upgrade_err hm
    · exact transfer_err hm
    · exact eject_err hm T hn
    · exact query_err R.slots
    · exact solicit_err hm
    · exact forget_err hm
    · exact yield_err
    · exact provide_err

/-! ## Staying ready -/

theorem assoc_keys {ν : Type} {k : Nat} {v : ν} : ∀ {l : List (Nat × ν)} {p : Nat × ν}, p ∈ assocSet l k v → p.1 = k ∨ p ∈ l
  | [], p, h => by simp only [assocSet, List.mem_singleton] at h; exact .inl (by rw [h])
  | (k', v') :: l, p, h => by
    unfold assocSet at h
    split at h
    · rcases List.mem_cons.mp h with rfl | h
      · exact .inl rfl
      · exact .inr (.tail _ h)
    · rcases List.mem_cons.mp h with rfl | h
      · exact .inr (.head _)
      · rcases assoc_keys h with h | h
        · exact .inl h
        · exact .inr (.tail _ h)

theorem chunks_len (size : Nat) : ∀ (n : Nat) (bs : Bytes), (chunks size n bs).length = n
  | 0, _ => rfl
  | n + 1, bs => by rw [chunks, List.length_cons, chunks_len size n]

theorem blessed_sized {cores : Nat} {y : Ctx β} (Z : Sized cores y.p) (m v r : Nat) {a : List Nat} (ha : a.length = cores) (z : List (Nat × Nat)) :
    Sized cores (y.blessed m a v r z).p := by
  refine ⟨Z.confirmed, fun l hl => ?_, ?_⟩
  · have : some a = some l := hl
    cases this; exact ha
  · show ∀ e ∈ (y.p.assign.confirmed.zip a).zipIdx.foldl _ y.p.assign.bySelf, e.1 < cores
    have key : ∀ (l : List ((Nat × Nat) × Nat)) (acc : List (Nat × Nat)), (∀ q ∈ l, q.2 < cores) → (∀ e ∈ acc, e.1 < cores) →
        ∀ e ∈ l.foldl (fun acc q => if y.host = q.1.1 then assocSet acc q.2 q.1.2 else acc) acc, e.1 < cores := by
      intro l
      induction l with
      | nil => intro acc _ h; exact h
      | cons q l ih =>
        intro acc hl hacc
        refine ih _ (fun q' hq' => hl q' (.tail _ hq')) ?_
        dsimp only
        split
        · intro e he
          rcases assoc_keys he with h | h
          · rw [h]; exact hl q (.head _)
          · exact hacc e h
        · exact hacc
    refine key _ _ (fun q hq => ?_) Z.own
    have := List.mem_zipIdx hq
    have h1 := Z.confirmed
    simp only [List.length_zip] at this
    omega

theorem assigned_sized {cores : Nat} {y : Ctx β} (Z : Sized cores y.p) {core : Nat} (hc : core < cores) (q : List Bytes) (s : Nat) : Sized cores (y.assigned core q s).p := by
  refine ⟨Z.confirmed, fun l hl => ?_, fun e he => ?_⟩
  · have hl' : y.p.assign.byBless.map (fun l => l.set core s) = some l := hl
    rw [Option.map_eq_some_iff] at hl'
    obtain ⟨l0, h0, rfl⟩ := hl'
    rw [List.length_set]; exact Z.bless l0 h0
  · rcases assoc_keys he with h | h
    · rw [h]; exact hc
    · exact Z.own e h

/-- Two partial states with the same assigners. -/
theorem Sized.same {β' : Type} {cores : Nat} {p : PState β} {p' : PState β'} (Z : Sized cores p) (h : p'.assign = p.assign) : Sized cores p' :=
  ⟨by rw [h]; exact Z.confirmed, by rw [h]; exact Z.bless, by rw [h]; exact Z.own⟩

theorem fn_sized {h : Nat} {f : HostFn β} (hf : accFn S h = some f) {y : Ctx β} (Z : Sized env.par.cores y.p) : Sized env.par.cores (f env vm y).2.p := by
  have fin : ∀ {y' : Ctx β}, y'.p.assign = y.p.assign → Sized env.par.cores y'.p := fun e => Z.same e
  rcases fn_cases hf with ⟨rfl, rfl⟩ | ⟨rfl, rfl⟩ | ⟨rfl, rfl⟩ | ⟨rfl, rfl⟩ | ⟨rfl, rfl⟩ | ⟨rfl, rfl⟩ | ⟨rfl, rfl⟩ | ⟨rfl, rfl⟩ | ⟨rfl, rfl⟩ | ⟨rfl, rfl⟩ | ⟨rfl, rfl⟩ | ⟨rfl, rfl⟩ | ⟨rfl, rfl⟩ | ⟨rfl, rfl⟩ | ⟨rfl, rfl⟩ | ⟨rfl, rfl⟩ | ⟨rfl, rfl⟩ | ⟨rfl, rfl⟩
  all_goals
    first | unfold hostGas | unfold hostFetch | unfold hostLookup | unfold hostRead | unfold hostWrite | unfold hostInfo | unfold hostBless | unfold hostAssign | unfold hostDesignate | unfold hostNew | unfold hostUpgrade | unfold hostTransfer | unfold hostEject | unfold hostQuery | unfold hostSolicit | unfold hostForget | unfold hostYield | unfold hostProvide
    repeat' (first | exact fin rfl | exact blessed_sized Z _ _ _ (by rw [List.length_map, chunks_len]) _ | exact assigned_sized Z (by omega) _ _ | split | (dsimp only; split) | (unfold dropRequest; dsimp only; split))

theorem acc_sized {h : Nat} {q : Pair β} (Zx : Sized env.par.cores q.x.p) : Sized env.par.cores (accHost S env h vm q).2.x.p := by
  rcases accHost_cases S env h vm q with c | ⟨_, c⟩ | ⟨f, hf, c⟩
  · rw [c]; exact Zx
  · rw [c]; exact Zx
  · rw [c]; exact fn_sized hf Zx

theorem Ready.keep {h : Nat} {q q' : Pair Global} {res : HostResult} (R : Ready env q.x) (hr : accHost mapStore env h vm q = (.ok res, q')) : Ready env q'.x := by
  have Z := acc_sized (S := mapStore) (env := env) (vm := vm) (h := h) R.sized
  rw [hr] at Z
  rcases acc_step R.alive hr with c | ⟨_, c⟩ | ⟨_, st⟩
  · rw [c]; exact R
  · rw [c]; exact R
  · obtain ⟨n, T, hn⟩ := R.tokens
    exact ⟨st.alive R.alive, st.slots R.slots, ⟨n, st.tokens R.next T, hn⟩, st.next R.next, Z⟩

end Fastroll.Abort
