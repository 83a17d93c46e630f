import Verif.Svc.LemmasEnum
import Verif.Svc.LemmasStep

/-! # Lemmas: what every host call preserves, on plain maps -/
namespace Fastroll.Svc
open Fastroll.Pvm

/-! ## Footprints -/

theorem applyDelta_exact {max n n' : Nat} {d : Int} (h : (n' : Int) = n + d) (hb : n' < max) : applyDelta max n d = n' := by
  unfold applyDelta
  split <;> omega

theorem footprint_exact {m : Meta} {st lk : Delta} {i o : Nat} (h : st = {} ∨ lk = {})
    (hi0 : m.items < U32) (ho0 : deposit m.items m.octets < U64) (hi1 : i < U32) (ho1 : deposit i o < U64)
    (hi : (i : Int) = m.items + st.items + 2 * lk.items)
    (ho : (o : Int) = m.octets + (34 * st.items + st.octets) + (81 * lk.items + lk.octets)) :
    (m.updateFootprints st lk).1 = { m with items := i, octets := o } := by
  have ho0 : m.octets < U64 := by unfold deposit at ho0; omega
  have ho1 : o < U64 := by unfold deposit at ho1; omega
  unfold Meta.updateFootprints
  simp only
  split
  · have z1 : ∀ n, n < U32 → applyDelta U32 n 0 = n := fun n h => applyDelta_exact (by omega) h
    have z2 : ∀ n, n < U64 → applyDelta U64 n 0 = n := fun n h => applyDelta_exact (by omega) h
    rcases h with h | h
    · subst h
      have e0 : (34 * 0 + 0 : Int) = 0 := rfl
      simp only [e0] at hi ho ⊢
      rw [z1 _ hi0, z2 _ ho0]
      have e1 : applyDelta U32 m.items (2 * lk.items) = i := applyDelta_exact (by omega) hi1
      have e2 : applyDelta U64 m.octets (81 * lk.items + lk.octets) = o := applyDelta_exact (by omega) ho1
      rw [e1, e2]
    · subst h
      have e0 : (81 * 0 + 0 : Int) = 0 := rfl
      have e0' : (2 * 0 : Int) = 0 := rfl
      simp only [e0, e0'] at hi ho ⊢
      have e1 : applyDelta U32 m.items st.items = i := applyDelta_exact (by omega) hi1
      have e2 : applyDelta U64 m.octets (34 * st.items + st.octets) = o := applyDelta_exact (by omega) ho1
      rw [e1, e2, z1 _ hi1, z2 _ ho1]
  · rename_i c
    simp only [not_or, Decidable.not_not] at c
    have e1 : i = m.items := by omega
    have e2 : o = m.octets := by omega
    subst e1 e2; rfl

theorem updateFootprints_rest (m : Meta) (st lk : Delta) :
    (m.updateFootprints st lk).1.balance = m.balance ∧ (m.updateFootprints st lk).1.gratis = m.gratis ∧
    (m.updateFootprints st lk).1.codeHash = m.codeHash := by
  unfold Meta.updateFootprints
  simp only
  split <;> exact ⟨rfl, rfl, rfl⟩

/-! ## Usage under the map operations -/

section usage
variable {a a' : Global} {s i o : Nat}

theorem usage_congr (hs : a'.storage s = a.storage s) (hl : a'.lookups s = a.lookups s) (h : Usage a s i o) :
    Usage a' s i o := by
  obtain ⟨ks, ls, h1, h2, h3, h4⟩ := h
  exact ⟨ks, ls, hs ▸ h1, hl ▸ h2, h3, by rw [hs, hl]; exact h4⟩

theorem usage_storage {k : Bytes} {v : Option Bytes} (hs : a'.storage s = upd (a.storage s) k v)
    (hl : a'.lookups s = a.lookups s) (h : Usage a s i o) :
    ∃ i' o', Usage a' s i' o' ∧ i' + cnt (a.storage s k) = i + cnt v ∧
      o' + wt storWeight k (a.storage s k) = o + wt storWeight k v := by
  obtain ⟨ks, ls, h1, h2, h3, h4⟩ := h
  obtain ⟨ks', e1, e2, e3⟩ := enum_upd storWeight h1 k v
  refine ⟨ks'.length + 2 * ls.length, _, ⟨ks', ls, by rw [hs]; exact e1, by rw [hl]; exact h2, rfl, rfl⟩, by omega, ?_⟩
  rw [hs, hl]; omega

theorem usage_lookups {k : LKey} {v : Option (List Nat)} (hs : a'.storage s = a.storage s)
    (hl : a'.lookups s = upd (a.lookups s) k v) (h : Usage a s i o) :
    ∃ i' o', Usage a' s i' o' ∧ i' + 2 * cnt (a.lookups s k) = i + 2 * cnt v ∧
      o' + wt lookWeight k (a.lookups s k) = o + wt lookWeight k v := by
  obtain ⟨ks, ls, h1, h2, h3, h4⟩ := h
  obtain ⟨ls', e1, e2, e3⟩ := enum_upd lookWeight h2 k v
  refine ⟨ks.length + 2 * ls'.length, _, ⟨ks, ls', by rw [hs]; exact h1, by rw [hl]; exact e1, rfl, rfl⟩, by omega, ?_⟩
  rw [hs, hl]; omega

end usage

theorem upd_apply {κ α : Type} [DecidableEq κ] (f : κ → Option α) (k k' : κ) (v : Option α) :
    upd f k v k' = if k' = k then v else f k' := rfl
theorem upd2_self {κ α : Type} [DecidableEq κ] (f : Nat → κ → Option α) (s : Nat) (k : κ) (v : Option α) :
    upd2 f s k v s = upd (f s) k v := by simp [upd2]
theorem upd2_other {κ α : Type} [DecidableEq κ] (f : Nat → κ → Option α) {s s' : Nat} (h : s' ≠ s) (k : κ) (v : Option α) :
    upd2 f s k v s' = f s' := by simp [upd2, h]
theorem clear_self {κ α : Type} (f : Nat → κ → Option α) (s : Nat) : clear f s s = fun _ => none := by simp [clear]
theorem clear_other {κ α : Type} (f : Nat → κ → Option α) {s s' : Nat} (h : s' ≠ s) : clear f s s' = f s' := by
  simp [clear, h]

/-- The account `h` of `a` is replaced in `a'`, the others are as before. -/
theorem sound_one {a a' : Global} {h : Nat} {m : Meta} (S : a.Sound) (hm : a'.metas h = some m)
    (oth : ∀ s, s ≠ h → a'.metas s = a.metas s ∧ a'.storage s = a.storage s ∧ a'.preimages s = a.preimages s ∧
      a'.lookups s = a.lookups s)
    (ex : Usage a' h m.items m.octets)
    (rq : ∀ k d, a'.preimages h k = some d → ∃ l, (a'.lookups h (k, l)).isSome) : a'.Sound := by
  constructor
  · intro s hs
    by_cases c : s = h
    · rw [c, hm] at hs; cases hs
    · obtain ⟨e1, e2, e3, e4⟩ := oth s c
      rw [e2, e3, e4]; exact S.orphans s (e1 ▸ hs)
  · intro s m' hs
    by_cases c : s = h
    · subst c; rw [hm] at hs; cases hs; exact ex
    · obtain ⟨e1, e2, e3, e4⟩ := oth s c
      exact usage_congr e2 e4 (S.exact s m' (e1 ▸ hs))
  · intro s k d hs
    by_cases c : s = h
    · subst c; exact rq k d hs
    · obtain ⟨e1, e2, e3, e4⟩ := oth s c
      rw [e4]; exact S.requested s k d (e3 ▸ hs)

theorem usage_none {a : Global} {s : Nat} (hs : ∀ k, a.storage s k = none) (hl : ∀ k, a.lookups s k = none) :
    Usage a s 0 0 :=
  ⟨[], [], ⟨List.nodup_nil, fun k => by simp [hs]⟩, ⟨List.nodup_nil, fun k => by simp [hl]⟩, rfl, rfl⟩

theorem usage_one {a : Global} {s : Nat} {key : LKey} {ts : List Nat} (hs : ∀ k, a.storage s k = none)
    (hl : ∀ k, a.lookups s k = if k = key then some ts else none) : Usage a s 2 (81 + key.2) := by
  refine ⟨[], [key], ⟨List.nodup_nil, fun k => by simp [hs]⟩, ⟨by simp, fun k => ?_⟩, rfl, ?_⟩
  · rw [hl]; by_cases c : k = key <;> simp [c]
  · simp [total, wt, hl, lookWeight]

variable {env : Env} {ok : Bool} {x x' : Ctx Global}

theorem Step.host_eq (st : Step env ok x x') : x'.host = x.host := by
  cases st <;> first | rfl | assumption

theorem Step.alive (st : Step env ok x x') (ha : (x.p.boxes.metas x.host).isSome) :
    (x'.p.boxes.metas x'.host).isSome := by
  rw [st.host_eq]
  cases st
  case same hb _ _ _ => rw [hb]; exact ha
  case create => simp only [Ctx.setBoxes, created, upd]; repeat' split
                 all_goals first | rfl | exact ha
  case eject hne _ _ _ _ _ _ => simp only [Ctx.setBoxes, upd]; rw [if_neg (Ne.symm hne)]; simp
  all_goals first | exact ha | (simp only [Ctx.setBoxes, upd, if_true]; rfl)

theorem Step.sound (st : Step env ok x x') (S : x.p.boxes.Sound) (R : x.p.boxes.InRange) (R' : x'.p.boxes.InRange) :
    x'.p.boxes.Sound := by
  cases st with
  | same _ hb => rw [hb]; exact S
  | write m k v hm _ =>
    have U := S.exact _ _ hm
    obtain ⟨r1, r2⟩ := R _ _ _ U
    simp only [Ctx.setBoxes] at R' ⊢
    generalize hd : usageDelta ((x.p.boxes.storage x.host k).map (storOctets k)) (v.map (storOctets k)) = d at R' ⊢
    generalize ha' : Global.mk (upd x.p.boxes.metas x.host (some (m.updateFootprints d {}).1))
      (upd2 x.p.boxes.storage x.host k v) x.p.boxes.preimages x.p.boxes.lookups = a' at R' ⊢
    have hs : a'.storage x.host = upd (x.p.boxes.storage x.host) k v := by rw [← ha']; exact upd2_self ..
    have hl : a'.lookups x.host = x.p.boxes.lookups x.host := by rw [← ha']
    obtain ⟨i', o', U', hi, ho⟩ := usage_storage hs hl U
    obtain ⟨q1, q2⟩ := R' _ _ _ U'
    have e : (m.updateFootprints d {}).1 = { m with items := i', octets := o' } := by
      generalize x.p.boxes.storage x.host k = pv at hi ho hd
      refine footprint_exact (.inr rfl) r1 r2 q1 q2 ?_ ?_
      · rw [← hd]
        cases v <;> cases pv <;> simp [usageDelta, cnt] at hi ⊢ <;> omega
      · rw [← hd]
        cases v <;> cases pv <;>
          simp [usageDelta, wt, storWeight, storOctets] at ho ⊢ <;> omega
    rw [e] at ha'
    refine sound_one (h := x.host) (m := { m with items := i', octets := o' }) S (by rw [← ha']; exact upd_at ..) ?_ U' ?_
    · intro s hs'
      rw [← ha']
      exact ⟨by simp only [upd]; rw [if_neg hs'], upd2_other _ hs' _ _, rfl, rfl⟩
    · intro k d hk
      rw [hl]
      exact S.requested _ k d (by rw [← ha'] at hk; exact hk)
  | upgrade m c g t hm =>
    refine sound_one (h := x.host) S (upd_at ..) ?_ (usage_congr (a := x.p.boxes) rfl rfl (S.exact _ m hm)) (S.requested _)
    intro s hs
    exact ⟨by simp only [Ctx.setBoxes, upd]; rw [if_neg hs], rfl, rfl, rfl⟩
  | solicit m k hm hk _ =>
    have U := S.exact _ _ hm
    obtain ⟨r1, r2⟩ := R _ _ _ U
    simp only [Ctx.setBoxes] at R' ⊢
    generalize ha' : Global.mk (upd x.p.boxes.metas x.host (some (m.updateFootprints {} (usageDelta none (some k.2))).1))
      x.p.boxes.storage x.p.boxes.preimages (upd2 x.p.boxes.lookups x.host k (some [])) = a' at R' ⊢
    have hs : a'.storage x.host = x.p.boxes.storage x.host := by rw [← ha']
    have hl : a'.lookups x.host = upd (x.p.boxes.lookups x.host) k (some []) := by rw [← ha']; exact upd2_self ..
    obtain ⟨i', o', U', hi, ho⟩ := usage_lookups hs hl U
    obtain ⟨q1, q2⟩ := R' _ _ _ U'
    rw [hk] at hi ho
    have e : (m.updateFootprints {} (usageDelta none (some k.2))).1 = { m with items := i', octets := o' } := by
      refine footprint_exact (.inl rfl) r1 r2 q1 q2 ?_ ?_
      · simp [usageDelta, cnt] at hi ⊢; omega
      · simp [usageDelta, wt, lookWeight] at ho ⊢; omega
    rw [e] at ha'
    refine sound_one (h := x.host) (m := { m with items := i', octets := o' }) S (by rw [← ha']; exact upd_at ..) ?_ U' ?_
    · intro s hs'
      rw [← ha']
      exact ⟨by simp only [upd]; rw [if_neg hs'], rfl, rfl, upd2_other _ hs' _ _⟩
    · intro h d hh
      obtain ⟨l, hl'⟩ := S.requested x.host h d (by rw [← ha'] at hh; exact hh)
      refine ⟨l, ?_⟩
      rw [hl]; simp only [upd]; split
      · rfl
      · exact hl'
  | resolicit k p q hk => exact slots_sound S hk _
  | unavail k p hk => exact slots_sound S hk _
  | cycle k p q r hk _ => exact slots_sound S hk _
  | drop m k ts hm hk _ =>
    have U := S.exact _ _ hm
    obtain ⟨r1, r2⟩ := R _ _ _ U
    simp only [Ctx.setBoxes] at R' ⊢
    generalize ha' : Global.mk (upd x.p.boxes.metas x.host (some (m.updateFootprints {} (usageDelta (some k.2) none)).1))
      x.p.boxes.storage (upd2 x.p.boxes.preimages x.host k.1 none) (upd2 x.p.boxes.lookups x.host k none) = a' at R' ⊢
    have hs : a'.storage x.host = x.p.boxes.storage x.host := by rw [← ha']
    have hl : a'.lookups x.host = upd (x.p.boxes.lookups x.host) k none := by rw [← ha']; exact upd2_self ..
    have hp : a'.preimages x.host = upd (x.p.boxes.preimages x.host) k.1 none := by rw [← ha']; exact upd2_self ..
    obtain ⟨i', o', U', hi, ho⟩ := usage_lookups hs hl U
    obtain ⟨q1, q2⟩ := R' _ _ _ U'
    rw [hk] at hi ho
    have e : (m.updateFootprints {} (usageDelta (some k.2) none)).1 = { m with items := i', octets := o' } := by
      refine footprint_exact (.inl rfl) r1 r2 q1 q2 ?_ ?_
      · simp [usageDelta, cnt] at hi ⊢; omega
      · simp [usageDelta, wt, lookWeight] at ho ⊢; omega
    rw [e] at ha'
    refine sound_one (h := x.host) (m := { m with items := i', octets := o' }) S (by rw [← ha']; exact upd_at ..) ?_ U' ?_
    · intro s hs'
      rw [← ha']
      exact ⟨by simp only [upd]; rw [if_neg hs'], rfl, upd2_other _ hs' _ _, upd2_other _ hs' _ _⟩
    · intro h d hh
      rw [hp] at hh
      simp only [upd] at hh
      split at hh
      · cases hh
      · rename_i c
        obtain ⟨l, hl'⟩ := S.requested x.host h d hh
        refine ⟨l, ?_⟩
        rw [hl]; simp only [upd]; rw [if_neg]
        · exact hl'
        · intro hc; exact c (congrArg Prod.fst hc)
  | pay m dm t hm =>
    refine sound_one (h := x.host) S (upd_at ..) ?_ (usage_congr (a := x.p.boxes) rfl rfl (S.exact _ m hm)) (S.requested _)
    intro s hs
    exact ⟨by simp only [Ctx.setBoxes, upd]; rw [if_neg hs], rfl, rfl, rfl⟩
  | create m id nm key next hm _ _ hi ho _ _ _ =>
    -- first the payment, then the new account
    have S1 : ({ x.p.boxes with metas := upd x.p.boxes.metas x.host (some { m with balance := m.balance - nm.balance }) } : Global).Sound := by
      refine sound_one (h := x.host) S (upd_at ..) ?_ (usage_congr (a := x.p.boxes) rfl rfl (S.exact _ m hm)) (S.requested _)
      intro s hs
      exact ⟨by simp only [upd]; rw [if_neg hs], rfl, rfl, rfl⟩
    refine sound_one (h := id) S1 (upd_at ..) ?_ ?_ ?_
    · intro s hs
      simp only [Ctx.setBoxes, created, clear_other _ hs, upd2_other _ hs]
      exact ⟨by simp only [upd]; rw [if_neg hs], trivial, trivial, trivial⟩
    · rw [hi, ho]
      refine usage_one (ts := []) ?_ ?_
      · intro k; simp only [Ctx.setBoxes, created, clear_self]
      · intro k; simp only [Ctx.setBoxes, created, upd2_self, clear_self, upd]
    · intro k d hk
      simp only [Ctx.setBoxes, created, clear_self] at hk
      cases hk
  | eject m e em key p q hm he hne _ _ _ _ _ _ =>
    have S1 : ({ x.p.boxes with metas := upd x.p.boxes.metas x.host (some { m with balance := m.balance + em.balance }) } : Global).Sound := by
      refine sound_one (h := x.host) S (upd_at ..) ?_ (usage_congr (a := x.p.boxes) rfl rfl (S.exact _ m hm)) (S.requested _)
      intro s hs
      exact ⟨by simp only [upd]; rw [if_neg hs], rfl, rfl, rfl⟩
    constructor
    · intro s hs
      by_cases c : s = e
      · subst c; simp only [Ctx.setBoxes, clear_self]; exact ⟨fun _ => trivial, fun _ => trivial, fun _ => trivial⟩
      · simp only [Ctx.setBoxes, clear_other _ c] at hs ⊢
        exact S1.orphans s (by simpa only [upd, if_neg c] using hs)
    · intro s m' hs
      by_cases c : s = e
      · subst c; simp only [Ctx.setBoxes, upd, if_true] at hs; cases hs
      · refine usage_congr ?_ ?_ (S1.exact s m' (by simpa only [Ctx.setBoxes, upd, if_neg c] using hs))
        · exact clear_other _ c
        · exact clear_other _ c
    · intro s k d hs
      by_cases c : s = e
      · subst c; simp only [Ctx.setBoxes, clear_self] at hs; cases hs
      · simp only [Ctx.setBoxes, clear_other _ c] at hs ⊢
        exact S.requested s k d hs
where
  slots_sound {x : Ctx Global} {k : LKey} {ts : List Nat} (S : x.p.boxes.Sound) (hk : x.p.boxes.lookups x.host k = some ts)
      (ts' : List Nat) : ({ x.p.boxes with lookups := upd2 x.p.boxes.lookups x.host k (some ts') } : Global).Sound := by
    constructor
    · intro s hs
      obtain ⟨h1, h2, h3⟩ := S.orphans s hs
      refine ⟨h1, h2, ?_⟩
      intro k'
      by_cases c : s = x.host
      · subst c; rw [h3 k] at hk; cases hk
      · simp only [upd2_other _ c]; exact h3 k'
    · intro s m hs
      have U := S.exact s m hs
      by_cases c : s = x.host
      · subst c
        obtain ⟨i', o', U', hi, ho⟩ := usage_lookups (a := x.p.boxes) (a' := { x.p.boxes with lookups := upd2 x.p.boxes.lookups x.host k (some ts') }) rfl (upd2_self ..) U
        rw [hk] at hi ho
        simp only [cnt, wt, lookWeight, Option.isSome_some, if_true] at hi ho
        have e1 : i' = m.items := by omega
        have e2 : o' = m.octets := by omega
        rw [← e1, ← e2]; exact U'
      · exact usage_congr (a := x.p.boxes) rfl (upd2_other _ c _ _) U
    · intro s h d hs
      obtain ⟨l, hl⟩ := S.requested s h d hs
      refine ⟨l, ?_⟩
      by_cases c : s = x.host
      · subst c; simp only [upd2_self, upd]; split
        · rfl
        · exact hl
      · simp only [upd2_other _ c]; exact hl

/-! ## Tokens -/

theorem total_upd {a : Nat → Option Meta} {n s : Nat} {v : Option Meta}
    (h : ∃ l, Enum a l ∧ n = total (fun _ m => Meta.balance m) a l) :
    ∃ n', (∃ l, Enum (upd a s v) l ∧ n' = total (fun _ m => Meta.balance m) (upd a s v) l) ∧
      n' + wt (fun _ m => Meta.balance m) s (a s) = n + wt (fun _ m => Meta.balance m) s v := by
  obtain ⟨l, h1, h2⟩ := h
  obtain ⟨l', e1, e2, e3⟩ := enum_upd (fun _ m => Meta.balance m) h1 s v
  exact ⟨_, ⟨l', e1, rfl⟩, by omega⟩

theorem inFlight_append (ts : List Transfer) (t : Transfer) : inFlight (ts ++ [t]) = inFlight ts + t.amount := by
  simp [inFlight]

/-- The account `new` creates was not there. -/
theorem Step.tokens (st : Step env ok x x') (F : NextFree x) {n : Nat} (T : Tokens x n) : Tokens x' n := by
  obtain ⟨h, H, hn⟩ := T
  have same : ∀ {m m' : Meta}, x.p.boxes.metas x.host = some m → m'.balance = m.balance →
      Held { x.p.boxes with metas := upd x.p.boxes.metas x.host (some m') } h := by
    intro m m' hm hb
    obtain ⟨n', e1, e2⟩ := total_upd (s := x.host) (v := some m') H
    rw [hm] at e2
    simp only [wt, hb] at e2
    have : n' = h := by omega
    rw [← this]; exact e1
  cases st with
  | same _ hb ht => exact ⟨h, by rw [hb]; exact H, by rw [ht]; exact hn⟩
  | write m k v hm => exact ⟨h, same hm (updateFootprints_rest _ _ _).1, hn⟩
  | upgrade m c g t hm => exact ⟨h, same hm rfl, hn⟩
  | solicit m k hm => exact ⟨h, same hm (updateFootprints_rest _ _ _).1, hn⟩
  | drop m k ts hm => exact ⟨h, same hm (updateFootprints_rest _ _ _).1, hn⟩
  | resolicit => exact ⟨h, H, hn⟩
  | unavail => exact ⟨h, H, hn⟩
  | cycle => exact ⟨h, H, hn⟩
  | pay m dm t hm _ _ _ hc =>
    obtain ⟨n', e1, e2⟩ := total_upd (s := x.host) (v := some { m with balance := m.balance - t.amount }) H
    rw [hm] at e2
    simp only [wt] at e2
    refine ⟨n', e1, ?_⟩
    simp only [inFlight_append]
    omega
  | create m id nm key next hm hc ht hi ho _ hid _ =>
    have hfree : x.p.boxes.metas id = none := by
      rcases hid with ⟨_, _, h, _⟩ | ⟨h, _⟩
      · exact h
      · rw [h]; exact F.2
    have hne : id ≠ x.host := fun c => by rw [c, hm] at hfree; cases hfree
    obtain ⟨n', e1, e2⟩ := total_upd (s := x.host) (v := some { m with balance := m.balance - nm.balance }) H
    obtain ⟨n'', e3, e4⟩ := total_upd (s := id) (v := some nm) e1
    have : upd x.p.boxes.metas x.host (some { m with balance := m.balance - nm.balance }) id = none := by
      simp only [upd, if_neg hne, hfree]
    rw [this] at e4
    rw [hm] at e2
    simp only [wt] at e2 e4
    refine ⟨n'', e3, ?_⟩
    show n = n'' + inFlight x.transfers
    omega
  | eject m e em key p q hm he hne =>
    obtain ⟨n', e1, e2⟩ := total_upd (s := x.host) (v := some { m with balance := m.balance + em.balance }) H
    obtain ⟨n'', e3, e4⟩ := total_upd (s := e) (v := none) e1
    have : upd x.p.boxes.metas x.host (some { m with balance := m.balance + em.balance }) e = some em := by
      simp only [upd, if_neg hne, he]
    rw [this] at e4
    rw [hm] at e2
    simp only [wt] at e2 e4
    refine ⟨n'', e3, ?_⟩
    show n = n'' + inFlight x.transfers
    omega

/-! ## Deposits -/

/-- Every account's balance covers the threshold kept by the code. -/
def Covered (a : Global) : Prop := ∀ s m, a.metas s = some m → m.threshold ≤ m.balance

theorem threshold_eq {m : Meta} (h : deposit m.items m.octets < U64) : m.threshold = deposit m.items m.octets - m.gratis := by
  unfold Meta.threshold
  have : 100 + 10 * m.items + 1 * m.octets = deposit m.items m.octets := by unfold deposit; omega
  rw [this, Nat.mod_eq_of_lt h]

theorem solvent_iff {a : Global} (S : a.Sound) (R : a.InRange) (C : Covered a) : Solvent a := by
  intro s m hm
  have U := S.exact s m hm
  refine ⟨_, _, U, ?_⟩
  have := C s m hm
  rw [threshold_eq (R _ _ _ U).2] at this
  omega

theorem enum_unique {κ α : Type} [DecidableEq κ] {f : κ → Option α} {l l' : List κ} (h : Enum f l) (h' : Enum f l') : l.Perm l' :=
  (List.perm_ext_iff_of_nodup h.1 h'.1).2 fun k => (h.2 k).trans (h'.2 k).symm

theorem usage_unique {a : Global} {s i o i' o' : Nat} (h : Usage a s i o) (h' : Usage a s i' o') : i = i' ∧ o = o' := by
  obtain ⟨ks, ls, h1, h2, h3, h4⟩ := h
  obtain ⟨ks', ls', h1', h2', h3', h4'⟩ := h'
  have p1 := enum_unique h1 h1'
  have p2 := enum_unique h2 h2'
  have q1 := p1.length_eq
  have q2 := p2.length_eq
  refine ⟨by omega, ?_⟩
  rw [h4, h4']
  unfold total
  rw [(p1.map _).sum_nat, (p2.map _).sum_nat]

theorem covered_of {a : Global} (S : a.Sound) (R : a.InRange) (C : Solvent a) : Covered a := by
  intro s m hm
  have U := S.exact s m hm
  obtain ⟨i, o, U', h⟩ := C s m hm
  obtain ⟨e1, e2⟩ := usage_unique U U'
  rw [threshold_eq (R _ _ _ U).2, e1, e2]
  omega

theorem covered_one {a a' : Global} {h : Nat} {m : Meta} (C : Covered a) (hm : a'.metas = upd a.metas h (some m))
    (hc : m.threshold ≤ m.balance) : Covered a' := by
  intro s m' hs
  rw [hm] at hs
  simp only [upd] at hs
  split at hs
  · cases hs; exact hc
  · exact C s m' hs

theorem Step.covered (st : Step env ok x x') (S : x.p.boxes.Sound) (R : x.p.boxes.InRange) (R' : x'.p.boxes.InRange)
    (C : Covered x.p.boxes) : Covered x'.p.boxes := by
  have S' := st.sound S R R'
  cases st with
  | same _ hb => rw [hb]; exact C
  | write m k v hm ha =>
    refine covered_one C rfl ?_
    by_cases c : (usageDelta ((x.p.boxes.storage x.host k).map (storOctets k)) (v.map (storOctets k))).isZero = false
    · have := ha c
      unfold Meta.simulate at this
      rw [(updateFootprints_rest _ _ _).1]; exact this
    · have e : ∀ d : Delta, ¬ d.isZero = false → (m.updateFootprints d {}).1 = m := by
        intro d hd
        simp only [Delta.isZero, decide_eq_false_iff_not, Classical.not_not] at hd
        unfold Meta.updateFootprints
        simp [hd.1, hd.2]
      rw [e _ c]; exact C _ _ hm
  | upgrade m c g t hm => exact covered_one C rfl (C x.host m hm)
  | solicit m k hm _ ha =>
    refine covered_one C rfl ?_
    unfold Meta.simulate at ha
    rw [(updateFootprints_rest _ _ _).1]; exact ha
  | resolicit => exact C
  | unavail => exact C
  | cycle => exact C
  | drop m k ts hm hl _ =>
    refine covered_one C rfl ?_
    have U := S.exact _ _ hm
    have r := R _ _ _ U
    have c := C _ _ hm
    have U' := S'.exact x.host (m.updateFootprints {} (usageDelta (some k.2) none)).1 (upd_at ..)
    have r' := R' _ _ _ U'
    rw [threshold_eq r.2] at c
    rw [threshold_eq r'.2, (updateFootprints_rest _ _ _).1, (updateFootprints_rest _ _ _).2.1]
    obtain ⟨i', o', U'', hi, ho⟩ := usage_lookups (a := x.p.boxes) (k := k) (v := none)
      (a' := (x.setBoxes { x.p.boxes with metas := upd x.p.boxes.metas x.host (some (m.updateFootprints {} (usageDelta (some k.2) none)).1), preimages := upd2 x.p.boxes.preimages x.host k.1 none, lookups := upd2 x.p.boxes.lookups x.host k none }).p.boxes)
      rfl (upd2_self ..) U
    obtain ⟨e1, e2⟩ := usage_unique U' U''
    rw [e1, e2]
    rw [hl] at hi ho
    simp only [cnt, wt] at hi ho
    simp only [deposit] at c ⊢
    simp at hi
    omega
  | pay m dm t hm _ _ _ hc ht => exact covered_one C rfl ht
  | create m id nm key next hm hc ht =>
    refine covered_one (covered_one C (a' := { x.p.boxes with metas := upd x.p.boxes.metas x.host (some { m with balance := m.balance - nm.balance }) }) rfl ?_) rfl ?_
    · show m.threshold ≤ m.balance - nm.balance
      have := C _ _ hm; omega
    · omega
  | eject m e em key p q hm he hne =>
    intro s m' hs
    simp only [Ctx.setBoxes, upd] at hs
    split at hs
    · cases hs
    · split at hs
      · cases hs
        show m.threshold ≤ m.balance + em.balance
        have := C _ _ hm; omega
      · exact C s m' hs

/-! ## Ejection -/

/-- An account with two items, one of them the request `key`, owns nothing else. -/
theorem only_request {a : Global} (S : a.Sound) {e : Nat} {m : Meta} {key : LKey} (hm : a.metas e = some m)
    (hi : m.items = 2) (hk : (a.lookups e key).isSome) : a.OnlyRequest e key := by
  obtain ⟨ks, ls, h1, h2, h3, h4⟩ := S.exact e m hm
  have hmem := (h2.2 key).2 hk
  have hpos := List.length_pos_of_mem hmem
  have hks : ks.length = 0 := by omega
  have hls : ls.length = 1 := by omega
  have hks' : ks = [] := List.length_eq_zero_iff.1 hks
  obtain ⟨q, hq⟩ := List.length_eq_one_iff.1 hls
  subst hks' hq
  have hqk : key = q := by simpa using hmem
  subst hqk
  have hl : ∀ k', k' ≠ key → a.lookups e k' = none := by
    intro k' hk'
    have := (not_congr (h2.2 k')).1 (by simpa using hk')
    simpa using this
  refine ⟨?_, ?_, hl⟩
  · intro k'
    have := (not_congr (h1.2 k')).1 (by simp)
    simpa using this
  · intro h hh
    cases hp : a.preimages e h with
    | none => rfl
    | some d =>
      obtain ⟨l, hl'⟩ := S.requested e h d hp
      rw [hl (h, l) (fun c => hh (congrArg Prod.fst c))] at hl'
      cases hl'

/-! ## Requests -/

theorem Step.life (st : Step env ok x x') (S : x.p.boxes.Sound) (F : NextFree x) (s : Nat) (k : LKey) :
    LifeStep (fun y => expiresAt env y < env.slot) env.slot (x.p.boxes.lookups s k) (x'.p.boxes.lookups s k) := by
  have one : ∀ {k0 : LKey} {r}, LifeStep (fun y => expiresAt env y < env.slot) env.slot (x.p.boxes.lookups x.host k0) r →
      LifeStep (fun y => expiresAt env y < env.slot) env.slot (x.p.boxes.lookups s k) (upd2 x.p.boxes.lookups x.host k0 r s k) := by
    intro k0 r h
    by_cases c : s = x.host
    · subst c
      rw [upd2_self]; simp only [upd]
      split
      · rename_i d; rw [d]; exact h
      · exact .stay _
    · rw [upd2_other _ c]; exact .stay _
  cases st with
  | same _ hb => rw [hb]; exact .stay _
  | write => exact .stay _
  | upgrade => exact .stay _
  | pay => exact .stay _
  | solicit m k0 hm hl => exact one (by rw [hl]; exact .request)
  | resolicit k0 a b hl => exact one (by rw [hl]; exact .again a b)
  | unavail k0 a hl => exact one (by rw [hl]; exact .retire a)
  | cycle k0 a b c hl he => exact one (by rw [hl]; exact .retireAgain a b c he)
  | drop m k0 ts hm hl he =>
    refine one ?_
    rw [hl]
    rcases he with h | ⟨a, b, h, h'⟩
    · rw [h]; exact .withdraw
    · rw [h]; exact .forget a b h'
  | create m id nm key next hm _ _ _ _ _ hid _ =>
    have hfree : x.p.boxes.metas id = none := by
      rcases hid with ⟨_, _, h, _⟩ | ⟨h, _⟩
      · exact h
      · rw [h]; exact F.2
    simp only [Ctx.setBoxes, created]
    by_cases c : s = id
    · subst c
      rw [upd2_self, clear_self, (S.orphans _ hfree).2.2]
      simp only [upd]
      split
      · exact .request
      · exact .stay _
    · rw [upd2_other _ c, clear_other _ c]; exact .stay _
  | eject m e em key a b hm he hne _ hi hk hl hx _ =>
    simp only [Ctx.setBoxes]
    by_cases c : s = e
    · subst c
      rw [clear_self]
      by_cases d : k = key
      · rw [d, hl]; exact .forget a b hx
      · rw [(only_request S he hi (key := key) (by rw [hl]; rfl)).2.2 k d]; exact .stay _
    · rw [clear_other _ c]; exact .stay _

theorem Step.slots (st : Step env ok x x') (C : x.p.boxes.SlotsOk env.slot) : x'.p.boxes.SlotsOk env.slot := by
  have one : ∀ {k0 : LKey} {ts' : List Nat}, SlotsOk env.slot ts' →
      ∀ s k ts, upd2 x.p.boxes.lookups x.host k0 (some ts') s k = some ts → SlotsOk env.slot ts := by
    intro k0 ts' h s k ts hs
    by_cases c : s = x.host
    · subst c
      rw [upd2_self] at hs; simp only [upd] at hs
      split at hs
      · cases hs; exact h
      · exact C _ _ _ hs
    · rw [upd2_other _ c] at hs; exact C _ _ _ hs
  cases st with
  | same _ hb => rw [hb]; exact C
  | write => exact C
  | upgrade => exact C
  | pay => exact C
  | solicit m k0 hm hl => exact one ⟨by decide, .nil, by simp⟩
  | resolicit k0 a b hl =>
    obtain ⟨h1, h2, h3⟩ := C _ _ _ hl
    refine one ⟨by simp, ?_, ?_⟩ <;> simp at h2 h3 ⊢ <;> omega
  | unavail k0 a hl =>
    obtain ⟨h1, h2, h3⟩ := C _ _ _ hl
    refine one ⟨by simp, ?_, ?_⟩ <;> simp at h2 h3 ⊢ <;> omega
  | cycle k0 a b c hl he =>
    obtain ⟨h1, h2, h3⟩ := C _ _ _ hl
    refine one ⟨by simp, ?_, ?_⟩ <;> simp at h2 h3 ⊢ <;> omega
  | drop m k0 ts hm hl he =>
    intro s k ts hs
    simp only [Ctx.setBoxes] at hs
    by_cases c : s = x.host
    · subst c
      rw [upd2_self] at hs; simp only [upd] at hs
      split at hs
      · cases hs
      · exact C _ _ _ hs
    · rw [upd2_other _ c] at hs; exact C _ _ _ hs
  | create m id nm key next =>
    intro s k ts hs
    simp only [Ctx.setBoxes, created] at hs
    by_cases c : s = id
    · subst c
      rw [upd2_self, clear_self] at hs
      simp only [upd] at hs
      split at hs
      · cases hs; exact ⟨by decide, .nil, by simp⟩
      · cases hs
    · rw [upd2_other _ c, clear_other _ c] at hs; exact C _ _ _ hs
  | eject m e em =>
    intro s k ts hs
    simp only [Ctx.setBoxes] at hs
    by_cases c : s = e
    · subst c; rw [clear_self] at hs; cases hs
    · rw [clear_other _ c] at hs; exact C _ _ _ hs

/-! ## The next identifier -/

theorem checkLoop_spec (a : Global) : ∀ n id r, checkLoop mapStore a n id = some r → Public id → a.metas r = none ∧ Public r := by
  intro n
  induction n with
  | zero => intro id r h; cases h
  | succ n ih =>
    intro id r h hp
    unfold checkLoop at h
    by_cases c : (!mapStore.existsEff a id) = true
    · rw [if_pos c] at h
      cases h
      refine ⟨?_, hp⟩
      simpa [mapStore] using c
    · rw [if_neg c] at h
      refine ih _ r h ⟨by omega, ?_⟩
      have : (id - MIN_ID + 1) % RING < RING := Nat.mod_lt _ (by decide)
      omega

theorem rotate_spec {a : Global} {id r : Nat} (h : rotateId mapStore a id = some r) : a.metas r = none ∧ Public r := by
  refine checkLoop_spec a RING _ r h ⟨by omega, ?_⟩
  have : (id - MIN_ID + 42) % RING < RING := Nat.mod_lt _ (by decide)
  omega

theorem Step.next (st : Step env true x x') (F : NextFree x) : NextFree x' := by
  have live : ∀ {m m' : Meta}, x.p.boxes.metas x.host = some m → upd x.p.boxes.metas x.host (some m') x.nextId = none := by
    intro m m' hm
    simp only [upd]
    rw [if_neg]
    · exact F.2
    · intro c; have := F.2; rw [c, hm] at this; cases this
  cases st with
  | same _ hb _ hn => exact ⟨hn ▸ F.1, by rw [hb, hn]; exact F.2⟩
  | write m k v hm => exact ⟨F.1, live hm⟩
  | upgrade m c g t hm => exact ⟨F.1, live hm⟩
  | solicit m k hm => exact ⟨F.1, live hm⟩
  | drop m k ts hm => exact ⟨F.1, live hm⟩
  | pay m dm t hm => exact ⟨F.1, live hm⟩
  | resolicit => exact F
  | unavail => exact F
  | cycle => exact F
  | create m id nm key next hm _ _ _ _ _ hid _ =>
    rcases hid with ⟨h1, _, _, h4⟩ | ⟨h1, h2 | h2⟩
    · subst h4
      refine ⟨F.1, ?_⟩
      show upd _ id (some nm) x.nextId = none
      simp only [upd_apply (k := id)]
      rw [if_neg]
      · exact live hm
      · intro c; have := F.1.1; omega
    · cases h2.1
    · exact ⟨(rotate_spec h2).2, (rotate_spec h2).1⟩
  | eject m e em key a b hm =>
    refine ⟨F.1, ?_⟩
    show upd _ e none x.nextId = none
    simp only [upd_apply (k := e)]
    split
    · rfl
    · exact live hm


end Fastroll.Svc
