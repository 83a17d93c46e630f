import Verif.CachedDb.Spec
namespace Fastroll.CachedDb
variable {K V B : Type} [DecidableEq K]

@[simp] theorem upd_self {A : Type} (f : K → A) (k : K) (a : A) : upd f k a k = a := by simp [upd]

theorem upd_ne {A : Type} (f : K → A) {k k' : K} (a : A) (h : k' ≠ k) : upd f k a k' = f k' := by
  simp [upd, h]

/-- Values that were encoded decode again. -/
def RoundTrips (C : Codec K V B) : Prop := ∀ k v b, C.enc v = some b → C.dec k b = some v

/-- The cached value of a key is the stored one. -/
def Agrees (C : Codec K V B) (s : St K V B) (k : K) : Prop :=
  ∀ v, s.cache k = some v → ∃ b, s.db k = some b ∧ C.dec k b = some v

theorem fold_upd {A : Type} (ws : List (K × A)) (c : K → A) (k : K) :
    (ws.foldl (fun c p => upd c p.1 p.2) c) k =
      match (ws.reverse.find? fun p => p.1 = k).map Prod.snd with
      | none => c k
      | some v => v := by
  induction ws generalizing c with
  | nil => rfl
  | cons w ws ih =>
    rw [List.foldl_cons, ih, List.reverse_cons, List.find?_append]
    cases hf : ws.reverse.find? (fun p => p.1 = k) with
    | some x => rfl
    | none =>
      simp only [Option.map_none, Option.none_or, List.find?_cons, List.find?_nil]
      by_cases hk : w.1 = k
      · subst hk; simp
      · have hk' : k ≠ w.1 := fun h => hk h.symm
        simp [hk, upd_ne _ _ hk']

theorem encodeAll_none (C : Codec K V B) (ws : List (K × Option V)) :
    encodeAll C ws = none ↔ Spec.encodable C ws = false := by
  induction ws with
  | nil => simp [encodeAll, Spec.encodable]
  | cons w ws ih =>
    obtain ⟨k, o⟩ := w
    unfold Spec.encodable at ih ⊢
    rw [List.all_cons]
    cases o with
    | none => simp only [encodeAll, Option.map_eq_none_iff, ih, Bool.true_and]
    | some v =>
      unfold encodeAll
      cases hv : C.enc v with
      | none => simp [hv]
      | some b => simp only [Option.map_eq_none_iff, ih, hv, Option.isSome_some, Bool.true_and]

theorem encodeAll_some (C : Codec K V B) (ws : List (K × Option V)) (bs : List (K × Option B))
    (h : encodeAll C ws = some bs) : bs = ws.map fun p => (p.1, p.2.bind C.enc) := by
  induction ws generalizing bs with
  | nil => injection h with h; exact h.symm
  | cons w ws ih =>
    obtain ⟨k, o⟩ := w
    cases o with
    | none =>
      rw [encodeAll, Option.map_eq_some_iff] at h
      obtain ⟨b', h1, h2⟩ := h
      rw [← h2, ih b' h1]; rfl
    | some v =>
      unfold encodeAll at h
      cases hv : C.enc v with
      | none => rw [hv] at h; cases h
      | some b =>
        rw [hv] at h
        dsimp only at h
        rw [Option.map_eq_some_iff] at h
        obtain ⟨b', h1, h2⟩ := h
        rw [← h2, ih b' h1]
        simp [hv]

theorem writeDb_after (C : Codec K V B) (db : K → Option B) (ws : List (K × Option V))
    (bs : List (K × Option B)) (h : encodeAll C ws = some bs) : writeDb db bs = Spec.after C db ws := by
  funext k
  unfold writeDb Spec.after Spec.lastWrite
  rw [fold_upd, encodeAll_some C ws bs h, ← List.map_reverse, List.find?_map]
  have hcomp : ((fun p : K × Option B => decide (p.1 = k)) ∘ fun p : K × Option V => (p.1, p.2.bind C.enc)) =
      fun p => decide (p.1 = k) := rfl
  rw [hcomp]
  cases ws.reverse.find? (fun p => p.1 = k) with
  | none => rfl
  | some p => rfl

theorem writeStart_spec (C : Codec K V B) (s : St K V B) (ws : List (K × Option V)) (io : Bool) :
    Out.ofWrite (writeStart C s ws io).1 = (Spec.write C s.db ws io).1 ∧
    (writeStart C s ws io).2.1.db = (Spec.write C s.db ws io).2 ∧
    (writeStart C s ws io).2.1.cache = s.cache := by
  unfold writeStart Spec.write
  cases he : encodeAll C ws with
  | none => rw [if_pos ((encodeAll_none C ws).1 he)]; exact ⟨rfl, rfl, rfl⟩
  | some bs =>
    have : ¬ Spec.encodable C ws = false := fun h => by rw [(encodeAll_none C ws).2 h] at he; cases he
    rw [if_neg this]
    dsimp only
    cases io
    · exact ⟨rfl, rfl, rfl⟩
    · simp only [if_true]
      exact ⟨rfl, writeDb_after C _ ws bs he, trivial⟩

theorem lastWrite_mem {ws : List (K × Option V)} {k : K} {v : Option V}
    (h : Spec.lastWrite ws k = some v) : (k, v) ∈ ws := by
  unfold Spec.lastWrite at h
  rw [Option.map_eq_some_iff] at h
  obtain ⟨p, h1, h2⟩ := h
  have hm := List.mem_of_find?_eq_some h1
  have hk := List.find?_some h1
  simp only [decide_eq_true_eq] at hk
  rw [List.mem_reverse] at hm
  rw [← hk, ← h2]
  exact hm

theorem lastWrite_none {ws : List (K × Option V)} {k : K} (h : Spec.lastWrite ws k = none) :
    ∀ v, (k, v) ∉ ws := by
  intro v hm
  unfold Spec.lastWrite at h
  rw [Option.map_eq_none_iff, List.find?_eq_none] at h
  exact h (k, v) (List.mem_reverse.2 hm) (by simp)

/-- After a write has reached the database, updating the cache makes every written key agree. -/
theorem sync_agrees (C : Codec K V B) (hC : RoundTrips C) (ws : List (K × Option V)) (s : St K V B)
    (k : K) (he : Spec.encodable C ws = true)
    (h : ∀ v, Spec.lastWrite ws k = some v → s.db k = v.bind C.enc)
    (hn : Spec.lastWrite ws k = none → Agrees C s k) : Agrees C (finish s (.sync ws)) k := by
  intro v hv
  unfold finish at hv ⊢
  dsimp only at hv ⊢
  rw [fold_upd] at hv
  have hdef : Spec.lastWrite ws k = (ws.reverse.find? fun p => p.1 = k).map Prod.snd := rfl
  rw [← hdef] at hv
  cases hl : Spec.lastWrite ws k with
  | none => rw [hl] at hv; exact hn hl v hv
  | some w =>
    rw [hl] at hv
    dsimp only at hv
    subst hv
    have hm := lastWrite_mem hl
    unfold Spec.encodable at he
    have := List.all_eq_true.1 he _ hm
    dsimp only at this
    cases hb : C.enc v with
    | none => rw [hb] at this; cases this
    | some b => exact ⟨b, by rw [h _ hl]; exact hb, hC k v b hb⟩

theorem writeStart_task (C : Codec K V B) (s : St K V B) (ws : List (K × Option V)) (io : Bool)
    (t : Task K V) (h : (writeStart C s ws io).2.2 = some t) :
    t = .sync ws ∧ Spec.encodable C ws = true ∧ (writeStart C s ws io).2.1.db = Spec.after C s.db ws := by
  unfold writeStart at h ⊢
  cases he : encodeAll C ws with
  | none => rw [he] at h; cases h
  | some bs =>
    rw [he] at h
    dsimp only at h ⊢
    cases io
    · simp at h
    · simp only [if_true] at h ⊢
      injection h with h
      refine ⟨h.symm, ?_, writeDb_after C _ ws bs he⟩
      cases hx : Spec.encodable C ws with
      | true => rfl
      | false => rw [(encodeAll_none C ws).2 hx] at he; cases he

theorem writeStart_notask (C : Codec K V B) (s : St K V B) (ws : List (K × Option V)) (io : Bool)
    (h : (writeStart C s ws io).2.2 = none) : (writeStart C s ws io).2.1 = s := by
  unfold writeStart at h ⊢
  cases he : encodeAll C ws with
  | none => rfl
  | some bs =>
    rw [he] at h
    dsimp only at h ⊢
    cases io
    · rfl
    · simp at h

theorem writeWhole_spec (C : Codec K V B) (hC : RoundTrips C) (s : St K V B)
    (h : ∀ k, Agrees C s k) (ws : List (K × Option V)) (io : Bool) :
    (writeWhole C s ws io).1 = (Spec.write C s.db ws io).1 ∧
    (writeWhole C s ws io).2.db = (Spec.write C s.db ws io).2 ∧
    ∀ k, Agrees C (writeWhole C s ws io).2 k := by
  have hs := writeStart_spec C s ws io
  unfold writeWhole
  refine ⟨hs.1, ?_, ?_⟩
  · dsimp only
    rw [← hs.2.1]
    cases (writeStart C s ws io).2.2 with
    | none => rfl
    | some t => cases t <;> rfl
  · intro k
    dsimp only
    cases ht : (writeStart C s ws io).2.2 with
    | none => rw [writeStart_notask C s ws io ht]; exact h k
    | some t =>
      obtain ⟨h1, h2, h3⟩ := writeStart_task C s ws io t ht
      subst h1
      refine sync_agrees C hC ws _ k h2 ?_ ?_
      · intro v hv
        rw [h3]; unfold Spec.after; rw [hv]
      · intro hv v' hv'
        rw [h3]; unfold Spec.after; rw [hv]
        rw [hs.2.2] at hv'
        exact h k v' hv'

theorem getStart_spec (C : Codec K V B) (s : St K V B) (k : K) (h : Agrees C s k) :
    Out.ofGet (getStart C s k).1 = Spec.read C s.db k ∧
    ∀ t, (getStart C s k).2 = some t → ∃ v b, t = .fill k v ∧ s.db k = some b ∧ C.dec k b = some v := by
  unfold getStart Spec.read
  cases hc : s.cache k with
  | some v =>
    obtain ⟨b, h1, h2⟩ := h v hc
    rw [h1]
    dsimp only
    rw [h2]
    exact ⟨rfl, fun t ht => (by cases ht)⟩
  | none =>
    dsimp only
    cases hd : s.db k with
    | none => exact ⟨rfl, fun t ht => (by cases ht)⟩
    | some b =>
      dsimp only
      cases hb : C.dec k b with
      | none => exact ⟨rfl, fun t ht => (by cases ht)⟩
      | some v =>
        refine ⟨rfl, fun t ht => ?_⟩
        injection ht with ht
        exact ⟨v, b, ht.symm, rfl, hb⟩

theorem step_spec (C : Codec K V B) (hC : RoundTrips C) (s : St K V B) (h : ∀ k, Agrees C s k)
    (o : Op K V) :
    (step C s o).1 = (Spec.step C s.db o).1 ∧ (step C s o).2.db = (Spec.step C s.db o).2 ∧
    ∀ k, Agrees C (step C s o).2 k := by
  cases o with
  | get k =>
    obtain ⟨h1, h2⟩ := getStart_spec C s k (h k)
    refine ⟨h1, ?_, ?_⟩
    · show (finishOpt s (getStart C s k).2).db = s.db
      cases (getStart C s k).2 with
      | none => rfl
      | some t => cases t <;> rfl
    · intro k'
      show Agrees C (finishOpt s (getStart C s k).2) k'
      cases ht : (getStart C s k).2 with
      | none => exact h k'
      | some t =>
        obtain ⟨v, b, h3, h4, h5⟩ := h2 t ht
        subst h3
        intro v' hv'
        change upd s.cache k (some v) k' = some v' at hv'
        by_cases hk : k' = k
        · subst hk
          rw [upd_self] at hv'
          injection hv' with hv'
          subst hv'
          exact ⟨b, h4, h5⟩
        · rw [upd_ne _ _ hk] at hv'
          exact h k' v' hv'
  | put k v io => exact writeWhole_spec C hC s h _ io
  | delete k io => exact writeWhole_spec C hC s h _ io
  | batch ws io => exact writeWhole_spec C hC s h _ io
  | evict k =>
    refine ⟨rfl, rfl, fun k' v hv => ?_⟩
    change upd s.cache k none k' = some v at hv
    by_cases hk : k' = k
    · subst hk; rw [upd_self] at hv; cases hv
    · rw [upd_ne _ _ hk] at hv; exact h k' v hv

theorem run_spec (C : Codec K V B) (hC : RoundTrips C) (s : St K V B) (h : ∀ k, Agrees C s k)
    (os : List (Op K V)) :
    (run C s os).1 = (Spec.run C s.db os).1 ∧ (run C s os).2.db = (Spec.run C s.db os).2 ∧
    ∀ k, Agrees C (run C s os).2 k := by
  induction os generalizing s with
  | nil => exact ⟨rfl, rfl, h⟩
  | cons o os ih =>
    obtain ⟨h1, h2, h3⟩ := step_spec C hC s h o
    obtain ⟨h4, h5, h6⟩ := ih _ h3
    unfold run Spec.run
    refine ⟨?_, ?_, h6⟩
    · rw [h1, h4, h2]
    · dsimp only; rw [h5, h2]

/-! ### Interleavings -/

/-- The key is being written by an operation under way. -/
def Writing (ts : List (Task K V)) (k : K) : Prop := ∃ ws, Task.sync ws ∈ ts ∧ ∃ v, (k, v) ∈ ws

theorem writing_iff (ts : List (Task K V)) (k : K) : Spec.writing ts k = true ↔ Writing ts k := by
  unfold Spec.writing Writing
  rw [List.any_eq_true]
  constructor
  · rintro ⟨t, h1, h2⟩
    cases t with
    | fill k' v => cases h2
    | sync ws =>
      unfold Spec.writes at h2
      rw [List.any_eq_true] at h2
      obtain ⟨p, h3, h4⟩ := h2
      simp only [decide_eq_true_eq] at h4
      exact ⟨ws, h1, p.2, by rw [← h4]; exact h3⟩
  · rintro ⟨ws, h1, v, h2⟩
    refine ⟨_, h1, ?_⟩
    unfold Spec.writes
    rw [List.any_eq_true]
    exact ⟨_, h2, by simp⟩

theorem touched_of (ts : List (Task K V)) (k : K) (h : Writing ts k ∨ ∃ v, Task.fill k v ∈ ts) :
    Spec.touched ts k = true := by
  unfold Spec.touched
  rw [List.any_eq_true]
  rcases h with h | ⟨v, h⟩
  · have h := (writing_iff ts k).2 h
    unfold Spec.writing at h
    rw [List.any_eq_true] at h
    obtain ⟨t, h1, h2⟩ := h
    exact ⟨t, h1, by rw [h2]; rfl⟩
  · exact ⟨_, h, by simp [Spec.fills]⟩

/-- The invariant of exclusive schedules. -/
structure Inv (C : Codec K V B) (y : Sys K V B) : Prop where
  agree : ∀ k, ¬ Writing y.tasks k → Agrees C y.st k
  fill : ∀ k v, Task.fill k v ∈ y.tasks → ∃ b, y.st.db k = some b ∧ C.dec k b = some v
  sync : ∀ ws, Task.sync ws ∈ y.tasks → Spec.encodable C ws = true ∧
    ∀ k v, Spec.lastWrite ws k = some v → y.st.db k = v.bind C.enc
  apart : ∀ (i j : Nat) ws ws' k, y.tasks[i]? = some (.sync ws) → y.tasks[j]? = some (.sync ws') →
    (∃ v, (k, v) ∈ ws) → (∃ v, (k, v) ∈ ws') → i = j

theorem inv_get (C : Codec K V B) (y : Sys K V B) (h : Inv C y) (k : K) : Inv C (micro C y (.get k)) := by
  simp only [micro]
  cases ht : (getStart C y.st k).2 with
  | none => exact h
  | some t =>
    obtain ⟨v, b, h1, h2, h3⟩ : ∃ v b, t = .fill k v ∧ y.st.db k = some b ∧ C.dec k b = some v := by
      unfold getStart at ht
      cases hc : y.st.cache k with
      | some v => rw [hc] at ht; cases ht
      | none =>
        rw [hc] at ht
        dsimp only at ht
        cases hd : y.st.db k with
        | none => rw [hd] at ht; cases ht
        | some b =>
          rw [hd] at ht
          dsimp only at ht
          cases hb : C.dec k b with
          | none => rw [hb] at ht; cases ht
          | some v => rw [hb] at ht; injection ht with ht; exact ⟨v, b, ht.symm, rfl, hb⟩
    subst h1
    have hw : ∀ k', Writing (Task.fill k v :: y.tasks) k' ↔ Writing y.tasks k' := by
      intro k'
      unfold Writing
      simp
    refine ⟨fun k' hk' => ?_, ?_, ?_, ?_⟩
    · exact h.agree k' (fun hx => hk' ((hw k').2 hx))
    · intro k' v' hm
      rcases List.mem_cons.1 hm with hm | hm
      · injection hm with h4 h5; subst h4; subst h5; exact ⟨b, h2, h3⟩
      · exact h.fill k' v' hm
    · intro ws hm
      rcases List.mem_cons.1 hm with hm | hm
      · cases hm
      · exact h.sync ws hm
    · intro i j ws ws' k' hi hj q1 q2
      cases i with
      | zero => cases hi
      | succ i =>
        cases j with
        | zero => cases hj
        | succ j => rw [h.apart i j ws ws' k' hi hj q1 q2]

theorem inv_write (C : Codec K V B) (y : Sys K V B) (h : Inv C y) (ws : List (K × Option V)) (io : Bool)
    (hx : ∀ k v, (k, v) ∈ ws → ¬ (Writing y.tasks k ∨ ∃ v, Task.fill k v ∈ y.tasks)) : Inv C (micro C y (.write ws io)) := by
  simp only [micro]
  cases ht : (writeStart C y.st ws io).2.2 with
  | none =>
    rw [writeStart_notask C y.st ws io ht]
    exact h
  | some t =>
    obtain ⟨h1, h2, h3⟩ := writeStart_task C y.st ws io t ht
    have hcache := (writeStart_spec C y.st ws io).2.2
    subst h1
    generalize (writeStart C y.st ws io).2.1 = s' at h3 hcache
    have same : ∀ k, (∀ v, (k, v) ∉ ws) → s'.db k = y.st.db k := by
      intro k hk
      rw [h3]; unfold Spec.after
      cases hl : Spec.lastWrite ws k with
      | none => rfl
      | some v => exact absurd (lastWrite_mem hl) (hk v)
    have same' : ∀ k, (Writing y.tasks k ∨ ∃ v, Task.fill k v ∈ y.tasks) → s'.db k = y.st.db k :=
      fun k hk => same k fun v hv => hx k v hv hk
    refine ⟨fun k hk => ?_, ?_, ?_, ?_⟩
    · have hk1 : ∀ v, (k, v) ∉ ws := fun v hv => hk ⟨ws, List.mem_cons_self .., v, hv⟩
      have hk2 : ¬ Writing y.tasks k := fun ⟨w, q1, q2⟩ => hk ⟨w, List.mem_cons_of_mem _ q1, q2⟩
      intro v hv
      dsimp only at hv ⊢
      rw [hcache] at hv
      rw [same k hk1]
      exact h.agree k hk2 v hv
    · intro k v hm
      rcases List.mem_cons.1 hm with hm | hm
      · cases hm
      · dsimp only
        rw [same' k (Or.inr ⟨v, hm⟩)]; exact h.fill k v hm
    · intro w hm
      rcases List.mem_cons.1 hm with hm | hm
      · injection hm with hm
        subst hm
        refine ⟨h2, fun k v hl => ?_⟩
        dsimp only
        rw [h3]; unfold Spec.after; rw [hl]
      · obtain ⟨q1, q2⟩ := h.sync w hm
        refine ⟨q1, fun k v hl => ?_⟩
        dsimp only
        rw [same' k (Or.inl ⟨w, hm, v, lastWrite_mem hl⟩)]
        exact q2 k v hl
    · intro i j w w' k hi hj q1 q2
      have hno : ∀ (n : Nat) u, y.tasks[n]? = some (Task.sync u) → (∃ v, (k, v) ∈ u) → (∃ v, (k, v) ∈ ws) → False := by
        rintro n u hn hu ⟨v, hv⟩
        exact hx k v hv (Or.inl ⟨u, List.mem_of_getElem? hn, hu⟩)
      cases i with
      | zero =>
        cases j with
        | zero => rfl
        | succ j =>
          injection hi with hi; injection hi with hi; subst hi
          exact (hno j w' hj q2 q1).elim
      | succ i =>
        cases j with
        | zero =>
          injection hj with hj; injection hj with hj; subst hj
          exact (hno i w hi q1 q2).elim
        | succ j => rw [h.apart i j w w' k hi hj q1 q2]

theorem inv_finish (C : Codec K V B) (hC : RoundTrips C) (y : Sys K V B) (h : Inv C y) (i : Nat) :
    Inv C (micro C y (.finish i)) := by
  simp only [micro]
  cases ht : y.tasks[i]? with
  | none => exact h
  | some t =>
    dsimp only
    have hmem : ∀ u, u ∈ y.tasks.eraseIdx i → u ∈ y.tasks := fun u => List.mem_of_mem_eraseIdx
    have hdb : (finish y.st t).db = y.st.db := by cases t <;> rfl
    refine ⟨fun k hk => ?_, ?_, ?_, ?_⟩
    · dsimp only at hk ⊢
      have writing_of : ∀ n w, y.tasks[n]? = some (Task.sync w) → n ≠ i → (∃ v, (k, v) ∈ w) → False := by
        intro n w hn hni hw
        refine hk ⟨w, ?_, hw⟩
        rw [List.mem_eraseIdx_iff_getElem?]
        exact ⟨n, hni, hn⟩
      cases t with
      | fill k' v =>
        have hk2 : ¬ Writing y.tasks k := by
          rintro ⟨w, q1, q2⟩
          obtain ⟨n, hn⟩ := List.getElem?_of_mem q1
          refine writing_of n w hn ?_ q2
          rintro rfl
          rw [ht] at hn; cases hn
        intro v' hv'
        change upd y.st.cache k' (some v) k = some v' at hv'
        by_cases hkk : k = k'
        · subst hkk
          rw [upd_self] at hv'
          injection hv' with hv'
          subst hv'
          exact h.fill k v (List.mem_of_getElem? ht)
        · rw [upd_ne _ _ hkk] at hv'
          exact h.agree k hk2 v' hv'
      | sync ws =>
        obtain ⟨q1, q2⟩ := h.sync ws (List.mem_of_getElem? ht)
        refine sync_agrees C hC ws y.st k q1 (fun v hv => q2 k v hv) ?_
        intro hl
        refine h.agree k ?_
        rintro ⟨w, q3, q4⟩
        obtain ⟨n, hn⟩ := List.getElem?_of_mem q3
        refine writing_of n w hn ?_ q4
        rintro rfl
        rw [ht] at hn
        injection hn with hn
        injection hn with hn
        subst hn
        obtain ⟨v, hv⟩ := q4
        exact lastWrite_none hl v hv
    · intro k v hm
      dsimp only; rw [hdb]
      exact h.fill k v (hmem _ hm)
    · intro w hm
      dsimp only; rw [hdb]
      exact h.sync w (hmem _ hm)
    · intro a b w w' k ha hb q1 q2
      dsimp only at ha hb
      rw [List.getElem?_eraseIdx] at ha hb
      by_cases h1 : a < i <;> by_cases h2 : b < i
      · rw [if_pos h1] at ha; rw [if_pos h2] at hb
        exact h.apart a b w w' k ha hb q1 q2
      · rw [if_pos h1] at ha; rw [if_neg h2] at hb
        have := h.apart a (b + 1) w w' k ha hb q1 q2
        omega
      · rw [if_neg h1] at ha; rw [if_pos h2] at hb
        have := h.apart (a + 1) b w w' k ha hb q1 q2
        omega
      · rw [if_neg h1] at ha; rw [if_neg h2] at hb
        have := h.apart (a + 1) (b + 1) w w' k ha hb q1 q2
        omega

theorem inv_evict (C : Codec K V B) (y : Sys K V B) (h : Inv C y) (k : K) : Inv C (micro C y (.evict k)) := by
  refine ⟨fun k' hk' v hv => ?_, h.fill, h.sync, h.apart⟩
  change upd y.st.cache k none k' = some v at hv
  by_cases hk : k' = k
  · subst hk; rw [upd_self] at hv; cases hv
  · rw [upd_ne _ _ hk] at hv; exact h.agree k' hk' v hv

theorem inv_run (C : Codec K V B) (hC : RoundTrips C) (y : Sys K V B) (h : Inv C y)
    (ms : List (Micro K V)) (hx : Spec.exclusive C y ms = true) : Inv C (runMicro C y ms) := by
  induction ms generalizing y with
  | nil => exact h
  | cons m ms ih =>
    unfold Spec.exclusive at hx
    rw [Bool.and_eq_true] at hx
    obtain ⟨h1, h2⟩ := hx
    refine ih _ ?_ h2
    cases m with
    | get k => exact inv_get C y h k
    | write ws io =>
      refine inv_write C y h ws io fun k v hm ht => ?_
      unfold Spec.polite at h1
      have := List.all_eq_true.1 h1 _ hm
      rw [touched_of _ _ ht] at this
      cases this
    | finish i => exact inv_finish C hC y h i
    | evict k => exact inv_evict C y h k

end Fastroll.CachedDb
