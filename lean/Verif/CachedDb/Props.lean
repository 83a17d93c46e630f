import Verif.CachedDb.Lemmas
/-
C31: the database write-through cache is coherent.
-/
namespace Fastroll.CachedDb
variable {K V B : Type} [DecidableEq K]

/-- A codec for the examples: values are stored shifted, and values above 100 cannot be encoded. -/
def exCodec : Codec Nat Nat Nat where
  enc := fun v => if v ≤ 100 then some (v + 7) else none
  dec := fun _ b => if 7 ≤ b then some (b - 7) else none

theorem exCodec_roundTrips : RoundTrips exCodec := by
  intro k v b h
  unfold exCodec at h ⊢
  dsimp only at h ⊢
  by_cases hv : v ≤ 100
  · rw [if_pos hv] at h
    injection h with h
    subst h
    rw [if_pos (by omega), Nat.add_sub_cancel]
  · rw [if_neg hv] at h; cases h

/-- A column family with one good entry and one that does not decode. -/
def exDb : Nat → Option Nat := fun k => if k = 1 then some 17 else if k = 2 then some 3 else none

/-- A history for the examples. -/
def exOps : List (Op Nat Nat) :=
  [.get 1, .get 2, .put 2 5 true, .get 2, .evict 2, .get 2, .batch [(1, none), (3, some 9), (3, some 11)] true,
   .get 1, .get 3, .put 4 200 true, .put 1 6 false, .get 1, .delete 3 true, .get 3]

/-- **C31** Through every history of reads, puts, deletes, batches, failed writes and evictions, from
any stored content and an empty cache, every answer is the one of the database without a cache, and the
database holds the same content. -/
theorem C31_coherent (C : Codec K V B) (hC : RoundTrips C) (db : K → Option B) (os : List (Op K V)) :
    (run C ⟨db, fun _ => none⟩ os).1 = (Spec.run C db os).1 ∧
    (run C ⟨db, fun _ => none⟩ os).2.db = (Spec.run C db os).2 := by
  have := run_spec C hC ⟨db, fun _ => none⟩ (fun k v hv => (by cases hv)) os
  exact ⟨this.1, this.2.1⟩

example : (run exCodec ⟨exDb, fun _ => none⟩ exOps).1 =
    [.value (some 10), .err .codec, .done, .value (some 5), .done, .value (some 5), .done,
     .value none, .value (some 11), .err .codec, .err .io, .value none, .done, .value none] ∧
    RoundTrips exCodec := ⟨by decide +kernel, exCodec_roundTrips⟩

/-- **C31** A read after a write that succeeded returns that write, whatever reads, evictions and
failed writes come between. -/
theorem C31_read_last_write (C : Codec K V B) (hC : RoundTrips C) (db : K → Option B)
    (os os' : List (Op K V)) (k : K) (v : V) (he : (C.enc v).isSome = true)
    (hq : ∀ o ∈ os', ∃ k', o = .get k' ∨ o = .evict k' ∨ (∃ w, o = .put k' w false) ∨ o = .delete k' false) :
    (step C (run C ⟨db, fun _ => none⟩ (os ++ .put k v true :: os')).2 (.get k)).1 = .value (some v) := by
  obtain ⟨b, hb⟩ := Option.isSome_iff_exists.1 he
  have hall := run_spec C hC ⟨db, fun _ => none⟩ (fun k v hv => (by cases hv)) (os ++ .put k v true :: os')
  have happ : ∀ (l : List (Op K V)) (d : K → Option B),
      (Spec.run C d (l ++ .put k v true :: os')).2 = (Spec.run C (Spec.run C d l).2 (.put k v true :: os')).2 := by
    intro l
    induction l with
    | nil => intro d; rfl
    | cons o l ih => intro d; rw [List.cons_append, Spec.run, Spec.run]; exact ih _
  have hkeep : ∀ (l : List (Op K V)) (d : K → Option B),
      (∀ o ∈ l, ∃ k', o = .get k' ∨ o = .evict k' ∨ (∃ w, o = .put k' w false) ∨ o = .delete k' false) →
      (Spec.run C d l).2 = d := by
    intro l
    induction l with
    | nil => intro d _; rfl
    | cons o l ih =>
      intro d hl
      rw [Spec.run]
      dsimp only
      rw [ih _ (fun o ho => hl o (List.mem_cons_of_mem _ ho))]
      obtain ⟨k', h⟩ := hl o (List.mem_cons_self ..)
      rcases h with h | h | ⟨w, h⟩ | h
      · subst h; rfl
      · subst h; rfl
      · subst h
        show (Spec.write C d [(k', some w)] false).2 = d
        unfold Spec.write
        split
        · rfl
        · rfl
      · subst h
        show (Spec.write C d [(k', none)] false).2 = d
        unfold Spec.write
        split
        · rfl
        · rfl
  have hdb : (run C ⟨db, fun _ => none⟩ (os ++ .put k v true :: os')).2.db k = some b := by
    rw [hall.2.1, happ os db, Spec.run]
    dsimp only
    rw [hkeep os' _ hq]
    show (Spec.write C _ [(k, some v)] true).2 k = some b
    unfold Spec.write
    have h1 : Spec.encodable C [(k, some v)] = true := by simp [Spec.encodable, hb]
    rw [h1, if_neg (by decide)]
    show Spec.after C _ [(k, some v)] k = some b
    simp [Spec.after, Spec.lastWrite, hb]
  have hg := (getStart_spec C _ k (hall.2.2 k)).1
  show Out.ofGet (getStart C _ k).1 = _
  rw [hg]
  unfold Spec.read
  rw [hdb]
  dsimp only
  rw [hC k v b hb]

example : (step exCodec (run exCodec ⟨exDb, fun _ => none⟩
    ([.get 1] ++ .put 1 42 true :: [.evict 1, .put 1 43 false, .get 1, .get 2])).2 (.get 1)).1 = .value (some 42) :=
  C31_read_last_write exCodec exCodec_roundTrips exDb [.get 1] [.evict 1, .put 1 43 false, .get 1, .get 2] 1 42 rfl
    (by intro o ho
        simp only [List.mem_cons, List.not_mem_nil, or_false] at ho
        rcases ho with rfl | rfl | rfl | rfl
        · exact ⟨1, Or.inr (Or.inl rfl)⟩
        · exact ⟨1, Or.inr (Or.inr (Or.inl ⟨43, rfl⟩))⟩
        · exact ⟨1, Or.inl rfl⟩
        · exact ⟨2, Or.inl rfl⟩)

/-- **C31** Concurrent callers: if nobody starts to write a key while another operation on that key is
under way, then at every moment each key that is not just being written agrees with the database. -/
theorem C31_exclusive_schedules (C : Codec K V B) (hC : RoundTrips C) (db : K → Option B)
    (ms : List (Micro K V)) (hx : Spec.exclusive C ⟨⟨db, fun _ => none⟩, []⟩ ms = true) (k : K)
    (hk : Spec.writing (runMicro C ⟨⟨db, fun _ => none⟩, []⟩ ms).tasks k = false) :
    Out.ofGet (getStart C (runMicro C ⟨⟨db, fun _ => none⟩, []⟩ ms).st k).1 =
      Spec.read C (runMicro C ⟨⟨db, fun _ => none⟩, []⟩ ms).st.db k := by
  have h0 : Inv C (⟨⟨db, fun _ => none⟩, []⟩ : Sys K V B) :=
    ⟨fun k _ v hv => (by cases hv), fun k v hm => (by cases hm), fun ws hm => (by cases hm),
     fun i j ws ws' k hi => (by simp at hi)⟩
  exact (getStart_spec C _ k ((inv_run C hC _ h0 ms hx).agree k (fun hw => by rw [(writing_iff _ k).2 hw] at hk; cases hk))).1

/-- A schedule for the example. -/
def exMicro : List (Micro Nat Nat) :=
  [.get 1, .write [(2, some 5)] true, .finish 1, .evict 1, .get 2, .finish 0, .finish 0, .write [(1, none)] true, .get 2]

example : Spec.exclusive exCodec ⟨⟨exDb, fun _ => none⟩, []⟩ exMicro = true ∧
    Spec.writing (runMicro exCodec ⟨⟨exDb, fun _ => none⟩, []⟩ exMicro).tasks 2 = false ∧
    Spec.writing (runMicro exCodec ⟨⟨exDb, fun _ => none⟩, []⟩ exMicro).tasks 1 = true ∧
    Out.ofGet (getStart exCodec (runMicro exCodec ⟨⟨exDb, fun _ => none⟩, []⟩ exMicro).st 2).1 = .value (some 5) := by
  decide +kernel

/-- **C31** (violated under concurrency) A read that missed the cache and is overtaken by a write of the
same key puts the old value into the cache after the write has finished: from then on, with nothing under
way, reads return the old value although the database holds the new one. -/
theorem C31_overtaken_read_goes_stale :
    let y := runMicro exCodec ⟨⟨exDb, fun _ => none⟩, []⟩
      [.get 1, .write [(1, some 42)] true, .finish 0, .finish 0]
    y.tasks = [] ∧ Spec.read exCodec y.st.db 1 = .value (some 42) ∧
    (getStart exCodec y.st 1).1 = .ok (some 10) := by
  exact ⟨by decide +kernel, by decide +kernel, by rfl⟩

/-- **C31** (violated under concurrency) Two writes of one key whose cache updates happen in the other
order than their database writes leave the cache with the first value. -/
theorem C31_crossed_writes_go_stale :
    let y := runMicro exCodec ⟨⟨exDb, fun _ => none⟩, []⟩
      [.write [(1, some 41)] true, .write [(1, some 42)] true, .finish 0, .finish 0]
    y.tasks = [] ∧ Spec.read exCodec y.st.db 1 = .value (some 42) ∧
    (getStart exCodec y.st 1).1 = .ok (some 41) := by
  exact ⟨by decide +kernel, by decide +kernel, by rfl⟩

end Fastroll.CachedDb
