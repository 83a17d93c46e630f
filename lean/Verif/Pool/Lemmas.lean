import Verif.Pool.Spec

/-
Lemmas about the pool: the maps against the log, and the invariant of the threads.
-/
namespace Fastroll.Pool

theorem get_put {K V : Type} [DecidableEq K] (m : List (K × V)) (k k' : K) (v : V) :
    get (put m k v) k' = if k = k' then some v else get m k' := by
  induction m with
  | nil => simp [put, get]
  | cons p m ih =>
    obtain ⟨a, b⟩ := p
    simp only [put]
    split <;> simp only [get] <;> grind

theorem length_put {K V : Type} [DecidableEq K] (m : List (K × V)) (k : K) (v : V) :
    (put m k v).length = if (get m k).isSome then m.length else m.length + 1 := by
  induction m with
  | nil => simp [put, get]
  | cons p m ih =>
    obtain ⟨a, b⟩ := p
    simp only [put, get]
    split <;> grind

theorem latest_append (l : Log) (e : Entry) (slot h : Nat) :
    latest (l ++ [(e, slot)]) h = if e.hash = h then some e else latest l h := by
  simp only [latest, List.reverse_append, List.reverse_cons, List.reverse_nil, List.nil_append,
    List.cons_append, List.find?_cons]
  split <;> grind

theorem latest_isSome (l : Log) (h : Nat) :
    (latest l h).isSome = decide (h ∈ l.map (·.1.hash)) := by
  rw [Bool.eq_iff_iff]
  simp only [latest, Option.isSome_map, List.find?_isSome, List.mem_reverse, decide_eq_true_eq,
    List.mem_map]

theorem distinct_append (l : Log) (e : Entry) (slot : Nat) :
    distinct (l ++ [(e, slot)]) =
      if (latest l e.hash).isSome then distinct l else distinct l + 1 := by
  simp only [distinct, List.map_append, List.map_cons, List.map_nil, List.eraseDups_append,
    List.length_append, latest_isSome, decide_eq_true_eq]
  split
  · next h => simp [List.removeAll, h]
  · next h => simp [List.removeAll, h, List.eraseDups_cons]

theorem filterMap_congr' {A B : Type} {f g : A → Option B} {l : List A}
    (h : ∀ a ∈ l, f a = g a) : l.filterMap f = l.filterMap g := by
  induction l with
  | nil => rfl
  | cons a l ih =>
    simp only [List.filterMap_cons, h a (by simp), ih fun b hb => h b (by simp [hb])]

/-- The maps hold what the log says. -/
structure Rep (d : Data) (l : Log) : Prop where
  main : ∀ h, get d.extrinsics h = latest l h
  idx : ∀ ty slot, (get d.index (ty, slot)).getD [] =
    (l.filter fun a => a.1.ty = ty ∧ a.2 = slot).map (·.1.hash)
  len : d.extrinsics.length = distinct l

theorem Rep.nil : Rep empty [] := ⟨fun _ => rfl, fun _ _ => rfl, rfl⟩

theorem Rep.add {d : Data} {l : Log} (h : Rep d l) (e : Entry) (slot : Nat) :
    Rep (note (store d e) e slot) (l ++ [(e, slot)]) where
  main k := by
    simp only [note, store, get_put, latest_append, h.main]
  idx ty s := by
    simp only [note, store, get_put, List.filter_append, List.map_append]
    rw [h.idx, ← h.idx ty s]
    by_cases hk : (e.ty, slot) = (ty, s)
    · obtain ⟨rfl, rfl⟩ := Prod.mk.inj hk
      simp [h.idx]
    · rw [if_neg hk]
      have : ¬ (e.ty = ty ∧ slot = s) := fun ⟨a, b⟩ => hk (by rw [a, b])
      simp [this]
  len := by
    simp only [note, store, length_put, h.main, distinct_append, h.len]

theorem query_eq (d : Data) (ty slot : Nat) :
    query d ty slot = ((get d.index (ty, slot)).getD []).filterMap (get d.extrinsics) := by
  unfold query
  split <;> simp_all

theorem Rep.call {d : Data} {l : Log} (h : Rep d l) (max : Nat) (o : Op) :
    Rep (call max d o).1 (answer max l o).1 ∧ (call max d o).2 = (answer max l o).2 := by
  cases o with
  | add e slot =>
    simp only [Pool.call, answer, full, h.len, decide_eq_true_eq]
    split
    · exact ⟨h, rfl⟩
    · exact ⟨h.add e slot, rfl⟩
  | query ty slot =>
    refine ⟨h, ?_⟩
    simp only [Pool.call, answer, lookup, query_eq, h.idx, List.filterMap_map]
    congr 1
    congr 1
    funext a
    exact h.main _

theorem Rep.calls {d : Data} {l : Log} (h : Rep d l) (max : Nat) (os : List Op) :
    Rep (calls max d os).1 (answers max l os).1 ∧ (calls max d os).2 = (answers max l os).2 := by
  induction os generalizing d l with
  | nil => exact ⟨h, rfl⟩
  | cons o os ih =>
    have h1 := h.call max o
    have h2 := ih h1.1
    simp only [Pool.calls, answers]
    exact ⟨h2.1, by rw [h1.2, h2.2]⟩

theorem calls_append (max : Nat) (d : Data) (os : List Op) (o : Op) :
    calls max d (os ++ [o]) = ((call max (calls max d os).1 o).1,
      (calls max d os).2 ++ [(call max (calls max d os).1 o).2]) := by
  induction os generalizing d with
  | nil => simp [Pool.calls]
  | cons a os ih => simp [Pool.calls, ih]

/-! The locks. -/

/-- The call is an addition. -/
def isAdd : Op → Bool
  | .add _ _ => true
  | .query _ _ => false

/-- A thread holds lock `b`. -/
def hold (o : Bool) (op : Op) (p : Pc) (b : Bool) : Bool :=
  match p with
  | .start | .done _ => false
  | .one | .unlock' _ => b == first o op
  | _ => true

/-- The locks are held by the threads that are inside. -/
structure Locks (o : Bool) (op : Nat → Op) (s : St) : Prop where
  w : ∀ b t, (s.lock b).writer = some t ↔
    (isAdd (op t) = true ∧ hold o (op t) (s.pc t) b = true)
  r : ∀ b t, t ∈ (s.lock b).readers ↔
    (isAdd (op t) = false ∧ hold o (op t) (s.pc t) b = true)
  n : ∀ b, (s.lock b).readers.Nodup
  x : ∀ b, (s.lock b).writer ≠ none → (s.lock b).readers = []

theorem Locks.excl {o : Bool} {op : Nat → Op} {s : St} (h : Locks o op s) {b : Bool} {t u : Nat}
    (ha : isAdd (op t) = true) (ht : hold o (op t) (s.pc t) b = true)
    (hu : hold o (op u) (s.pc u) b = true) : u = t := by
  have h1 := (h.w b t).mpr ⟨ha, ht⟩
  cases hb : isAdd (op u) with
  | true =>
    have h2 := (h.w b u).mpr ⟨hb, hu⟩
    rw [h1] at h2
    exact (Option.some.inj h2).symm
  | false =>
    have h2 := (h.r b u).mpr ⟨hb, hu⟩
    rw [h.x b (by rw [h1]; simp)] at h2
    simp at h2

theorem Locks.same {o : Bool} {op : Nat → Op} {s : St} (h : Locks o op s) (d : Data) (t : Nat)
    (p : Pc) (hp : ∀ b, hold o (op t) p b = hold o (op t) (s.pc t) b) :
    Locks o op (St.move { s with data := d } t p) := by
  refine ⟨fun b u => ?_, fun b u => ?_, h.n, h.x⟩
  · rw [show ((St.move { s with data := d } t p).lock b).writer = (s.lock b).writer from rfl, h.w]
    simp only [St.move, upd]
    split
    · next hu => rw [hu, hp]
    · rfl
  · rw [show ((St.move { s with data := d } t p).lock b).readers = (s.lock b).readers from rfl, h.r]
    simp only [St.move, upd]
    split
    · next hu => rw [hu, hp]
    · rfl

theorem Locks.take {o : Bool} {op : Nat → Op} {s : St} (h : Locks o op s) {b : Bool} {t : Nat}
    {l : Lock} {p : Pc} (ha : acquire (s.lock b) t (op t) = some l)
    (h0 : hold o (op t) (s.pc t) b = false)
    (h1 : hold o (op t) p b = true)
    (h2 : hold o (op t) p (!b) = hold o (op t) (s.pc t) (!b)) :
    Locks o op ((s.set b l).move t p) := by
  have hw := h.w
  have hr := h.r
  have hn := h.n
  have hx := h.x
  cases hop : op t with
  | add e slot =>
    rw [hop] at h0 h1 h2
    simp only [acquire, hop, Lock.canWrite] at ha
    obtain ⟨hc, ha⟩ := (Option.ite_none_right_eq_some).mp ha
    simp only [Bool.and_eq_true, Option.isNone_iff_eq_none, List.isEmpty_iff] at hc
    · cases ha
      have hA : isAdd (op t) = true := by rw [hop]; rfl
      refine ⟨fun c u => ?_, fun c u => ?_, fun c => ?_, fun c => ?_⟩ <;>
        simp only [St.move, St.set, upd] <;>
        (try have hwc := hw c u) <;> (try have hrc := hr c u) <;> (have hxc := hx c) <;> (have hnc := hn c) <;>
        cases b <;> cases c <;> grind
  | query ty slot =>
    rw [hop] at h0 h1 h2
    simp only [acquire, hop, Lock.canRead] at ha
    obtain ⟨hc, ha⟩ := (Option.ite_none_right_eq_some).mp ha
    simp only [Bool.and_eq_true, Option.isNone_iff_eq_none, List.isEmpty_iff] at hc
    · cases ha
      have hA : isAdd (op t) = false := by rw [hop]; rfl
      refine ⟨fun c u => ?_, fun c u => ?_, fun c => ?_, fun c => ?_⟩ <;>
        simp only [St.move, St.set, upd] <;>
        (try have hwc := hw c u) <;> (try have hrc := hr c u) <;> (have hrt := hr c t) <;>
        (have hxc := hx c) <;> (have hnc := hn c) <;>
        cases b <;> cases c <;> grind

theorem Locks.drop {o : Bool} {op : Nat → Op} {s : St} (h : Locks o op s) {b : Bool} {t : Nat}
    {p : Pc} (h0 : hold o (op t) (s.pc t) b = true)
    (h1 : hold o (op t) p b = false)
    (h2 : hold o (op t) p (!b) = hold o (op t) (s.pc t) (!b)) :
    Locks o op ((s.set b (release (s.lock b) t (op t))).move t p) := by
  have hw := h.w
  have hr := h.r
  have hn := h.n
  have hx := h.x
  cases hop : op t with
  | add e slot =>
    rw [hop] at h0 h1 h2
    have hA : isAdd (op t) = true := by rw [hop]; rfl
    have hwt := (hw b t).mpr ⟨hA, by rw [hop]; exact h0⟩
    refine ⟨fun c u => ?_, fun c u => ?_, fun c => ?_, fun c => ?_⟩ <;>
      simp only [St.move, St.set, upd, release] <;>
      (try have hwc := hw c u) <;> (try have hrc := hr c u) <;> (have hxc := hx c) <;>
      (have hnc := hn c) <;>
      cases b <;> cases c <;> grind
  | query ty slot =>
    rw [hop] at h0 h1 h2
    have hA : isAdd (op t) = false := by rw [hop]; rfl
    refine ⟨fun c u => ?_, fun c u => ?_, fun c => ?_, fun c => ?_⟩ <;>
      simp only [St.move, St.set, upd, release] <;>
      (try have hwc := hw c u) <;> (try have hrc := hr c u) <;>
      (have hxc := hx c) <;> (have hnc := hn c) <;>
      cases b <;> cases c <;> grind [List.Nodup.mem_erase_iff, List.Nodup.erase]

end Fastroll.Pool
