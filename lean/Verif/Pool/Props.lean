import Verif.Pool.Lemmas2

/-
C75: the pool of extrinsics keeps what it accepts, and threads that share it see one order of
calls; but it lists an entry as often as it was added, and an addition and a query can block each
other for ever.
-/
namespace Fastroll.Pool

/-- Whatever is called in whatever order, a pool answers as a log of the additions it accepted:
an addition is refused exactly when as many different hashes were accepted as the pool may hold,
and a query lists, in the order of acceptance, what was accepted for the type and slot. -/
theorem C75_log (max : Nat) (os : List Op) :
    (calls max empty os).2 = (answers max [] os).2 :=
  (Rep.nil.calls max os).2

/-- The pool never holds more entries than it may, and holds one for every accepted hash. -/
theorem C75_bound (max : Nat) (os : List Op) :
    (calls max empty os).1.extrinsics.length ≤ max ∧
    (calls max empty os).1.extrinsics.length = distinct (accepted max os) := by
  have key : ∀ l : Log, distinct l ≤ max → distinct (answers max l os).1 ≤ max := by
    induction os with
    | nil => exact fun l h => h
    | cons o os ih =>
      intro l h
      refine ih _ ?_
      cases o with
      | query ty slot => exact h
      | add e slot =>
        simp only [answer]
        split
        · exact h
        · simp only [distinct_append]
          split <;> omega
  have h := (Rep.nil.calls max os).1.len
  exact ⟨by rw [h]; exact key [] (Nat.zero_le _), h⟩

/-- As long as no two different accepted entries have the same hash, a query returns exactly the
accepted entries of the type and slot, in order, one for each time they were accepted. -/
theorem C75_exact (max : Nat) (os : List Op) (ty slot : Nat)
    (hash : ∀ a ∈ accepted max os, ∀ b ∈ accepted max os,
      a.1.hash = b.1.hash → a.1 = b.1) :
    query (calls max empty os).1 ty slot =
      ((accepted max os).filter fun a => a.1.ty = ty ∧ a.2 = slot).map (·.1) := by
  have h := (Rep.nil.calls max os).1
  have h1 := (h.call max (.query ty slot)).2
  simp only [call, answer, Ans.entries.injEq] at h1
  rw [h1, lookup]
  have key : ∀ a ∈ accepted max os, latest (accepted max os) a.1.hash = some a.1 := by
    intro a ha
    have h2 := latest_isSome (accepted max os) a.1.hash
    rw [decide_eq_true (List.mem_map_of_mem ha), Option.isSome_iff_exists] at h2
    obtain ⟨e, he⟩ := h2
    have h3 := he
    simp only [latest, Option.map_eq_some_iff] at h3
    obtain ⟨b, hb, rfl⟩ := h3
    have h4 := List.find?_some hb
    have h5 := List.mem_reverse.mp (List.mem_of_find?_eq_some hb)
    rw [he, hash b h5 a ha (of_decide_eq_true h4)]
  rw [← List.filterMap_eq_map]
  apply filterMap_congr'
  intro a ha
  exact key a (List.mem_filter.mp ha).1

/-- The pool does not recognise what it already has: an entry added `n` times is listed `n` times,
and its index grows with every repetition although the pool holds one entry. -/
theorem C75_repeats (max n : Nat) (h : 2 ≤ max) (e : Entry) (slot : Nat) :
    (calls max empty (List.replicate n (.add e slot) ++ [.query e.ty slot])).2 =
      List.replicate n .added ++ [.entries (List.replicate n e)] ∧
    (calls max empty (List.replicate n (.add e slot))).1.extrinsics.length ≤ 1 := by
  have key : answers max [] (List.replicate n (.add e slot)) =
      (List.replicate n (e, slot), List.replicate n .added) ∧
      distinct (List.replicate n (e, slot)) ≤ 1 ∧
      latest (List.replicate n (e, slot)) e.hash = if n = 0 then none else some e := by
    have app : ∀ (l : Log) (os : List Op) (o : Op), answers max l (os ++ [o]) =
        ((answer max (answers max l os).1 o).1,
          (answers max l os).2 ++ [(answer max (answers max l os).1 o).2]) := by
      intro l os o
      induction os generalizing l with
      | nil => rfl
      | cons a os ih => simp [answers, ih]
    induction n with
    | zero => exact ⟨rfl, Nat.zero_le _, rfl⟩
    | succ n ih =>
      rw [List.replicate_succ', app, ih.1]
      simp only [answer]
      rw [if_neg (by omega)]
      refine ⟨by rw [← List.replicate_succ', ← List.replicate_succ'], ?_, ?_⟩
      · rw [List.replicate_succ', distinct_append, ih.2.2]
        by_cases hn : n = 0
        · subst hn; simp [distinct]
        · simp [hn]; exact ih.2.1
      · rw [List.replicate_succ', latest_append]
        simp
  have hlook : lookup (List.replicate n (e, slot)) e.ty slot = List.replicate n e := by
    unfold lookup
    rw [List.filter_eq_self.mpr (by
      intro a ha
      rw [List.eq_of_mem_replicate ha]
      simp)]
    rw [show List.replicate n e = (List.replicate n (e, slot)).map (·.1) by simp,
      ← List.filterMap_eq_map]
    apply filterMap_congr'
    intro a ha
    have hn : n ≠ 0 := by
      rintro rfl
      simp at ha
    rw [List.eq_of_mem_replicate ha]
    simp only [key.2.2, if_neg hn]
    rfl
  constructor
  · rw [calls_append]
    have h1 := Rep.nil.calls max (List.replicate n (.add e slot))
    have h2 := h1.1.call max (.query e.ty slot)
    rw [h1.2, h2.2, key.1]
    simp only [answer, hlook]
  · rw [(Rep.nil.calls max _).1.len, key.1]
    exact key.2.1

/-- However many threads add and query at the same time, and whichever lock the queries take
first, the calls have an order in which, one after another, they give every answer returned; and
it respects time: the order of a longer run continues that of a shorter one, so a call that
returned before another began comes first. -/
theorem C75_linear (o : Bool) (max : Nat) (op : Nat → Op) (ts us : List Nat) (s s' : St)
    (h : runs o max op init ts = some s) (h' : runs o max op s us = some s') :
    ∃ lin more, Explains max op s lin ∧ Explains max op s' (lin ++ more) := by
  have key : ∀ s lin, Inv o max op s lin → Explains max op s lin := by
    intro s lin hI
    have hR := Rep.nil.calls max (lin.map op)
    refine ⟨hI.nodup, ?_, ?_, ?_, ?_⟩
    · intro t a ht
      rw [hI.mem, ht]
      rfl
    · intro t ht hs
      have := (hI.mem t).mp ht
      rw [hs] at this
      simp [ansOf] at this
    · intro i t a hi ht
      have h1 := congrArg (·[i]?) hI.ans
      simp only [List.getElem?_map, hi, Option.map_some, ht, ansOf] at h1
      rw [hR.2] at h1
      simpa [Option.map_eq_some_iff] using h1
    · intro hq os
      have hd := hI.data (fun t ht => by
        rcases hq t with g | ⟨a, g⟩ <;> rw [g] at ht <;> simp at ht)
      rw [hd]
      exact (hR.1.calls max os).2
  obtain ⟨lin, h1⟩ := (Inv.init o max op).runs h
  obtain ⟨more, h2⟩ := h1.runs h'
  exact ⟨[] ++ lin, more, key _ _ h1, key _ _ h2⟩

/-- An addition and a query can block each other for ever, whatever they add and ask for: after
each has taken its first lock, neither ever returns, the pool never changes again, and no call
that had not begun ever returns. -/
theorem C75_deadlock (max : Nat) (op : Nat → Op) (i j : Nat) (e : Entry) (slot ty slot' : Nat)
    (hi : op i = .add e slot) (hj : op j = .query ty slot') :
    ∃ s, runs true max op init [i, j] = some s ∧
      ∀ ts s', runs true max op s ts = some s' →
        s'.data = empty ∧ ∀ t a, s'.pc t ≠ .done a := by
  have hij : i ≠ j := by
    rintro rfl
    rw [hi] at hj
    simp at hj
  have h1 : ∃ s, runs true max op init [i, j] = some s ∧ Stuck s i j ∧ s.data = empty ∧
      ∀ u, s.pc u = .start ∨ s.pc u = .one := by
    have h3 : upd (fun _ => Pc.start) i Pc.one j = Pc.start := if_neg (Ne.symm hij)
    simp only [runs, step, init, hi, hj, h3, first, acquire, Lock.canWrite, Lock.canRead, St.set,
      St.move, Option.isNone_none, List.isEmpty_nil, Bool.and_self, if_true, Option.map_some,
      Option.bind_some]
    refine ⟨_, rfl, ?_⟩
    simp only [Stuck, upd]
    refine ⟨⟨by simp [hij], by simp⟩, trivial, ?_⟩
    intro u
    split
    · exact .inr rfl
    · split
      · exact .inr rfl
      · exact .inl rfl
  obtain ⟨s, h2, h3, h4, h5⟩ := h1
  refine ⟨s, h2, ?_⟩
  intro ts s' h6
  obtain ⟨lin, hI⟩ := (Inv.init true max op).runs h2
  obtain ⟨_, h7, h8⟩ := h3.runs hI (by rw [hi]; rfl) (by rw [hj]; rfl) h6
  refine ⟨h7.trans h4, ?_⟩
  intro t a ht
  rcases h8 t (h5 t) with g | g <;> rw [ht] at g <;> simp at g

/-- Nothing else can block the pool: if there are only additions, or only queries, or if queries
took the locks in the order of additions, then as long as somebody has not returned, somebody can
move. -/
theorem C75_progress_partial (o : Bool) (max : Nat) (op : Nat → Op) (ts : List Nat) (s : St)
    (h : runs o max op init ts = some s)
    (ho : o = false ∨ (∀ t, ∃ e slot, op t = .add e slot) ∨ (∀ t, ∃ ty slot, op t = .query ty slot))
    (t : Nat) (ht : ∀ a, s.pc t ≠ .done a) :
    ∃ u, step o max op s u ≠ none := by
  obtain ⟨lin, hI⟩ := (Inv.init o max op).runs h
  rcases ho with rfl | ho | ho
  · refine hI.locks.progress (fun t => ?_) ⟨t, ht⟩
    cases op t <;> rfl
  · refine hI.locks.progress (fun t => ?_) ⟨t, ht⟩
    obtain ⟨e, slot, h1⟩ := ho t
    rw [h1]
    rfl
  · refine ⟨t, hI.locks.queries (fun t => ?_) ht⟩
    obtain ⟨ty, slot, h1⟩ := ho t
    rw [h1]
    rfl

namespace Ex

/-- Three entries; the third is refused, the second has its own type. -/
def ops : List Op := [.add ⟨7, 70, 0⟩ 1, .add ⟨8, 80, 1⟩ 1, .add ⟨9, 90, 0⟩ 1, .query 0 1, .query 1 1,
  .query 1 2]

example : (calls 2 empty ops).2 =
    [.added, .added, .full, .entries [⟨7, 70, 0⟩], .entries [⟨8, 80, 1⟩], .entries []] := by decide

example : ∀ a ∈ accepted 2 ops, ∀ b ∈ accepted 2 ops, a.1.hash = b.1.hash → a.1 = b.1 := by decide

/-- Adders and a reader at the same time. -/
def op : Nat → Op
  | 0 => .add ⟨7, 70, 0⟩ 1
  | 1 => .query 0 1
  | _ => .add ⟨8, 80, 0⟩ 1

/-- A run in which the query waits for one addition and the other waits for the query. -/
def sched : List Nat := [0, 0, 0, 0, 0, 0, 1, 0, 1, 1, 1, 1, 2, 2, 2]

example : ((runs true 5 op init sched).map fun s => (s.pc 0, s.pc 1, s.pc 2)) =
    some (.done .added, .done (.entries [⟨7, 70, 0⟩]), .store) := by decide

/-- The deadlock. -/
example : ((runs true 5 op init [0, 1]).map fun s =>
    ((step true 5 op s 0).isNone, (step true 5 op s 1).isNone)) = some (true, true) := by decide

/-- With the other order of locks the query waits before it takes one. -/
example : ((runs false 5 op init [0]).map fun s =>
    ((step false 5 op s 0).isNone, (step false 5 op s 1).isNone)) = some (false, true) := by decide

end Ex

end Fastroll.Pool
