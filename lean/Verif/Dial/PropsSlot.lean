import Verif.Dial.SlotLemmas
/-
C79: the stream handles of a peer when several connections to it are made at once.
-/
namespace Fastroll.Dial

/-- All connections stored so far have their stream: each stored one is followed by the insertion of its handle. -/
def Complete (ops : List SlotOp) : Prop := ∀ pre i post, ops = pre ++ .store i :: post → .insert i ∈ post

/-! ### The properties -/

/-- **C79**: whatever the interleaving of any number of connections, once each stored connection has its stream the entry
has the connection stored last and the handle inserted last, which came after it. -/
theorem C79_handle (ops : List SlotOp) (hc : Complete ops) (hs : ∃ i, SlotOp.store i ∈ ops) :
    ∃ pre c mid h post, ops = pre ++ .store c :: (mid ++ .insert h :: post) ∧ (∀ j, SlotOp.store j ∉ mid ++ post) ∧
      (∀ j, SlotOp.insert j ∉ post) ∧ (slotRun ops).conn = some c ∧ (slotRun ops).handle = some h := by
  obtain ⟨pre, c, post, h1, h2⟩ := cut_last ops hs
  have hins := hc pre c post h1
  obtain ⟨t1, t2⟩ := slot_tail pre c post h2
  -- cut `post` at its last insertion
  have cut : ∀ l : List SlotOp, (∃ i, SlotOp.insert i ∈ l) →
      ∃ a h b, l = a ++ .insert h :: b ∧ ∀ j, SlotOp.insert j ∉ b := by
    intro l
    induction l with
    | nil => rintro ⟨i, h⟩; cases h
    | cons o l ih =>
      rintro ⟨i, h⟩
      by_cases hl : ∃ i, SlotOp.insert i ∈ l
      · obtain ⟨a, k, b, e1, e2⟩ := ih hl
        exact ⟨o :: a, k, b, by rw [e1]; rfl, e2⟩
      · rcases List.mem_cons.1 h with h | h
        · exact ⟨[], i, l, by rw [h]; rfl, fun j hj => hl ⟨j, hj⟩⟩
        · exact absurd ⟨i, h⟩ hl
  obtain ⟨mid, h, b, e1, e2⟩ := cut post ⟨c, hins⟩
  refine ⟨pre, c, mid, h, b, by rw [h1, e1], fun j hj => h2 j ?_, e2, by rw [h1]; exact t2, ?_⟩
  · rw [e1]
    rcases List.mem_append.1 hj with hj | hj
    · exact List.mem_append_left _ hj
    · exact List.mem_append_right _ (List.mem_cons_of_mem _ hj)
  · rw [h1, t1, e1]
    have hb : b.filterMap insertOf = [] := by
      rw [List.filterMap_eq_nil_iff]
      intro o ho
      cases o with
      | insert j => exact absurd ho (e2 j)
      | _ => rfl
    simp [lastOf, insertOf, hb]

/-- Two connections whose steps cross. -/
example : Complete [.store 1, .store 2, .insert 2, .insert 1] ∧ slotRun [.store 1, .store 2, .insert 2, .insert 1] = ⟨some 2, some 1, []⟩ := by
  refine ⟨fun pre i post h => ?_, by decide⟩
  match pre, h with
  | [], h => simp only [List.nil_append, List.cons.injEq, SlotOp.store.injEq] at h; obtain ⟨rfl, rfl⟩ := h; simp
  | [a], h => simp only [List.cons_append, List.nil_append, List.cons.injEq, SlotOp.store.injEq] at h; obtain ⟨_, rfl, rfl⟩ := h; simp
  | [a, b], h => simp at h
  | [a, b, c], h => simp at h
  | a :: b :: c :: d :: l, h => simp at h

/-- **C79**: with all streams in place a block announced goes into exactly one stream, that of the handle inserted last. -/
theorem C79_sent (ops : List SlotOp) (b : Nat) (hc : Complete ops) (hs : ∃ i, SlotOp.store i ∈ ops) :
    ∃ h, SlotOp.insert h ∈ ops ∧ (slotRun ops).handle = some h ∧ (slotRun (ops ++ [.announce b])).log = (slotRun ops).log ++ [(h, b)] := by
  obtain ⟨pre, c, mid, h, post, e, _, _, h1, h2⟩ := C79_handle ops hc hs
  refine ⟨h, ?_, h2, ?_⟩
  · rw [e]
    exact List.mem_append_right _ (List.mem_cons_of_mem _ (List.mem_append_right _ List.mem_cons_self))
  · rw [slotRun_append]
    simp only [List.foldl_cons, List.foldl_nil, slotStep, h1, h2]

example : (slotRun [.store 1, .insert 1, .announce 7, .store 2, .insert 2, .announce 8]).log = [(1, 7), (2, 8)] := by decide

/-- **C79**, partial (the code does not meet the property): blocks announced after a further connection to the peer was
stored and before its stream is in place go nowhere, although the peer was connected before and stays so. -/
theorem C79_gap_partial (ops : List SlotOp) (i : Nat) (bs : List Nat) :
    (slotRun (ops ++ .store i :: (bs.map .announce ++ [.insert i]))).log = (slotRun ops).log ∧
    (slotRun (ops ++ .store i :: (bs.map .announce ++ [.insert i]))).handle = some i := by
  have key : ∀ (bs : List Nat) (s : Slot), s.handle = none → (bs.map SlotOp.announce).foldl slotStep s = s := by
    intro bs
    induction bs with
    | nil => intro s _; rfl
    | cons b bs ih =>
      intro s hs
      have : slotStep s (.announce b) = s := by
        simp only [slotStep, hs]
        split <;> simp_all
      simp only [List.map_cons, List.foldl_cons, this]
      exact ih s hs
  rw [slotRun_append]
  simp only [List.foldl_cons, List.foldl_append, List.foldl_nil]
  rw [key bs _ rfl]
  simp [slotStep]

/-- Block 8 is lost, blocks 7 and 9 are sent. -/
example : (slotRun ([.store 1, .insert 1, .announce 7] ++ .store 2 :: ([8].map .announce ++ [.insert 2]) ++ [.announce 9])).log =
    [(1, 7), (2, 9)] := by decide

end Fastroll.Dial
