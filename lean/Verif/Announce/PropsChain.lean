import Verif.Announce.Props
/-
C78: the headers a node stores, its own and imported ones, form one chain.
-/
namespace Fastroll.Announce
section
variable {σ : Type}

/-- `l` is a row of headers each on top of the one before and, unless it is one of the slots `own` of the node itself, later
than it; `b` is the last.  (That the node's own slots are later is checked by the first half of its transition, `validate_timeslot`,
transition/src/state/timeslot.rs 30-50, which is a parameter here: a `slot` step is one in which it succeeds.) -/
def Stacked (own : List Ev) (l : List Hdr) (b : Hdr) : Prop :=
  l.getLast? = some b ∧
  ∀ i x y, l[i]? = some x → l[i + 1]? = some y → y.parent = x.hash ∧ (x.slot < y.slot ∨ .slot y.hash y.slot ∈ own)

theorem stacked_snoc {own : List Ev} {l : List Hdr} {b c : Hdr} (h : Stacked own l b) (hp : c.parent = b.hash)
    (hs : b.slot < c.slot ∨ .slot c.hash c.slot ∈ own) : Stacked own (l ++ [c]) c := by
  refine ⟨by simp, fun i x y hx hy => ?_⟩
  by_cases hi : i + 1 < l.length
  · rw [List.getElem?_append_left (by omega)] at hx
    rw [List.getElem?_append_left hi] at hy
    exact h.2 i x y hx hy
  · have hlt : i + 1 < (l ++ [c]).length := (List.getElem?_eq_some_iff.mp hy).1
    rw [List.length_append, List.length_singleton] at hlt
    rw [List.getElem?_append_left (by omega)] at hx
    rw [List.getElem?_append_right (by omega), show i + 1 - l.length = 0 by omega] at hy
    have hyc : c = y := by simpa using hy
    have hl := h.1
    rw [List.getLast?_eq_getElem?, show l.length - 1 = i by omega, hx] at hl
    have hxb : x = b := Option.some.inj hl
    subst hyc; subst hxb
    exact ⟨hp, hs⟩

theorem stacked_step (W : World σ) (own : List Ev) (s : Node σ) (e : Ev) (he : e ∈ own) (h : Stacked own s.headers s.best) :
    Stacked own (step W s e).headers (step W s e).best ∧ s.headers <+: (step W s e).headers := by
  have keep : ∀ t : Node σ, t.headers = s.headers → t.best = s.best →
      Stacked own t.headers t.best ∧ s.headers <+: t.headers := by
    intro t h1 h2; rw [h1, h2]; exact ⟨h, List.prefix_refl _⟩
  have hret : ∀ p, (retire s p).headers = s.headers ∧ (retire s p).best = s.best := by
    intro p; unfold retire; split <;> exact ⟨rfl, rfl⟩
  cases e with
  | slot a n => exact ⟨stacked_snoc h rfl (.inr he), List.prefix_append _ _⟩
  | go i =>
    simp only [step]; split
    · exact keep _ rfl rfl
    · unfold go; split
      · split
        · exact keep _ rfl rfl
        · exact keep _ rfl rfl
        · split <;> exact keep _ rfl rfl
        · exact keep _ rfl rfl
      · exact keep _ rfl rfl
  | write r => simp only [step]; split <;> exact keep _ rfl rfl
  | lose r => simp only [step]; split <;> exact keep _ rfl rfl
  | store r =>
    simp only [step]; split
    · exact keep _ rfl rfl
    · exact keep _ (hret r).1 (hret r).2
  | attach r =>
    simp only [step]; split
    · exact keep _ rfl rfl
    · split
      · exact keep _ rfl rfl
      · exact keep _ (hret r).1 (hret r).2
  | arrive b =>
    simp only [step, receive]; split
    next hok =>
      simp only [headerOk, Bool.and_eq_true, decide_eq_true_eq] at hok
      split
      · exact ⟨stacked_snoc h hok.1.2 (.inl hok.1.1), List.prefix_append _ _⟩
      · exact keep _ rfl rfl
    next => exact keep _ rfl rfl

/-- **C78, one chain of headers.**  In every history, whatever is authored, imported, announced or lost, the headers a
node stores stay one chain that ends in its best header: each names the one before as its parent, and each is of a later
slot than the one before unless it is the node's own for a slot it was told to author; and no header is lost. -/
theorem C78_one_chain (W : World σ) (s : Node σ) (evs : List Ev) (h : Stacked [] s.headers s.best) :
    Stacked evs (run W s evs).headers (run W s evs).best ∧ s.headers <+: (run W s evs).headers := by
  have key : ∀ (l : List Ev) (t : Node σ), (∀ e ∈ l, e ∈ evs) → Stacked evs t.headers t.best →
      Stacked evs (run W t l).headers (run W t l).best ∧ t.headers <+: (run W t l).headers := by
    intro l
    induction l with
    | nil => intro t _ ht; exact ⟨ht, List.prefix_refl _⟩
    | cons e l ih =>
      intro t hm ht
      obtain ⟨h1, h2⟩ := stacked_step W evs t e (hm e List.mem_cons_self) ht
      obtain ⟨h3, h4⟩ := ih _ (fun x hx => hm x (List.mem_cons_of_mem _ hx)) h1
      exact ⟨h3, h2.trans h4⟩
  refine key evs s (fun _ h => h) ⟨h.1, fun i x y hx hy => ?_⟩
  obtain ⟨h1, h2⟩ := h.2 i x y hx hy
  exact ⟨h1, h2.imp id (fun h => by cases h)⟩

/-- An imported block, one of the node's own, and one that is not later and is refused. -/
example : Stacked [] exS.headers exS.best ∧
    (run exW exS [.arrive ⟨50, 7, 5, 105⟩, .slot 9 6, .arrive ⟨51, 50, 7, 110⟩]).headers.map Hdr.hash = [7, 50, 9] ∧
    (run exW exS [.arrive ⟨50, 7, 3, 105⟩]).headers.map Hdr.hash = [7] := by
  refine ⟨⟨rfl, fun i x y hx hy => ?_⟩, by decide +kernel, by decide +kernel⟩
  simp [exS] at hy

end

end Fastroll.Announce
