import Verif.Wr.PropsLimits
/-! # Lemmas about the report loop -/
namespace Fastroll.Wr
open Fastroll.Wire (WorkItem WorkPackage WorkResult WorkError WorkDigest XtInfo ImportInfo PackageId)

theorem Out.bind_ok {α β : Type} {x : Out α} {f : α → Out β} {b : β} (h : x.bind f = .ok b) :
    ∃ a, x = .ok a ∧ f a = .ok b := by
  cases x with
  | ok a => exact ⟨a, rfl, h⟩
  | err => cases h
  | panic => cases h

theorem turn_ok {L : Limits} {h : Bytes → Bytes} {s s' : Loop} {w : WorkItem} {r : RefineRes}
    (e : turn L h s w r = .ok s') :
    s' = { offset := s.offset + w.exports, size := addSize s.size r.output,
           digests := s.digests ++ [toDigest h w (judge L (addSize s.size r.output) w r).1 r.gas],
           exports := s.exports ++ (judge L (addSize s.size r.output) w r).2.toList } := by
  unfold turn at e
  dsimp only at e
  split at e
  · injection e with e; exact e.symm
  · cases e

/-- `R` tells what the calls of `refine` that succeed return. -/
def Tells (refine : Nat → Nat → Out RefineRes) (R : Nat → Nat → RefineRes) : Prop :=
  ∀ j o r, refine j o = .ok r → r = R j o

/-- What the loop does, call by call, as a list: digests and exports from the `j`-th item on. -/
def trail (L : Limits) (h : Bytes → Bytes) (R : Nat → Nat → RefineRes) : Nat → Nat → Nat → List WorkItem →
    List (WorkDigest × Option (List Bytes))
  | _, _, _, [] => []
  | j, o, z, w :: ws =>
    let z' := addSize z (R j o).output
    (toDigest h w (judge L z' w (R j o)).1 (R j o).gas, (judge L z' w (R j o)).2) ::
      trail L h R (j + 1) (o + w.exports) z' ws

theorem run_trail {L : Limits} {h : Bytes → Bytes} {refine : Nat → Nat → Out RefineRes}
    {R : Nat → Nat → RefineRes} (hR : Tells refine R) (ws : List WorkItem) :
    ∀ (j : Nat) (s s' : Loop), run L h refine j ws s = .ok s' →
      s'.digests = s.digests ++ (trail L h R j s.offset s.size ws).map (·.1) ∧
      s'.exports = s.exports ++ (trail L h R j s.offset s.size ws).filterMap (·.2) ∧
      s'.offset = s.offset + (ws.map WorkItem.exports).sum := by
  induction ws with
  | nil =>
    intro j s s' e
    injection e with e
    subst e
    simp [trail]
  | cons w ws ih =>
    intro j s s' e
    unfold run at e
    obtain ⟨r, e1, e⟩ := Out.bind_ok e
    obtain ⟨s1, e2, e⟩ := Out.bind_ok e
    have hr := hR _ _ _ e1
    have hs1 := turn_ok e2
    obtain ⟨i1, i2, i3⟩ := ih (j + 1) s1 s' e
    subst hs1
    subst hr
    simp only [] at i1 i2 i3
    refine ⟨?_, ?_, ?_⟩
    · rw [i1, List.append_assoc]
      rfl
    · rw [i2, List.append_assoc]
      simp only [trail]
      cases (judge L (addSize s.size (R j s.offset).output) w (R j s.offset)).2 with
      | none => rfl
      | some x => rfl
    · rw [i3, List.map_cons, List.sum_cons]
      omega

theorem trail_length {L : Limits} {h : Bytes → Bytes} {R : Nat → Nat → RefineRes} (ws : List WorkItem) :
    ∀ j o z, (trail L h R j o z ws).length = ws.length := by
  induction ws with
  | nil => intros; rfl
  | cons w ws ih => intro j o z; simp only [trail, List.length_cons]; rw [ih]

theorem results_length {W : Nat} {R : Nat → Nat → RefineRes} (ws : List WorkItem) :
    ∀ j l z, (Paper.results W R j l z ws).length = ws.length := by
  induction ws with
  | nil => intros; rfl
  | cons w ws ih => intro j l z; simp only [Paper.results, List.length_cons]; rw [ih]

/-- The `n`-th entry of the paper's results, by the paper's running sums. -/
theorem results_get {W : Nat} {R : Nat → Nat → RefineRes} (ws : List WorkItem) :
    ∀ (j l z n : Nat) (w : WorkItem), ws[n]? = some w → ∃ z', (Paper.results W R j l z ws)[n]? =
      some ((Paper.itemOf W z' w (R (j + n) (l + ((ws.take n).map WorkItem.exports).sum))).1,
        (R (j + n) (l + ((ws.take n).map WorkItem.exports).sum)).gas,
        (Paper.itemOf W z' w (R (j + n) (l + ((ws.take n).map WorkItem.exports).sum))).2) := by
  induction ws with
  | nil => intro j l z n w h; cases h
  | cons a ws ih =>
    intro j l z n w h
    cases n with
    | zero =>
      simp only [List.getElem?_cons_zero, Option.some.injEq] at h
      subst h
      exact ⟨z, by simp [Paper.results]⟩
    | succ n =>
      simp only [List.getElem?_cons_succ] at h
      obtain ⟨z', e⟩ := ih (j + 1) (l + a.exports) (z + Paper.octets (Paper.itemOf W z a (R j l)).1) n w h
      refine ⟨z', ?_⟩
      simp only [Paper.results, List.getElem?_cons_succ]
      rw [e]
      simp only [List.take_succ_cons, List.map_cons, List.sum_cons]
      have h1 : j + 1 + n = j + (n + 1) := by omega
      have h2 : l + a.exports + ((ws.take n).map WorkItem.exports).sum =
        l + (a.exports + ((ws.take n).map WorkItem.exports).sum) := by omega
      rw [h1, h2]

theorem trail_get {L : Limits} {h : Bytes → Bytes} {R : Nat → Nat → RefineRes} (ws : List WorkItem) :
    ∀ (j o z n : Nat) (w : WorkItem), ws[n]? = some w → ∃ z', (trail L h R j o z ws)[n]? =
      some (toDigest h w (judge L z' w (R (j + n) (o + ((ws.take n).map WorkItem.exports).sum))).1
          (R (j + n) (o + ((ws.take n).map WorkItem.exports).sum)).gas,
        (judge L z' w (R (j + n) (o + ((ws.take n).map WorkItem.exports).sum))).2) := by
  induction ws with
  | nil => intro j o z n w h; cases h
  | cons a ws ih =>
    intro j o z n w h
    cases n with
    | zero =>
      simp only [List.getElem?_cons_zero, Option.some.injEq] at h
      subst h
      exact ⟨addSize z (R j o).output, by simp [trail]⟩
    | succ n =>
      simp only [List.getElem?_cons_succ] at h
      obtain ⟨z', e⟩ := ih (j + 1) (o + a.exports) (addSize z (R j o).output) n w h
      refine ⟨z', ?_⟩
      simp only [trail, List.getElem?_cons_succ]
      rw [e]
      simp only [List.take_succ_cons, List.map_cons, List.sum_cons]
      have h1 : j + 1 + n = j + (n + 1) := by omega
      have h2 : o + a.exports + ((ws.take n).map WorkItem.exports).sum =
        o + (a.exports + ((ws.take n).map WorkItem.exports).sum) := by omega
      rw [h1, h2]

theorem digest_paper {h : Bytes → Bytes} {w : WorkItem} {r : WorkResult} {gas : Nat}
    (hc : Paper.Countable w) : Paper.Digest h w r gas (toDigest h w r gas) := by
  obtain ⟨h1, h2, h3⟩ := hc
  refine ⟨rfl, rfl, rfl, rfl, rfl, rfl, Nat.mod_eq_of_lt h1, Nat.mod_eq_of_lt h2, ?_, rfl⟩
  show sum32 _ = _
  rw [sum32_eq, Nat.mod_eq_of_lt h3]

/-- With the paper's running size, below the limit, the code judges as the paper does. -/
theorem judge_paper {L : Limits} {z : Nat} (hz : z ≤ L.output) (w : WorkItem) (r : RefineRes) :
    (judge L (addSize z r.output) w r).1 = (Paper.itemOf L.output z w r).1 := by
  unfold judge Paper.itemOf addSize
  cases r.output with
  | output b =>
    have e1 : (z + b.length > L.output) = (L.output < b.length + z) := propext ⟨fun _ => by omega, fun _ => by omega⟩
    simp only [e1]
    by_cases c : L.output < b.length + z
    · simp only [if_pos c]
    · by_cases d : r.exports.length = w.exports
      · simp only [if_neg c, d, ne_eq, not_true, if_false, if_true]
      · simp only [if_neg c, d, ne_eq, not_false_iff, if_false, if_true]
  | error e =>
    have c : ¬ z > L.output := by omega
    by_cases d : r.exports.length = w.exports
    · simp only [if_neg c, d, ne_eq, not_true, if_false, if_true]
    · simp only [if_neg c, d, ne_eq, not_false_iff, if_false, if_true]

/-- An item that keeps its output adds the same to both running sizes. -/
theorem size_paper {W z : Nat} (w : WorkItem) (r : RefineRes)
    (hk : ∀ b, r.output = .output b → (Paper.itemOf W z w r).1 = .output b) :
    addSize z r.output = z + Paper.octets (Paper.itemOf W z w r).1 := by
  cases ho : r.output with
  | output b => rw [hk b ho]; rfl
  | error e =>
    unfold Paper.itemOf
    rw [ho]
    simp only []
    split <;> rfl

theorem octets_le {W z : Nat} (hz : z ≤ W) (w : WorkItem) (r : RefineRes) :
    z + Paper.octets (Paper.itemOf W z w r).1 ≤ W := by
  unfold Paper.itemOf
  cases r.output with
  | output b =>
    simp only []
    by_cases c : W < b.length + z
    · rw [if_pos c]; simp only [Paper.octets]; omega
    · rw [if_neg c]
      by_cases d : r.exports.length = w.exports
      · rw [if_pos d]; simp only [Paper.octets]; omega
      · rw [if_neg d]; simp only [Paper.octets]; omega
  | error e => simp only []; split <;> simp only [Paper.octets] <;> omega

/-- Every raw output among the first `n` items from here is kept. -/
def KeptFrom (W : Nat) (R : Nat → Nat → RefineRes) (j l z : Nat) (ws : List WorkItem) (n : Nat) : Prop :=
  ∀ k, k < n → ∀ b, (R (j + k) (l + ((ws.take k).map WorkItem.exports).sum)).output = .output b →
    ∀ x, (Paper.results W R j l z ws)[k]? = some x → x.1 = .output b

theorem keptFrom_tail {W : Nat} {R : Nat → Nat → RefineRes} {j l z n : Nat} {w : WorkItem} {ws : List WorkItem}
    (hk : KeptFrom W R j l z (w :: ws) (n + 1)) :
    KeptFrom W R (j + 1) (l + w.exports) (z + Paper.octets (Paper.itemOf W z w (R j l)).1) ws n := by
  intro k hk' b hb x hx
  refine hk (k + 1) (by omega) b ?_ x ?_
  · rw [List.take_succ_cons, List.map_cons, List.sum_cons]
    have h1 : j + (k + 1) = j + 1 + k := by omega
    have h2 : l + (w.exports + ((ws.take k).map WorkItem.exports).sum) =
      l + w.exports + ((ws.take k).map WorkItem.exports).sum := by omega
    rw [h1, h2]
    exact hb
  · simp only [Paper.results, List.getElem?_cons_succ]
    exact hx

theorem keptFrom_head {W : Nat} {R : Nat → Nat → RefineRes} {j l z n : Nat} {w : WorkItem} {ws : List WorkItem}
    (hk : KeptFrom W R j l z (w :: ws) (n + 1)) (b : Bytes) (hb : (R j l).output = .output b) :
    (Paper.itemOf W z w (R j l)).1 = .output b := by
  have := hk 0 (by omega) b (by simpa using hb) ((Paper.itemOf W z w (R j l)).1, (R j l).gas,
    (Paper.itemOf W z w (R j l)).2) (by simp [Paper.results])
  exact this

/-- As long as no output has been turned down, the digest is the paper's. -/
theorem trail_paper {L : Limits} {h : Bytes → Bytes} {R : Nat → Nat → RefineRes} (ws : List WorkItem) :
    ∀ (j l z n : Nat), z ≤ L.output → KeptFrom L.output R j l z ws n → ∀ (w : WorkItem) x,
      ws[n]? = some w → (Paper.results L.output R j l z ws)[n]? = some x →
      ((trail L h R j l z ws).map (·.1))[n]? = some (toDigest h w x.1 x.2.1) := by
  induction ws with
  | nil => intro j l z n _ _ w x hw; cases hw
  | cons a ws ih =>
    intro j l z n hz hk w x hw hx
    cases n with
    | zero =>
      simp only [List.getElem?_cons_zero, Option.some.injEq] at hw
      simp only [Paper.results, List.getElem?_cons_zero, Option.some.injEq] at hx
      subst hw hx
      simp only [trail, List.map_cons, List.getElem?_cons_zero]
      rw [judge_paper hz]
    | succ n =>
      simp only [List.getElem?_cons_succ] at hw
      simp only [Paper.results, List.getElem?_cons_succ] at hx
      simp only [trail, List.map_cons, List.getElem?_cons_succ]
      rw [size_paper (W := L.output) a (R j l) (keptFrom_head hk)]
      exact ih _ _ _ n (octets_le hz a (R j l)) (keptFrom_tail hk) w x hw hx

/-- The running count of the code is the number of imports by package hash. -/
theorem lookupCount_imported (p : WorkPackage) : lookupCount p = (Paper.imported p).length := by
  have key : ∀ (ws : List WorkItem) (a : Nat),
      ws.foldl (fun acc w => acc + (w.imports.filter byPackage).length) a = a + (Paper.imported { p with items := ws }).length := by
    intro ws
    induction ws with
    | nil => intro a; rfl
    | cons w ws ih =>
      intro a
      have hw : ∀ l : List ImportInfo, (l.filter byPackage).length = (l.filterMap Paper.packageOf).length := by
        intro l
        induction l with
        | nil => rfl
        | cons i l ihl =>
          rw [List.filter_cons, List.filterMap_cons]
          rcases i with ⟨id, n⟩
          cases id <;> simp [ihl, byPackage, Paper.packageOf]
      rw [List.foldl_cons, ih, hw]
      simp only [Paper.imported, List.flatMap_cons, List.length_append]
      omega
  exact (key p.items 0).trans (Nat.zero_add _)

/-- The loop gets through when every refinement does and there is room for the digests, and only then for the room. -/
theorem run_total {L : Limits} {h : Bytes → Bytes} {refine : Nat → Nat → Out RefineRes}
    (hR : ∀ j o, ∃ r, refine j o = .ok r) (ws : List WorkItem) :
    ∀ (j : Nat) (s : Loop), s.digests.length + ws.length ≤ L.items → ∃ s', run L h refine j ws s = .ok s' := by
  induction ws with
  | nil => intro j s _; exact ⟨s, rfl⟩
  | cons w ws ih =>
    intro j s hl
    rw [List.length_cons] at hl
    obtain ⟨r, hr⟩ := hR j s.offset
    unfold run
    rw [hr]
    simp only [Out.bind, turn]
    rw [if_pos (by omega)]
    exact ih _ _ (by rw [List.length_append, List.length_singleton]; omega)

theorem run_room {L : Limits} {h : Bytes → Bytes} {refine : Nat → Nat → Out RefineRes} (ws : List WorkItem) :
    ∀ (j : Nat) (s s' : Loop), run L h refine j ws s = .ok s' → ws = [] ∨ s.digests.length + ws.length ≤ L.items := by
  induction ws with
  | nil => intro j s s' _; exact .inl rfl
  | cons w ws ih =>
    intro j s s' e
    right
    unfold run at e
    obtain ⟨r, _, e⟩ := Out.bind_ok e
    obtain ⟨s1, e1, e⟩ := Out.bind_ok e
    unfold turn at e1
    dsimp only at e1
    split at e1
    · rename_i hlt
      injection e1 with e1
      subst e1
      rcases ih _ _ _ e with h | h
      · subst h; simp only [List.length_cons, List.length_nil]; omega
      · simp only [List.length_append, List.length_cons, List.length_nil] at h ⊢; omega
    · cases e1

end Fastroll.Wr
