import Verif.Wr.Lemmas
/-!
# C58: work reports are computed as the Gray Paper's `Ξ` says
-/
namespace Fastroll.Wr
open Fastroll.Wire (WorkItem WorkPackage WorkResult WorkError WorkDigest WorkReport AvailSpecs XtInfo ImportInfo PackageId)

theorem computeReport_ok {L : Limits} {E : Env} {core : Nat} {p : WorkPackage} {rep : WorkReport}
    (h : computeReport L E core p = .ok rep) :
    ∃ gas s, E.authorize = .ok (gas, .output rep.trace) ∧ rep.trace.length ≤ L.output ∧
      run L E.hash E.refine 0 p.items { offset := 0, size := rep.trace.length, digests := [], exports := [] } = .ok s ∧
      E.specs s.exports.flatten = .ok rep.specs ∧ lookupTable L E.table p = .ok rep.lookup ∧
      rep.digests = s.digests ∧ rep.ctx = p.ctx ∧ rep.core = core ∧
      rep.authorizer = E.hash (p.authCode ++ p.config) ∧ rep.authGas = gas := by
  unfold computeReport at h
  obtain ⟨⟨gas, r⟩, h1, h⟩ := Out.bind_ok h
  obtain ⟨trace, h2, h⟩ := Out.bind_ok h
  obtain ⟨s, h3, h⟩ := Out.bind_ok h
  obtain ⟨specs, h4, h⟩ := Out.bind_ok h
  obtain ⟨table, h5, h⟩ := Out.bind_ok h
  injection h with h
  subst h
  have ht : r = .output trace ∧ trace.length ≤ L.output := by
    unfold traceOf at h2
    cases r with
    | error e => cases h2
    | output b =>
      simp only [] at h2
      by_cases c : b.length > L.output
      · rw [if_pos c] at h2; cases h2
      · rw [if_neg c] at h2
        injection h2 with h2
        subst h2
        exact ⟨rfl, by omega⟩
  obtain ⟨rfl, ht⟩ := ht
  exact ⟨gas, s, h1, ht, h3, h4, h5, rfl, rfl, rfl, rfl, rfl⟩

theorem judge_octets {L : Limits} {z : Nat} (w : WorkItem) (r : RefineRes) :
    Paper.octets (judge L (addSize z r.output) w r).1 + z ≤ addSize z r.output ∧
    (addSize z r.output > L.output → Paper.octets (judge L (addSize z r.output) w r).1 = 0) := by
  unfold judge
  by_cases c : addSize z r.output > L.output
  · rw [if_pos c]
    simp only [Paper.octets]
    refine ⟨?_, fun _ => trivial⟩
    unfold addSize
    cases r.output <;> simp only [] <;> omega
  · rw [if_neg c]
    refine ⟨?_, fun h => absurd h c⟩
    unfold addSize
    by_cases d : r.exports.length = w.exports
    · rw [if_neg (by simpa using d)]
      cases r.output <;> simp only [Paper.octets] <;> omega
    · rw [if_pos d]
      cases r.output <;> simp only [Paper.octets] <;> omega

theorem trail_size {L : Limits} {h : Bytes → Bytes} {R : Nat → Nat → RefineRes} (ws : List WorkItem) :
    ∀ (j o z n : Nat), (n ≤ z → n ≤ L.output →
      n + (((trail L h R j o z ws).map fun x => Paper.octets x.1.result).sum) ≤ L.output) := by
  induction ws with
  | nil => intro j o z n _ hn; simpa [trail] using hn
  | cons w ws ih =>
    intro j o z n hz hn
    obtain ⟨h1, h2⟩ := judge_octets (L := L) (z := z) w (R j o)
    simp only [trail, List.map_cons, List.sum_cons, toDigest]
    have := ih (j + 1) (o + w.exports) (addSize z (R j o).output)
      (n + Paper.octets (judge L (addSize z (R j o).output) w (R j o)).1) (by omega) (by
        by_cases c : addSize z (R j o).output > L.output
        · rw [h2 c]; exact hn
        · omega)
    omega

/-- **C58, frame.** Whatever authorization and refinement do, a report that is computed carries the
authorizer's trace, the package's context and authorizer hash, and one digest for each item, in order, with the
item's own service, code, payload hash and gas limit and the gas that its refinement used. The refinement of an
item was called with its index and the number of exports declared by the items before it. -/
theorem C58_frame (L : Limits) (E : Env) (core : Nat) (p : WorkPackage) (rep : WorkReport)
    (R : Nat → Nat → RefineRes) (hR : Tells E.refine R) (h : computeReport L E core p = .ok rep)
    (hc : ∀ w ∈ p.items, Paper.Countable w) :
    E.authorize = .ok (rep.authGas, .output rep.trace) ∧ rep.ctx = p.ctx ∧ rep.core = core ∧
    rep.authorizer = E.hash (p.authCode ++ p.config) ∧ rep.digests.length = p.items.length ∧
    ∀ (n : Nat) w, p.items[n]? = some w → ∃ d r, rep.digests[n]? = some d ∧
      Paper.Digest E.hash w r (R n ((p.items.take n).map WorkItem.exports).sum).gas d := by
  obtain ⟨gas, s, h1, _, h3, _, _, h6, h7, h8, h9, rfl⟩ := computeReport_ok h
  obtain ⟨t1, _, _⟩ := run_trail hR _ _ _ _ h3
  rw [List.nil_append] at t1
  refine ⟨h1, h7, h8, h9, ?_, ?_⟩
  · rw [h6, t1, List.length_map, trail_length]
  · intro n w hw
    obtain ⟨z', e⟩ := trail_get (L := L) (h := E.hash) (R := R) p.items 0 0 rep.trace.length n w hw
    simp only [Nat.zero_add] at e
    have hd : rep.digests[n]? = some (toDigest E.hash w
        (judge L z' w (R n ((p.items.take n).map WorkItem.exports).sum)).1
        (R n ((p.items.take n).map WorkItem.exports).sum).gas) := by
      rw [h6, t1, List.getElem?_map, e]
      rfl
    exact ⟨_, _, hd, digest_paper (hc w (List.mem_of_getElem? hw))⟩

/-- **C58, size.** The authorization trace and the outputs of a report never exceed the limit together. -/
theorem C58_size (L : Limits) (E : Env) (core : Nat) (p : WorkPackage) (rep : WorkReport)
    (h : computeReport L E core p = .ok rep) :
    rep.trace.length + (rep.digests.map fun d => Paper.octets d.result).sum ≤ L.output := by
  obtain ⟨gas, s, h1, h2, h3, _, _, h6, _⟩ := computeReport_ok h
  obtain ⟨R, hR⟩ : ∃ R, Tells E.refine R :=
    ⟨fun j o => match E.refine j o with | .ok r => r | _ => ⟨0, .error .bad, []⟩, fun j o r e => by
      simp only [e]⟩
  obtain ⟨t1, _, _⟩ := run_trail hR _ _ _ _ h3
  rw [List.nil_append] at t1
  have := trail_size (L := L) (h := E.hash) (R := R) p.items 0 0 rep.trace.length rep.trace.length
    (Nat.le_refl _) h2
  rw [h6, t1, List.map_map]
  exact this

/-- **C58, digests**, as far as it holds. The digest of an item is the Gray Paper's as long as no output of an
earlier item was turned down: earlier items may fail by themselves. -/
theorem C58_digests_partial (L : Limits) (E : Env) (core : Nat) (p : WorkPackage) (rep : WorkReport)
    (R : Nat → Nat → RefineRes) (hR : Tells E.refine R) (h : computeReport L E core p = .ok rep)
    (hc : ∀ w ∈ p.items, Paper.Countable w) (n : Nat)
    (hk : ∀ k, k < n → Paper.Kept L.output R rep.trace.length p.items k) (w : WorkItem) (hw : p.items[n]? = some w) :
    ∃ d x, rep.digests[n]? = some d ∧ (Paper.results L.output R 0 0 rep.trace.length p.items)[n]? = some x ∧
      Paper.Digest E.hash w x.1 x.2.1 d := by
  obtain ⟨gas, s, h1, h2, h3, _, _, h6, _⟩ := computeReport_ok h
  obtain ⟨t1, _, _⟩ := run_trail hR _ _ _ _ h3
  rw [List.nil_append] at t1
  obtain ⟨z', e⟩ := results_get (W := L.output) (R := R) p.items 0 0 rep.trace.length n w hw
  refine ⟨_, _, ?_, e, digest_paper (hc w (List.mem_of_getElem? hw))⟩
  rw [h6, t1]
  refine trail_paper p.items 0 0 rep.trace.length n h2 ?_ w _ hw e
  intro k hk' b hb x hx
  simp only [Nat.zero_add] at hb
  exact hk k hk' b hb x hx

theorem judge_exports {L : Limits} {z : Nat} (w : WorkItem) (r : RefineRes) (b : Bytes)
    (hj : (judge L z w r).1 = .output b) : (judge L z w r).2 = some r.exports ∧ r.output = .output b ∧
      r.exports.length = w.exports ∧ z ≤ L.output := by
  unfold judge at hj ⊢
  by_cases c : z > L.output
  · rw [if_pos c] at hj; cases hj
  · rw [if_neg c] at hj ⊢
    by_cases d : r.exports.length = w.exports
    · rw [if_neg (by simpa using d)] at hj ⊢
      cases ho : r.output with
      | output b' =>
        rw [ho] at hj
        simp only [WorkResult.output.injEq] at hj
        subst hj
        exact ⟨rfl, rfl, d, by omega⟩
      | error e => rw [ho] at hj; cases hj
    · rw [if_pos d] at hj; cases hj

theorem judge_error {L : Limits} {z : Nat} (w : WorkItem) (r : RefineRes) (e : WorkError)
    (hj : (judge L z w r).1 = .error e) : (judge L z w r).2 = none := by
  unfold judge at hj ⊢
  by_cases c : z > L.output
  · rw [if_pos c]
  · rw [if_neg c] at hj ⊢
    by_cases d : r.exports.length = w.exports
    · rw [if_neg (by simpa using d)] at hj ⊢
      cases ho : r.output with
      | output b' => rw [ho] at hj; cases hj
      | error e => rfl
    · rw [if_pos d]

theorem itemOf_exports {W z : Nat} (w : WorkItem) (r : RefineRes) :
    (∀ b, (Paper.itemOf W z w r).1 = .output b → (Paper.itemOf W z w r).2 = r.exports) ∧
    (∀ e, (Paper.itemOf W z w r).1 = .error e → (Paper.itemOf W z w r).2 = Paper.zeros w.exports) := by
  unfold Paper.itemOf
  cases r.output with
  | output b =>
    simp only []
    by_cases c : W < b.length + z
    · rw [if_pos c]; exact ⟨fun _ h => (by cases h), fun _ _ => rfl⟩
    · rw [if_neg c]
      by_cases d : r.exports.length = w.exports
      · rw [if_pos d]; exact ⟨fun _ _ => rfl, fun _ h => (by cases h)⟩
      · rw [if_neg d]; exact ⟨fun _ h => (by cases h), fun _ _ => rfl⟩
  | error e =>
    simp only []
    by_cases d : r.exports.length = w.exports
    · rw [if_pos d]; exact ⟨fun _ h => (by cases h), fun _ _ => rfl⟩
    · rw [if_neg d]; exact ⟨fun _ h => (by cases h), fun _ _ => rfl⟩

/-- When no output is turned down and items that fail declare no exports, the exports are the paper's. -/
theorem trail_exports {L : Limits} {h : Bytes → Bytes} {R : Nat → Nat → RefineRes} (ws : List WorkItem) :
    ∀ (j l z : Nat), z ≤ L.output → KeptFrom L.output R j l z ws ws.length →
      (∀ (n : Nat) w x e, ws[n]? = some w → (Paper.results L.output R j l z ws)[n]? = some x → x.1 = .error e →
        w.exports = 0) →
      ((trail L h R j l z ws).filterMap (·.2)).flatten =
        ((Paper.results L.output R j l z ws).flatMap fun x => x.2.2) := by
  induction ws with
  | nil => intros; rfl
  | cons w ws ih =>
    intro j l z hz hk hf
    have ht := keptFrom_tail (n := ws.length) hk
    have hh := keptFrom_head (n := ws.length) hk
    have hi := ih (j + 1) (l + w.exports) _ (octets_le hz w (R j l)) ht (by
      intro n w' x e hw hx hxe
      refine hf (n + 1) w' x e (by simpa using hw) ?_ hxe
      simp only [Paper.results, List.getElem?_cons_succ]
      exact hx)
    have hj := judge_paper hz w (R j l)
    obtain ⟨x1, x2⟩ := itemOf_exports (W := L.output) (z := z) w (R j l)
    have hf0 : ∀ e, (Paper.itemOf L.output z w (R j l)).1 = .error e → w.exports = 0 := fun e he =>
      hf 0 w ((Paper.itemOf L.output z w (R j l)).1, (R j l).gas, (Paper.itemOf L.output z w (R j l)).2) e rfl
        (by simp only [Paper.results, List.getElem?_cons_zero]) he
    simp only [trail, Paper.results, List.flatMap_cons]
    rw [size_paper (W := L.output) w (R j l) hh] at hj ⊢
    rw [← hi]
    cases hr : (Paper.itemOf L.output z w (R j l)).1 with
    | output b =>
      rw [hr] at hj
      have e1 : (judge L (z + Paper.octets (.output b)) w (R j l)).2 = some (R j l).exports :=
        (judge_exports w (R j l) b hj).1
      rw [x1 b hr, e1]
      rfl
    | error e =>
      rw [hr] at hj
      have e1 : (judge L (z + Paper.octets (.error e)) w (R j l)).2 = none := judge_error w (R j l) e hj
      rw [x2 e hr, hf0 e hr, e1]
      rfl

/-- **C58, exports**, as far as it holds: when no output is turned down and every item that fails declares no
exports, the exports committed to are the Gray Paper's. -/
theorem C58_exports_partial (L : Limits) (E : Env) (core : Nat) (p : WorkPackage) (rep : WorkReport)
    (R : Nat → Nat → RefineRes) (hR : Tells E.refine R) (h : computeReport L E core p = .ok rep)
    (hk : ∀ k, k < p.items.length → Paper.Kept L.output R rep.trace.length p.items k)
    (hf : ∀ (n : Nat) w x e, p.items[n]? = some w →
      (Paper.results L.output R 0 0 rep.trace.length p.items)[n]? = some x → x.1 = .error e → w.exports = 0) :
    E.specs ((Paper.results L.output R 0 0 rep.trace.length p.items).flatMap fun x => x.2.2) = .ok rep.specs := by
  obtain ⟨gas, s, h1, h2, h3, h4, _⟩ := computeReport_ok h
  obtain ⟨_, t2, _⟩ := run_trail hR _ _ _ _ h3
  rw [List.nil_append] at t2
  rw [← h4, t2]
  refine congrArg E.specs (trail_exports (h := E.hash) p.items 0 0 _ h2 ?_ hf).symm
  intro k hk' b hb x hx
  simp only [Nat.zero_add] at hb
  exact hk k hk' b hb x hx

/-! ## A report -/

def exLimits : Limits :=
  { exports := 9, imports := 9, xts := 9, bundle := 99999, importFootprint := 4488, accGas := 99, refineGas := 99,
    output := 5, dependencies := 8, items := 16 }

def exItemOf (service exports : Nat) : WorkItem :=
  { service := service, codeHash := [1], refineGas := 10, accGas := 20, exports := exports, payload := [7],
    imports := [], xts := [⟨[2], 30⟩] }

def exSpecs (n : Nat) : AvailSpecs := ⟨[], 0, [], [], n⟩

def exEnv (R : Nat → RefineRes) : Env :=
  { hash := fun b => b, authorize := .ok (3, .output [9]), refine := fun j _ => .ok (R j),
    specs := fun l => .ok (exSpecs l.length), table := .ok [] }

def exPkg (ws : List WorkItem) : WorkPackage := { Wire.exPackage with items := ws }

/-- A failure, then an output with one export. -/
def exGood : Nat → RefineRes
  | 0 => ⟨4, .error .panic, []⟩
  | _ => ⟨6, .output [1, 2], [[5]]⟩

def exGoodReport : WorkReport :=
  { specs := exSpecs 1, ctx := Wire.exPackage.ctx, core := 1, authorizer := Wire.exPackage.authCode ++ [2, 255],
    authGas := 3, trace := [9], lookup := [],
    digests := [⟨7, [1], [7], 20, .error .panic, ⟨4, 0, 1, 30, 0⟩⟩, ⟨8, [1], [7], 20, .output [1, 2], ⟨6, 0, 1, 30, 1⟩⟩] }

theorem exGood_ok : computeReport exLimits (exEnv exGood) 1 (exPkg [exItemOf 7 0, exItemOf 8 1]) = .ok exGoodReport := by
  decide +kernel

theorem exTells (R : Nat → RefineRes) : Tells (exEnv R).refine (fun j _ => R j) := by
  intro j o r h
  injection h with h
  exact h.symm

theorem exCountable (a b : Nat) (c d : Nat) : ∀ w ∈ (exPkg [exItemOf a b, exItemOf c d]).items, Paper.Countable w := by
  intro w hw
  simp only [exPkg, List.mem_cons, List.not_mem_nil, or_false] at hw
  rcases hw with rfl | rfl <;> exact ⟨by simp [exItemOf], by simp [exItemOf], by simp [exItemOf]⟩

example : ∃ d r, exGoodReport.digests[1]? = some d ∧ Paper.Digest (fun b => b) (exItemOf 8 1) r 6 d :=
  (C58_frame exLimits (exEnv exGood) 1 _ _ _ (exTells exGood) exGood_ok (exCountable 7 0 8 1)).2.2.2.2.2 1 _ rfl

example : 1 + (0 + (2 + 0)) ≤ 5 := C58_size exLimits (exEnv exGood) 1 _ _ exGood_ok

theorem exGood_kept (k : Nat) :
    Paper.Kept exLimits.output (fun j _ => exGood j) exGoodReport.trace.length [exItemOf 7 0, exItemOf 8 1] k := by
  intro b hb x hx
  match k with
  | 0 => cases hb
  | 1 =>
    injection hb with hb
    have e : (Paper.results exLimits.output (fun j _ => exGood j) 0 0 exGoodReport.trace.length
      [exItemOf 7 0, exItemOf 8 1])[1]? = some (.output [1, 2], 6, [[5]]) := by decide +kernel
    rw [e] at hx
    injection hx with hx
    rw [← hx, ← hb]
  | k + 2 => cases hx

example : ∃ d x, exGoodReport.digests[1]? = some d ∧
    (Paper.results 5 (fun j _ => exGood j) 0 0 1 [exItemOf 7 0, exItemOf 8 1])[1]? = some x ∧
    Paper.Digest (fun b => b) (exItemOf 8 1) x.1 x.2.1 d :=
  C58_digests_partial exLimits (exEnv exGood) 1 _ _ _ (exTells exGood) exGood_ok (exCountable 7 0 8 1) 1
    (fun k _ => exGood_kept k) _ rfl

example : (exEnv exGood).specs ((Paper.results 5 (fun j _ => exGood j) 0 0 1 [exItemOf 7 0, exItemOf 8 1]).flatMap
    fun x => x.2.2) = .ok (exSpecs 1) := by
  refine C58_exports_partial exLimits (exEnv exGood) 1 _ _ _ (exTells exGood) exGood_ok
    (fun k _ => exGood_kept k) ?_
  intro n w x e hw hx hxe
  match n with
  | 0 => injection hw with hw; rw [← hw]; rfl
  | 1 =>
    have e1 : (Paper.results exLimits.output (fun j _ => exGood j) 0 0 exGoodReport.trace.length
      [exItemOf 7 0, exItemOf 8 1])[1]? = some (.output [1, 2], 6, [[5]]) := by decide +kernel
    rw [show (Paper.results exLimits.output (fun j _ => exGood j) 0 0 exGoodReport.trace.length
      (exPkg [exItemOf 7 0, exItemOf 8 1]).items)[1]? = _ from e1] at hx
    injection hx with hx
    rw [← hx] at hxe
    cases hxe
  | n + 2 => cases hw

/-! ## Departures -/

/-- Once the running size is over the limit every later digest is an oversize error. -/
theorem trail_over {L : Limits} {h : Bytes → Bytes} {R : Nat → Nat → RefineRes} (ws : List WorkItem) :
    ∀ (j o z : Nat), L.output < z → ∀ x ∈ trail L h R j o z ws, x.1.result = .error .oversize ∧ x.2 = none := by
  induction ws with
  | nil => intro j o z _ x hx; cases hx
  | cons w ws ih =>
    intro j o z hz x hx
    have hz' : L.output < addSize z (R j o).output := by
      unfold addSize
      cases (R j o).output <;> simp only [] <;> omega
    rcases List.mem_cons.mp hx with rfl | hx
    · unfold judge
      rw [if_pos hz']
      exact ⟨rfl, rfl⟩
    · exact ih _ _ _ hz' x hx

/-- **C58** fails after an output that is turned down: its octets stay in the running size. If the output of
the first item alone exceeds the limit, every later item is reported as oversize, whatever its refinement
returned — even an error. -/
theorem C58_oversize_spreads (L : Limits) (E : Env) (core : Nat) (p : WorkPackage) (rep : WorkReport)
    (h : computeReport L E core p = .ok rep) (w : WorkItem) (ws : List WorkItem) (hp : p.items = w :: ws)
    (r : RefineRes) (b : Bytes) (hr : E.refine 0 0 = .ok r) (hb : r.output = .output b)
    (hover : L.output < rep.trace.length + b.length) : ∀ d ∈ rep.digests, d.result = .error .oversize := by
  obtain ⟨gas, s, h1, h2, h3, _, _, h6, _⟩ := computeReport_ok h
  obtain ⟨R, hR⟩ : ∃ R, Tells E.refine R :=
    ⟨fun j o => match E.refine j o with | .ok r => r | _ => ⟨0, .error .bad, []⟩, fun j o r e => by
      simp only [e]⟩
  obtain ⟨t1, _, _⟩ := run_trail hR _ _ _ _ h3
  rw [List.nil_append] at t1
  have hr0 := hR _ _ _ hr
  intro d hd
  rw [h6, t1] at hd
  obtain ⟨x, hx, rfl⟩ := List.mem_map.mp hd
  rw [hp] at hx
  simp only [trail] at hx
  rw [← hr0] at hx
  have hz : addSize rep.trace.length r.output = rep.trace.length + b.length := by rw [hb]; rfl
  rw [hz] at hx
  rcases List.mem_cons.mp hx with rfl | hx
  · unfold judge
    rw [if_pos hover]
    rfl
  · exact (trail_over _ _ _ _ hover x hx).1

/-- Six octets where five fit, then one octet. -/
def exOver : Nat → RefineRes
  | 0 => ⟨4, .output [1, 2, 3, 4, 5, 6], []⟩
  | _ => ⟨6, .output [1], []⟩

/-- **C58** fails: the Gray Paper accepts the second output, the code turns it down. -/
theorem C58_oversize_differs : ∃ rep,
    computeReport exLimits (exEnv exOver) 1 (exPkg [exItemOf 7 0, exItemOf 8 0]) = .ok rep ∧
    (rep.digests.map fun d => d.result) = [.error .oversize, .error .oversize] ∧
    (Paper.results 5 (fun j _ => exOver j) 0 0 1 [exItemOf 7 0, exItemOf 8 0]).map (·.1) =
      [.error .oversize, .output [1]] := by
  refine ⟨_, rfl, ?_, ?_⟩ <;> decide +kernel

/-- Four octets with a wrong number of exports, then two octets. -/
def exBad : Nat → RefineRes
  | 0 => ⟨4, .output [1, 2, 3, 4], []⟩
  | _ => ⟨6, .output [1, 2], []⟩

/-- **C58** fails: an output turned down for its number of exports also takes room from the next one. -/
theorem C58_bad_exports_counted : ∃ rep,
    computeReport exLimits (exEnv exBad) 1 (exPkg [exItemOf 7 1, exItemOf 8 0]) = .ok rep ∧
    (rep.digests.map fun d => d.result) = [.error .badExports, .error .oversize] ∧
    (Paper.results 5 (fun j _ => exBad j) 0 0 1 [exItemOf 7 1, exItemOf 8 0]).map (·.1) =
      [.error .badExports, .output [1, 2]] := by
  refine ⟨_, rfl, ?_, ?_⟩ <;> decide +kernel

/-- A failure of an item with one declared export, then an output with one export. -/
def exDrop : Nat → RefineRes
  | 0 => ⟨4, .error .panic, []⟩
  | _ => ⟨6, .output [1, 2], [[5]]⟩

/-- **C58** fails: the zero segments of an item that failed are dropped, so the exports of the items after it
move to other indices. The Gray Paper has two segments, the second item's at the index 1 its refinement was
told; the code has one, at index 0. -/
theorem C58_zero_segments_dropped : ∃ s,
    run exLimits (fun b => b) (exEnv exDrop).refine 0 [exItemOf 7 1, exItemOf 8 1] ⟨0, 1, [], []⟩ = .ok s ∧
    s.exports.flatten = [[5]] ∧ s.offset = 2 ∧
    ((Paper.results 5 (fun j _ => exDrop j) 0 0 1 [exItemOf 7 1, exItemOf 8 1]).flatMap fun x => x.2.2) =
      [List.replicate 4104 0, [5]] := by
  refine ⟨_, rfl, by decide +kernel, by decide +kernel, rfl⟩

/-- **C58** fails: imports are counted with multiplicity against the limit on dependencies, so that a package
importing nine segments of one other package is refused. -/
theorem C58_lookup_multiplicity (L : Limits) (E : Env) (core : Nat) (p : WorkPackage)
    (hl : L.dependencies < (Paper.imported p).length) : ∀ rep, computeReport L E core p ≠ .ok rep := by
  intro rep h
  obtain ⟨_, _, _, _, _, _, h5, _⟩ := computeReport_ok h
  unfold lookupTable at h5
  rw [if_pos (by rw [lookupCount_imported]; exact hl)] at h5
  cases h5

def exImports : WorkItem :=
  { exItemOf 7 0 with imports := List.replicate 9 ⟨.packageHash [3], 0⟩ }

example : (Paper.dependencies (exPkg [exImports])).length = 1 ∧
    ∀ rep, computeReport fullLimits (exEnv exGood) 1 (exPkg [exImports]) ≠ .ok rep :=
  ⟨by decide +kernel, C58_lookup_multiplicity fullLimits (exEnv exGood) 1 _ (by decide +kernel)⟩

/-- **C58, when a report is made.**  If the refinements, the availability specification and the lookup table do not fail, a report is made exactly when the authorizer
gave an output within the limit, there are no more items than digests allowed, and no more imports by package hash than the limit on
dependencies. -/
theorem C58_made (L : Limits) (E : Env) (core : Nat) (p : WorkPackage) (hR : ∀ j o, ∃ r, E.refine j o = .ok r)
    (hs : ∀ l, ∃ a, E.specs l = .ok a) (ht : ∃ t, E.table = .ok t) :
    (∃ rep, computeReport L E core p = .ok rep) ↔
      (∃ gas b, E.authorize = .ok (gas, .output b) ∧ b.length ≤ L.output) ∧ (p.items = [] ∨ p.items.length ≤ L.items) ∧
      (Paper.imported p).length ≤ L.dependencies := by
  constructor
  · rintro ⟨rep, h⟩
    obtain ⟨gas, s, h1, h2, h3, _, h5, _⟩ := computeReport_ok h
    refine ⟨⟨gas, _, h1, h2⟩, ?_, ?_⟩
    · rcases run_room _ _ _ _ h3 with h | h
      · exact .inl h
      · right; simpa using h
    · refine Nat.le_of_not_lt fun hlt => C58_lookup_multiplicity L E core p hlt rep h
  · rintro ⟨⟨gas, b, h1, h2⟩, h3, h4⟩
    obtain ⟨s, hs'⟩ : ∃ s, run L E.hash E.refine 0 p.items { offset := 0, size := b.length, digests := [], exports := [] } = .ok s := by
      rcases h3 with h | h
      · rw [h]; exact ⟨_, rfl⟩
      · exact run_total hR _ _ _ (by simpa using h)
    obtain ⟨a, ha⟩ := hs s.exports.flatten
    obtain ⟨t, ht⟩ := ht
    have e : computeReport L E core p = .ok { specs := a, ctx := p.ctx, core := core, authorizer := authorizer E.hash p, authGas := gas,
                                                trace := b, lookup := t, digests := s.digests } := by
      unfold computeReport
      rw [h1]
      simp only [Out.bind, traceOf]
      rw [if_neg (by omega)]
      simp only [hs', ha, lookupTable, ht]
      rw [if_neg (by rw [lookupCount_imported]; omega)]
    exact ⟨_, e⟩

example : (∃ rep, computeReport exLimits (exEnv exGood) 1 (exPkg [exItemOf 7 0, exItemOf 8 1]) = .ok rep) ∧
    (∃ gas b, (exEnv exGood).authorize = .ok (gas, .output b) ∧ b.length ≤ exLimits.output) :=
  have h := (C58_made exLimits (exEnv exGood) 1 (exPkg [exItemOf 7 0, exItemOf 8 1]) (fun j _ => ⟨exGood j, rfl⟩)
    (fun l => ⟨exSpecs l.length, rfl⟩) ⟨[], rfl⟩).1 ⟨_, exGood_ok⟩
  ⟨⟨_, exGood_ok⟩, h.1⟩

/-- **C58** fails: counts of more than sixteen bits are cut. -/
theorem C58_counts_wrap (h : Bytes → Bytes) (w : WorkItem) (r : WorkResult) (gas : Nat)
    (hi : w.imports.length = 2 ^ 16) : (toDigest h w r gas).stats.imports = 0 := by
  show w.imports.length % 2 ^ 16 = 0
  rw [hi]

example : (toDigest (fun b => b) { exItemOf 7 0 with imports := List.replicate (2 ^ 16) ⟨.packageHash [3], 0⟩ }
    (.error .bad) 0).stats.imports = 0 :=
  C58_counts_wrap _ _ _ _ (List.length_replicate ..)

/-- The code as it stands never computes a report: whatever the authorizer says, it ends in an error or in one
of its `unimplemented!`s. -/
theorem C58_never (L : Limits) (E : Env) (core : Nat) (p : WorkPackage) :
    ∀ rep, computeReport L (shipped E) core p ≠ .ok rep := by
  intro rep h
  obtain ⟨_, _, _, _, _, h4, _⟩ := computeReport_ok h
  cases h4

end Fastroll.Wr
