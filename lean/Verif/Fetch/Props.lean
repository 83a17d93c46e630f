import Verif.Fetch.Spec
/-!
# C59: `fetch` serves the Gray Paper's data
-/
namespace Fastroll.Fetch
open Fastroll.Codec
open Fastroll.Wire

theorem fix {n x : Nat} (hn : n ≤ 8) (hx : x < 2 ^ (8 * n)) : fixedEncode n x = .ok (paperFixed n x) :=
  (fixed_codes 64 n (by omega) (by decide) x hx).1

theorem consts_enc (k : Consts) (h : Paper.ConstsOk k) : constsEnc k = .ok (Paper.constants k) := by
  obtain ⟨h8, h2, h4⟩ := h
  have f8 : ∀ x, x < 2 ^ 64 → fixedEncode 8 x = .ok (paperFixed 8 x) := fun x hx => fix (by decide) hx
  have f2 : ∀ x, x < 2 ^ 16 → fixedEncode 2 x = .ok (paperFixed 2 x) := fun x hx => fix (by decide) hx
  have f4 : ∀ x, x < 2 ^ 32 → fixedEncode 4 x = .ok (paperFixed 4 x) := fun x hx => fix (by decide) hx
  simp only [List.mem_cons, List.not_mem_nil, or_false, forall_eq_or_imp, forall_eq] at h8 h2 h4
  unfold Paper.constants constsEnc
  simp only [List.append_assoc]
  repeat'
    first
    | apply f8
    | apply f2
    | apply f4
    | apply cat_ok
  all_goals simp only [h8, h2, h4]

theorem summary_enc (w : WorkItem) (h : Paper.SummaryOk w) : summaryEnc w = .ok (Paper.summary w) := by
  have f0 := fix (n := 4) (by decide) h.item.service
  have f1 := (arr_codes 32 _ h.item.codeHash).1
  have f2 := fix (n := 8) (by decide) h.item.refineGas
  have f3 := fix (n := 8) (by decide) h.item.accGas
  have f4 := fix (n := 2) (by decide) h.item.exports
  have f5 := fix (n := 2) (by decide) h.imports
  have f6 := fix (n := 2) (by decide) h.xts
  have f7 := fix (n := 4) (by decide) h.payload
  simp only [summaryEnc, cat, f0, f1, f2, f3, f4, f5, f6, f7, Paper.summary, List.append_assoc, id]

theorem transfer_enc (t : Transfer) (h : Paper.TransferOk t) : Transfer.enc t = .ok (Paper.transfer t) := by
  have f0 := fix (n := 4) (by decide) h.sender
  have f1 := fix (n := 4) (by decide) h.dest
  have f2 := fix (n := 8) (by decide) h.amount
  have f3 := (arr_codes 128 _ h.memo).1
  have f4 := fix (n := 8) (by decide) h.gas
  simp only [Transfer.enc, cat, f0, f1, f2, f3, f4, Paper.transfer, List.append_assoc, id]

theorem input_enc (i : AccInput) (h : Paper.InputOk i) : AccInput.enc i = .ok (Paper.input i) := by
  cases i with
  | operand o => exact cat_ok (a := natEnc 0) (x := [0]) (by decide) ((C49_operand_iff o h.1).mpr h.2)
  | transfer t => exact cat_ok (a := natEnc 1) (x := [1]) (by decide) (transfer_enc t h)

theorem inputs_enc (l : List AccInput) (hl : l.length < 2 ^ 64) (h : ∀ i ∈ l, Paper.InputOk i) :
    vecEnc AccInput.enc l = .ok (Wire.Spec.var Paper.input l) := by
  have h1 := (nat_codes 64 (by decide) l.length hl).1
  have h2 := seqEnc_ok l (fun i hi => input_enc i (h i hi))
  simp only [vecEnc, h1, h2]
  rfl

theorem packageData_paper {P : Params} {k : Consts} {p : WorkPackage} (h : Paper.PackageOk P p) (A : Paper.Args)
    (hp : A.p = some p) (s a b : Nat) (h7 : 7 ≤ s) (h13 : s ≤ 13) (h11 : s ≠ 11) :
    packageData p s a = ofOption (Paper.fetch k A s a b) := by
  have hs : s = 7 ∨ s = 8 ∨ s = 9 ∨ s = 10 ∨ s = 12 ∨ s = 13 := by omega
  unfold packageData
  rcases hs with rfl | rfl | rfl | rfl | rfl | rfl
  · simp only [Paper.fetch, hp, if_true, (package_codes P p h.package).1]; rfl
  · simp only [Paper.fetch, hp]; rfl
  · simp only [Paper.fetch, hp]; rfl
  · simp only [Paper.fetch, hp, (ctx_codes p.ctx h.package.ctx).1]; rfl
  · simp only [Paper.fetch, hp]
    rw [if_neg (by decide), if_neg (by decide), if_neg (by decide), if_neg (by decide), if_neg (by decide), if_true]
    show _ = ofOption (Option.map Paper.summary p.items[a]?)
    cases e : p.items[a]? with
    | none => rfl
    | some w => simp only [summary_enc w (h.summaries w (List.mem_of_getElem? e))]; rfl
  · simp only [Paper.fetch, hp]; rfl

theorem xtOf_paper {P : Params} {a : RefineArgs} (h : Paper.RefineOk P a) (i j : Nat) (w : WorkItem)
    (hw : a.package.items[i]? = some w) : xtOf a w j = ofOption (Paper.at2 (Paper.xtsOf a.xtData a.package) i j) := by
  unfold Paper.at2 Paper.xtsOf xtOf
  rw [List.getElem?_map, hw]
  show _ = ofOption (w.xts.map (fun x => (a.xtData x).getD []))[j]?
  rw [List.getElem?_map]
  cases e : w.xts[j]? with
  | none => rfl
  | some x =>
    obtain ⟨b, hb⟩ := h.known w (List.mem_of_getElem? hw) x (List.mem_of_getElem? e)
    show ofOption (a.xtData x) = ofOption (some ((a.xtData x).getD []))
    rw [hb]
    rfl

theorem importData_paper {P : Params} {k : Consts} {a : RefineArgs} (h : Paper.RefineOk P a) (s x y : Nat)
    (h3 : 3 ≤ s) (h6 : s ≤ 6) :
    importData a s x y = ofOption (Paper.fetch k (Paper.argsOf (.refine a)) s x y) := by
  have hs : s = 3 ∨ s = 4 ∨ s = 5 ∨ s = 6 := by omega
  unfold importData
  rcases hs with rfl | rfl | rfl | rfl
  · show _ = ofOption (Paper.at2 (Paper.xtsOf a.xtData a.package) x y)
    rw [if_pos rfl]
    cases e : a.package.items[x]? with
    | none =>
      unfold Paper.at2 Paper.xtsOf
      rw [List.getElem?_map, e]
      rfl
    | some w => exact xtOf_paper h x y w e
  · show _ = ofOption (Paper.at2 (Paper.xtsOf a.xtData a.package) a.item x)
    rw [if_neg (by decide), if_pos rfl, List.getElem?_eq_getElem h.item]
    exact xtOf_paper h a.item x _ (List.getElem?_eq_getElem h.item)
  · show _ = ofOption (Paper.at2 a.imports x y)
    rw [if_neg (by decide), if_neg (by decide), if_pos rfl]
    unfold Paper.at2
    cases a.imports[x]? with
    | none => rfl
    | some l => rfl
  · show _ = ofOption (Paper.at2 a.imports a.item x)
    have hi : a.item < a.imports.length := by rw [h.imports]; exact h.item
    rw [if_neg (by decide), if_neg (by decide), if_neg (by decide), if_pos rfl]
    unfold Paper.at2
    rw [List.getElem?_eq_getElem hi]
    rfl

/-- **C59**, as far as it holds. In every invocation and for every register contents, except for the
list of item summaries (selector 11), `fetch` serves what the Gray Paper serves, and answers NONE exactly when the
paper does; it neither fails nor panics. (For selectors 14 and 15 operands have traces without octets of 128 or
more: `Paper.InputOk`.) -/
theorem C59_fetch_partial (P : Params) (k : Consts) (hk : Paper.ConstsOk k) (ctx : Ctx) (h : Paper.CtxOk P ctx)
    (s a b : Nat) (h11 : s ≠ 11) :
    fetch k ctx s a b = ofOption (Paper.fetch k (Paper.argsOf ctx) s a b) := by
  by_cases c0 : s = 0
  · subst c0
    have e : hard (constsEnc k) = ofOption (some (Paper.constants k)) := by rw [consts_enc k hk]; rfl
    cases ctx <;> exact e
  cases ctx with
  | auth p =>
    unfold fetch
    simp only []
    rw [if_neg c0]
    by_cases c : 7 ≤ s ∧ s ≤ 13
    · rw [if_pos c]
      exact packageData_paper h _ rfl s a b c.1 c.2 h11
    · rw [if_neg c]
      have : Paper.fetch k (Paper.argsOf (.auth p)) s a b = none := by
        unfold Paper.fetch
        split <;> first | rfl | omega
      rw [this]
      rfl
  | refine r =>
    unfold fetch
    simp only []
    rw [if_neg c0]
    by_cases c1 : s = 1
    · subst c1; rfl
    rw [if_neg c1]
    by_cases c2 : s = 2
    · subst c2; rfl
    rw [if_neg c2]
    by_cases c3 : 3 ≤ s ∧ s ≤ 6
    · rw [if_pos c3]
      exact importData_paper h s a b c3.1 c3.2
    rw [if_neg c3]
    by_cases c : 7 ≤ s ∧ s ≤ 13
    · rw [if_pos c]
      exact packageData_paper (Paper.RefineOk.package h) _ rfl s a b c.1 c.2 h11
    · rw [if_neg c]
      have : Paper.fetch k (Paper.argsOf (.refine r)) s a b = none := by
        unfold Paper.fetch
        split <;> first | rfl | omega
      rw [this]
      rfl
  | acc n l =>
    obtain ⟨hl, hi⟩ := h
    unfold fetch
    simp only []
    rw [if_neg c0]
    by_cases c1 : s = 1
    · subst c1; rfl
    rw [if_neg c1]
    by_cases c14 : s = 14
    · subst c14
      rw [if_pos rfl, inputs_enc l hl hi]
      rfl
    rw [if_neg c14]
    by_cases c15 : s = 15
    · subst c15
      rw [if_pos rfl]
      show _ = ofOption ((l[a]?).map Paper.input)
      cases e : l[a]? with
      | none => rfl
      | some i => simp only [input_enc i (hi i (List.mem_of_getElem? e))]; rfl
    · rw [if_neg c15]
      have : Paper.fetch k (Paper.argsOf (.acc n l)) s a b = none := by
        unfold Paper.fetch
        split <;> first | rfl | omega
      rw [this]
      rfl

/-! ## An example -/

def exConsts : Consts :=
  ⟨10, 1, 100, 341, 19200, 600, 10000000, 50000000, 5000000000, 3500000000, 8, 16, 8, 16, 14400, 2, 8, 6, 80, 10, 128, 5,
   1023, 64000, 13791360, 4000000, 684, 3072, 6, 49152, 128, 3072, 500⟩

theorem exConsts_ok : Paper.ConstsOk exConsts := ⟨by decide, by decide, by decide⟩

def exArgs : RefineArgs :=
  { item := 0, package := exPackage, trace := [7, 200], imports := [[[1], [2, 3]]],
    xtData := fun x => some [UInt8.ofNat x.length], entropy := [] }

theorem exArgs_ok : Paper.RefineOk exP exArgs := by
  refine ⟨⟨exPackage_ok, ?_⟩, by decide, by decide, fun _ _ x _ => ⟨_, rfl⟩⟩
  intro w hw
  have h := exPackage_ok.items w hw
  simp only [exArgs, exPackage, List.mem_singleton] at hw
  subst hw
  exact ⟨h, by decide, by decide, by decide⟩

example : fetch exConsts (.refine exArgs) 6 1 0 = .data [2, 3] :=
  C59_fetch_partial exP exConsts exConsts_ok (.refine exArgs) exArgs_ok 6 1 0 (by decide)
example : fetch exConsts (.refine exArgs) 3 0 0 = .data [99] :=
  C59_fetch_partial exP exConsts exConsts_ok (.refine exArgs) exArgs_ok 3 0 0 (by decide)
example : fetch exConsts (.auth exPackage) 14 0 0 = .none :=
  C59_fetch_partial exP exConsts exConsts_ok (.auth exPackage) exArgs_ok.package 14 0 0 (by decide)

/-! ## Departures -/

theorem summary_length (w : WorkItem) (h : Paper.SummaryOk w) : (Paper.summary w).length = 62 := by
  have hl : ∀ n x, (paperFixed n x).length = n := by
    intro n
    induction n with
    | zero => intro x; rfl
    | succ n ih => intro x; simp only [paperFixed, List.length_cons]; rw [ih]
  unfold Paper.summary
  simp only [List.length_append, hl, h.item.codeHash]

theorem summaries_ok (ws : List WorkItem) (h : ∀ w ∈ ws, Paper.SummaryOk w) :
    summaries ws = some (ws.map Paper.summary) := by
  induction ws with
  | nil => rfl
  | cons w ws ih =>
    unfold summaries
    rw [summary_enc w (h w (List.mem_cons_self ..)), ih fun w hw => h w (List.mem_cons_of_mem _ hw)]
    rfl

/-- The surplus of one octet string in the encoding of the code: one octet for each octet of 128 or more. -/
def surplus (b : Bytes) : Nat := b.countP fun x => decide (128 ≤ x.toNat)

theorem blobs_len (bs : List Bytes) (h : ∀ b ∈ bs, b.length = 62) : ∃ out, seqEnc vecU8Enc bs = .ok out ∧
    out.length = 63 * bs.length + (bs.map surplus).sum := by
  induction bs with
  | nil => exact ⟨[], rfl, rfl⟩
  | cons b bs ih =>
    obtain ⟨out, h1, h2⟩ := ih fun b hb => h b (List.mem_cons_of_mem _ hb)
    obtain ⟨x, e1, e2⟩ := byteSeq_len b
    have hb := h b (List.mem_cons_self ..)
    have hn : natEnc b.length = .ok [62] := by rw [hb]; decide
    refine ⟨([62] ++ x) ++ out, ?_, ?_⟩
    · have hv : vecU8Enc b = .ok ([62] ++ x) := by simp only [vecU8Enc, vecEnc, hn, e1]
      simp only [seqEnc, hv, h1]
    · simp only [List.length_append, List.length_cons, List.length_nil, List.map_cons, List.sum_cons, surplus, e2, h2, hb]
      omega

/-- **C59** fails for selector 11: the list of summaries is longer than the Gray Paper's by one octet for every
item (a length the paper does not have) and one for every octet of 128 or more. -/
theorem C59_summaries_length (P : Params) (p : WorkPackage) (h : Paper.PackageOk P p) (k : Consts) (a b : Nat) :
    ∃ out, fetch k (.auth p) 11 a b = .data out ∧
      Paper.fetch k (Paper.argsOf (.auth p)) 11 a b = some (Wire.Spec.var Paper.summary p.items) ∧
      out.length = (Wire.Spec.var Paper.summary p.items).length + p.items.length +
        (p.items.map fun w => surplus (Paper.summary w)).sum := by
  have hs := summaries_ok p.items h.summaries
  have hl : ∀ b ∈ p.items.map Paper.summary, b.length = 62 := by
    intro b hb
    obtain ⟨w, hw, rfl⟩ := List.mem_map.mp hb
    exact summary_length w (h.summaries w hw)
  obtain ⟨x, e1, e2⟩ := blobs_len _ hl
  have hn := (nat_codes 64 (by decide) p.items.length h.package.itemSize).1
  have hn' : natEnc (p.items.map Paper.summary).length = .ok (Wire.Spec.nat p.items.length) := by
    rw [List.length_map]; exact hn
  refine ⟨Wire.Spec.nat p.items.length ++ x, ?_, rfl, ?_⟩
  · show summariesData p = _
    unfold summariesData
    rw [hs]
    simp only [vecEnc, hn', e1]
    rfl
  · have hv : (Wire.Spec.seq Paper.summary p.items).length = 62 * p.items.length := by
      have : ∀ ws : List WorkItem, (∀ w ∈ ws, Paper.SummaryOk w) →
          (Wire.Spec.seq Paper.summary ws).length = 62 * ws.length := by
        intro ws
        induction ws with
        | nil => intro _; rfl
        | cons w ws ih =>
          intro hw
          have := ih fun w h => hw w (List.mem_cons_of_mem _ h)
          simp only [Wire.Spec.seq, List.flatMap_cons, List.length_append, List.length_cons,
            summary_length w (hw w (List.mem_cons_self ..))] at this ⊢
          omega
      exact this _ h.summaries
    unfold Wire.Spec.var
    rw [List.length_append, List.length_append, e2, hv, List.length_map, List.map_map]
    have : (surplus ∘ Paper.summary) = fun w => surplus (Paper.summary w) := rfl
    rw [this]
    omega

/-- **C59** fails for selector 11 whenever there is an item. -/
theorem C59_summaries_wrong (P : Params) (p : WorkPackage) (h : Paper.PackageOk P p) (hne : p.items ≠ [])
    (k : Consts) (a b : Nat) :
    fetch k (.auth p) 11 a b ≠ ofOption (Paper.fetch k (Paper.argsOf (.auth p)) 11 a b) := by
  obtain ⟨out, h1, h2, h3⟩ := C59_summaries_length P p h k a b
  rw [h1, h2]
  intro e
  injection e with e
  rw [e] at h3
  have := List.length_pos_iff.mpr hne
  omega

example : fetch exConsts (.auth exPackage) 11 0 0 ≠
    ofOption (Paper.fetch exConsts (Paper.argsOf (.auth exPackage)) 11 0 0) :=
  C59_summaries_wrong exP exPackage exArgs_ok.package (by decide) exConsts 0 0

/-- The own-item selectors index without a check: refinement of an item that is not in the package, or for which
there is no list of imports, panics. -/
theorem C59_own_item_unchecked (k : Consts) (a : RefineArgs) (x y : Nat) :
    (a.package.items.length ≤ a.item → fetch k (.refine a) 4 x y = .panic) ∧
    (a.imports.length ≤ a.item → fetch k (.refine a) 6 x y = .panic) := by
  refine ⟨fun h => ?_, fun h => ?_⟩
  · show importData a 4 x y = _
    unfold importData
    rw [if_neg (by decide), if_pos rfl, List.getElem?_eq_none h]
  · show importData a 6 x y = _
    unfold importData
    rw [if_neg (by decide), if_neg (by decide), if_neg (by decide), if_pos rfl, List.getElem?_eq_none h]

example : fetch exConsts (.refine { exArgs with imports := [] }) 6 0 0 = .panic :=
  (C59_own_item_unchecked exConsts { exArgs with imports := [] } 0 0).2 (by decide)

end Fastroll.Fetch
