import Verif.Da.AvailSpec
import Verif.Da.Lemmas2
import Verif.Merkle.Props
import Verif.Wire.Lemmas2
/-! # Lemmas: pages of proofs and the erasure tree -/
namespace Fastroll.Da
open Fastroll.Merkle
open Fastroll.Wire (arrEnc arrDec cat arr_codes vec_codes cat_ok)
open Fastroll.Codec (vecEnc vecDec pairEnc pairDec)

/-! ## Pages -/

theorem spec_nat_small (x : Nat) (h : x < 128) : (Wire.Spec.nat x).length = 1 := by
  have hc : Wire.Spec.natClass x = 0 := by simp [Wire.Spec.natClass, h]
  unfold Wire.Spec.nat
  rw [hc]
  simp [Codec.paperFixed]

theorem seq_id_length (l : List Bytes) (h : ∀ x ∈ l, x.length = 32) :
    (Wire.Spec.seq id l).length = 32 * l.length := by
  unfold Wire.Spec.seq
  induction l with
  | nil => rfl
  | cons a l ih =>
    rw [List.flatMap_cons, List.length_append, ih (fun x hx => h x (List.mem_cons_of_mem _ hx)), id,
      h a (List.mem_cons_self ..), List.length_cons]
    omega

theorem hashes_enc (l : List Bytes) (hl : l.length < 128) (h : ∀ x ∈ l, x.length = 32) :
    vecEnc arrEnc l = .ok (Wire.Spec.var id l) ∧ (Wire.Spec.var id l).length = 1 + 32 * l.length ∧
    ∀ rest, vecDec 32 (arrDec 32) (Wire.Spec.var id l ++ rest) = .ok (l, rest) := by
  obtain ⟨h1, h2⟩ := vec_codes 32 (by decide) (arr_codes 32) l ⟨by unfold Wire.Spec.Fits; omega, h⟩
  refine ⟨h1, ?_, h2⟩
  unfold Wire.Spec.var
  rw [List.length_append, spec_nat_small _ hl, seq_id_length l h]

theorem log2_lt (n : Nat) (h : n < 2 ^ 63) : (nextPow2 n).log2 ≤ 63 := by
  unfold nextPow2
  split
  · decide
  · rw [Nat.log2_two_pow]
    have : (n - 1).log2 < 63 := (Nat.log2_lt (by omega)).mpr (by omega)
    omega

theorem trace_items (h : Bytes → Bytes) (hh : ∀ b, (h b).length = 32) (segs : List Bytes) (idx : Nat) :
    ∀ s ∈ trace h (preprocess h segs) idx, s.length = 32 := by
  refine trace_items_length h hh _ _ rfl ?_ idx
  intro d hd
  unfold preprocess at hd
  cases segs with
  | nil =>
    simp only [List.mem_singleton] at hd
    rw [hd]; rfl
  | cons a t =>
    rcases List.mem_append.mp hd with h' | h'
    · obtain ⟨x, _, rfl⟩ := List.mem_map.mp h'
      exact hh _
    · rw [List.eq_of_mem_replicate h']; rfl

theorem just_items (h : Bytes → Bytes) (hh : ∀ b, (h b).length = 32) (segs : List Bytes) (page depth : Nat) :
    ∀ s ∈ pageJustification h segs page depth, s.length = 32 := by
  intro s hs
  unfold pageJustification resize at hs
  rcases List.mem_append.mp hs with h' | h'
  · exact trace_items h hh segs _ s (List.mem_of_mem_take h')
  · rw [List.eq_of_mem_replicate h']; rfl

theorem pageLeaves_eq (h : Bytes → Bytes) (segs : List Bytes) (page : Nat) (hp : 64 * page ≤ segs.length) :
    pageLeafHashes h segs page pageDepth = some (pageOf h segs page) := by
  unfold pageLeafHashes pageDepth
  simp only [show (2 : Nat) ^ 6 = 64 from rfl]
  rw [if_pos (Nat.le_min.mpr ⟨hp, Nat.le_add_right _ _⟩)]
  unfold pageOf pageOf.slicePage
  congr 2
  rw [List.drop_take]
  by_cases hc : 64 * page + 64 ≤ segs.length
  · rw [Nat.min_eq_right hc]; congr 1; omega
  · rw [Nat.min_eq_left (by omega), List.take_of_length_le (by simp), List.take_of_length_le (by simp; omega)]

theorem pageOf_length (h : Bytes → Bytes) (segs : List Bytes) (page : Nat) :
    (pageOf h segs page).length = min 64 (segs.length - 64 * page) := by
  simp [pageOf, pageOf.slicePage]

theorem just_length (h : Bytes → Bytes) (segs : List Bytes) (hne : segs ≠ []) (page : Nat)
    (hp : 64 * page < segs.length) :
    (pageJustification h segs page pageDepth).length = (nextPow2 segs.length).log2 - 6 := by
  by_cases hd : 6 ≤ (nextPow2 segs.length).log2
  · exact (C06_page_justification h segs hne page 6 hd
      (Nat.lt_of_lt_of_le hp (le_nextPow2 _))).1
  · unfold pageJustification pageDepth
    rw [show (nextPow2 segs.length).log2 - 6 = 0 by omega]
    simp [resize]

theorem page_leads (h : Bytes → Bytes) (segs : List Bytes) (hne : segs ≠ []) (page : Nat)
    (hp : 64 * page < segs.length) :
    PageLeadsTo h segs.length page (pageJustification h segs page pageDepth) (pageOf h segs page)
      (constantRoot h segs) := by
  have hle := le_nextPow2 segs.length
  have hpow := nextPow2_pow segs.length
  unfold PageLeadsTo pageWidth
  by_cases hd : 6 ≤ (nextPow2 segs.length).log2
  · have h64 : 64 ≤ nextPow2 segs.length := by
      rw [hpow]; exact Nat.pow_le_pow_right (by decide : 0 < 2) hd
    obtain ⟨ls, l1, l2⟩ := C06_page_leaves h segs hne page 6 hd (Nat.le_of_lt hp)
      (Nat.lt_of_lt_of_le hp hle)
    have := pageLeaves_eq h segs page (Nat.le_of_lt hp)
    rw [show pageDepth = 6 from rfl, l1] at this
    injection this with this
    subst this
    have l2' : pageOf h segs page ++ List.replicate (64 - (pageOf h segs page).length) zeroHash =
      ((preprocess h segs).drop (64 * page)).take 64 := l2
    rw [Nat.min_eq_left h64, l2']
    exact (C06_page_justification h segs hne page 6 hd (Nat.lt_of_lt_of_le hp hle)).2
  · have hsm : nextPow2 segs.length ≤ 32 := by
      rw [hpow]; exact Nat.pow_le_pow_right (by decide : 0 < 2) (show (nextPow2 segs.length).log2 ≤ 5 by omega)
    have hpg : page = 0 := by omega
    subst hpg
    have hj : pageJustification h segs 0 pageDepth = [] := by
      have := just_length h segs hne 0 hp
      exact List.length_eq_zero_iff.mp (by omega)
    rw [hj, Nat.min_eq_right (by omega), pageOf_length]
    unfold recompute
    unfold constantRoot
    cases segs with
    | nil => exact absurd rfl hne
    | cons a t =>
      simp only []
      congr 1
      unfold preprocess pageOf pageOf.slicePage
      simp only []
      rw [Nat.mul_zero, List.drop_zero, Nat.sub_zero, Nat.min_eq_right (by omega),
        List.take_of_length_le (by omega)]

theorem pageProof_ok (h : Bytes → Bytes) (hh : ∀ b, (h b).length = 32) (segs : List Bytes)
    (hlen : segs.length < 2 ^ 63) (page : Nat) (hp : 64 * page < segs.length) :
    ∃ blob rest, pageProof h segs page = .ok blob ∧ blob.length = 4104 ∧
      readPage blob = .ok ((pageJustification h segs page pageDepth, pageOf h segs page), rest) ∧
      ∀ x ∈ rest, x = 0 := by
  have hne : segs ≠ [] := by intro h; subst h; simp at hp
  have hj := just_length h segs hne page hp
  have hlog := log2_lt segs.length hlen
  have hl := pageOf_length h segs page
  obtain ⟨j1, j2, j3⟩ := hashes_enc (pageJustification h segs page pageDepth) (by omega)
    (just_items h hh segs page pageDepth)
  obtain ⟨l1, l2, l3⟩ := hashes_enc (pageOf h segs page) (by omega) (by
    intro x hx
    obtain ⟨y, _, rfl⟩ := List.mem_map.mp hx
    exact hh _)
  generalize hJ : pageJustification h segs page pageDepth = J at *
  generalize hL : pageOf h segs page = L at *
  have hbuf : (Wire.Spec.var id J ++ Wire.Spec.var id L).length = 2 + 32 * J.length + 32 * L.length := by
    rw [List.length_append, j2, l2]; omega
  refine ⟨(Wire.Spec.var id J ++ Wire.Spec.var id L) ++
    List.replicate (4104 - (2 + 32 * J.length + 32 * L.length)) 0,
    List.replicate (4104 - (2 + 32 * J.length + 32 * L.length)) 0, ?_, ?_, ?_, ?_⟩
  · unfold pageProof
    rw [pageLeaves_eq h segs page (Nat.le_of_lt hp), hL, hJ]
    simp only []
    rw [cat_ok j1 l1]
    simp only [ofCodec, Res.bind]
    have hz : zeroPad segmentSize (Wire.Spec.var id J ++ Wire.Spec.var id L) =
        some ((Wire.Spec.var id J ++ Wire.Spec.var id L) ++
          List.replicate (4104 - (2 + 32 * J.length + 32 * L.length)) 0) := by
      unfold zeroPad segmentSize
      rw [if_neg (by decide)]
      have he : (Wire.Spec.var id J ++ Wire.Spec.var id L).isEmpty = false := by
        cases hq : Wire.Spec.var id J ++ Wire.Spec.var id L with
        | nil => rw [hq] at hbuf; simp only [List.length_nil] at hbuf; omega
        | cons => rfl
      dsimp only
      rw [he]
      simp only [Bool.false_eq_true, if_false]
      rw [hbuf]
      have : (2 + 32 * J.length + 32 * L.length + 4104 - 1) / 4104 * 4104 = 4104 := by
        have : (2 + 32 * J.length + 32 * L.length + 4104 - 1) / 4104 = 1 := by omega
        rw [this]
      rw [this, List.take_of_length_le (by omega)]
    rw [hz]
    simp only []
    rw [if_pos]
    rw [List.length_append, hbuf, List.length_replicate]
    unfold segmentSize
    omega
  · rw [List.length_append, hbuf, List.length_replicate]
    omega
  · unfold readPage pairDec
    rw [List.append_assoc]
    unfold Codec.Dec.bind
    rw [j3]
    simp only []
    rw [l3]
    rfl
  · intro x hx
    exact List.eq_of_mem_replicate hx

theorem sequence_ok {α β : Type} (f : α → Res β) (Q : α → β → Prop) : ∀ (as : List α),
    (∀ a ∈ as, ∃ b, f a = .ok b ∧ Q a b) →
    ∃ bs, sequence f as = .ok bs ∧ bs.length = as.length ∧
      ∀ (i : Nat) (a : α), as[i]? = some a → ∃ b, bs[i]? = some b ∧ f a = .ok b ∧ Q a b := by
  intro as
  induction as with
  | nil => intro _; exact ⟨[], rfl, rfl, fun i a h => by cases h⟩
  | cons a as ih =>
    intro h
    obtain ⟨b, hb, hq⟩ := h a (List.mem_cons_self ..)
    obtain ⟨bs, h1, h2, h3⟩ := ih (fun x hx => h x (List.mem_cons_of_mem _ hx))
    refine ⟨b :: bs, ?_, by simp [h2], ?_⟩
    · unfold sequence
      rw [hb, h1]
      rfl
    · intro i x hx
      cases i with
      | zero => cases hx; exact ⟨b, rfl, hb, hq⟩
      | succ i => exact h3 i x hx

/-! ## Transposition -/

def cell (t : List (List Bytes)) (j i : Nat) : Option Bytes := (t[j]?).bind fun r => r[i]?

def Grid (V m : Nat) (t : List (List Bytes)) : Prop := t.length = V ∧ ∀ r ∈ t, r.length = m

theorem setCell_ok {V m : Nat} {t : List (List Bytes)} (hg : Grid V m t) (j i : Nat) (hj : j < V) (hi : i < m)
    (c : Bytes) : ∃ t', setCell t j i c = some t' ∧ Grid V m t' ∧
      ∀ j' i', cell t' j' i' = if j' = j ∧ i' = i then some c else cell t j' i' := by
  obtain ⟨h1, h2⟩ := hg
  have hj' : j < t.length := by omega
  have hr : (t[j]).length = m := h2 _ (List.getElem_mem hj')
  refine ⟨t.set j ((t[j]).set i c), ?_, ⟨by simp [h1], ?_⟩, ?_⟩
  · unfold setCell
    rw [List.getElem?_eq_getElem hj']
    simp only []
    rw [if_pos (by omega)]
  · intro r hm
    rcases List.mem_or_eq_of_mem_set hm with h | h
    · exact h2 r h
    · rw [h, List.length_set]; exact hr
  · intro j' i'
    unfold cell
    rw [List.getElem?_set]
    by_cases e : j = j'
    · subst e
      rw [if_pos rfl, if_pos hj', Option.bind_some, List.getElem?_set]
      by_cases e2 : i = i'
      · subst e2
        rw [if_pos rfl, if_pos (by omega), if_pos ⟨rfl, rfl⟩]
      · rw [if_neg e2, if_neg (fun h => e2 h.2.symm), List.getElem?_eq_getElem hj', Option.bind_some]
    · rw [if_neg e, if_neg (fun h => e h.1.symm)]

theorem setColumn_aux {V m : Nat} (i : Nat) (hi : i < m) : ∀ (cs : List Bytes) (o : Nat) (t : List (List Bytes)),
    Grid V m t → o + cs.length ≤ V →
    ∃ t', (cs.zipIdx o).foldlM (fun t x => setCell t x.2 i x.1) t = some t' ∧ Grid V m t' ∧
      ∀ j' i', cell t' j' i' =
        if i' = i ∧ o ≤ j' ∧ j' < o + cs.length then cs[j' - o]? else cell t j' i' := by
  intro cs
  induction cs with
  | nil =>
    intro o t hg _
    refine ⟨t, rfl, hg, ?_⟩
    intro j' i'
    rw [if_neg]
    rintro ⟨_, h2, h3⟩
    simp only [List.length_nil] at h3
    omega
  | cons c cs ih =>
    intro o t hg ho
    rw [List.length_cons] at ho
    obtain ⟨t1, e1, g1, c1⟩ := setCell_ok hg o i (by omega) hi c
    obtain ⟨t2, e2, g2, c2⟩ := ih (o + 1) t1 g1 (by omega)
    refine ⟨t2, ?_, g2, ?_⟩
    · rw [List.zipIdx_cons, List.foldlM_cons, e1]
      exact e2
    · intro j' i'
      rw [c2]
      by_cases a : i' = i ∧ o + 1 ≤ j' ∧ j' < o + 1 + cs.length
      · rw [if_pos a, if_pos ⟨a.1, by omega, by rw [List.length_cons]; omega⟩,
          show j' - o = (j' - (o + 1)) + 1 by omega, List.getElem?_cons_succ]
      · rw [if_neg a, c1]
        by_cases b : j' = o ∧ i' = i
        · rw [if_pos b, if_pos ⟨b.2, by omega, by rw [List.length_cons]; omega⟩, b.1, Nat.sub_self]
          rfl
        · rw [if_neg b, if_neg]
          rintro ⟨x, y, z⟩
          rw [List.length_cons] at z
          rcases Nat.eq_or_lt_of_le y with h | h
          · exact b ⟨h.symm, x⟩
          · exact a ⟨x, by omega, by omega⟩

theorem transpose_aux {V m : Nat} : ∀ (css : List (List Bytes)) (o : Nat) (t : List (List Bytes)),
    Grid V m t → o + css.length ≤ m → (∀ cs ∈ css, cs.length = V) →
    ∃ t', (css.zipIdx o).foldlM (fun t x => setColumn t x.2 x.1) t = some t' ∧ Grid V m t' ∧
      ∀ j' i', j' < V → cell t' j' i' =
        if o ≤ i' ∧ i' < o + css.length then (css[i' - o]?).bind (fun cs => cs[j']?) else cell t j' i' := by
  intro css
  induction css with
  | nil =>
    intro o t hg _ _
    refine ⟨t, rfl, hg, ?_⟩
    intro j' i' _
    rw [if_neg]
    rintro ⟨h2, h3⟩
    simp only [List.length_nil] at h3
    omega
  | cons cs css ih =>
    intro o t hg ho hv
    rw [List.length_cons] at ho
    have hcs := hv cs (List.mem_cons_self ..)
    obtain ⟨t1, e1, g1, c1⟩ := setColumn_aux (V := V) (m := m) o (by omega) cs 0 t hg (by omega)
    obtain ⟨t2, e2, g2, c2⟩ := ih (o + 1) t1 g1 (by omega) (fun x hx => hv x (List.mem_cons_of_mem _ hx))
    refine ⟨t2, ?_, g2, ?_⟩
    · rw [List.zipIdx_cons, List.foldlM_cons]
      show (setColumn t o cs).bind _ = _
      unfold setColumn
      rw [e1]
      exact e2
    · intro j' i' hj
      rw [c2 j' i' hj]
      by_cases a : o + 1 ≤ i' ∧ i' < o + 1 + css.length
      · rw [if_pos a, if_pos ⟨by omega, by rw [List.length_cons]; omega⟩,
          show i' - o = (i' - (o + 1)) + 1 by omega, List.getElem?_cons_succ]
      · rw [if_neg a, c1]
        by_cases b : i' = o
        · rw [if_pos ⟨b, by omega, by omega⟩, if_pos ⟨by omega, by rw [List.length_cons]; omega⟩, b,
            Nat.sub_self]
          rfl
        · rw [if_neg (fun h => b h.1), if_neg]
          rintro ⟨y, z⟩
          rw [List.length_cons] at z
          exact a ⟨by omega, by omega⟩

theorem transpose_eq {V : Nat} (css : List (List Bytes)) (hv : ∀ cs ∈ css, cs.length = V) (z : Bytes) :
    transposeInto (List.replicate V (List.replicate css.length z)) css =
      some ((List.range V).map fun j => css.map fun cs => cs.getD j []) := by
  obtain ⟨t, e, g, c⟩ := transpose_aux (V := V) (m := css.length) css 0 _
    (show Grid V css.length (List.replicate V (List.replicate css.length z)) from
      ⟨List.length_replicate .., fun r hr => by rw [List.eq_of_mem_replicate hr]; exact List.length_replicate ..⟩)
    (by omega) hv
  unfold transposeInto
  rw [e]
  congr 1
  apply List.ext_getElem
  · simp [g.1]
  · intro j h1 h2
    rw [List.getElem_map, List.getElem_range]
    have hj : j < V := g.1 ▸ h1
    have hr : (t[j]).length = css.length := g.2 _ (List.getElem_mem h1)
    apply List.ext_getElem
    · simp [hr]
    · intro i i1 i2
      rw [List.getElem_map]
      have := c j i hj
      have hi : i < css.length := by omega
      unfold cell at this
      rw [List.getElem?_eq_getElem h1, Option.bind_some, List.getElem?_eq_getElem i1,
        if_pos ⟨Nat.zero_le _, by omega⟩, Nat.sub_zero, List.getElem?_eq_getElem hi, Option.bind_some,
        List.getElem?_eq_getElem (by rw [hv _ (List.getElem_mem hi)]; exact hj)] at this
      rw [Option.some.inj this]
      rw [List.getD_eq_getElem?_getD, List.getElem?_eq_getElem (by rw [hv _ (List.getElem_mem hi)]; exact hj)]
      rfl

/-! ## Binding -/

theorem node_len_eq (h : Bytes → Bytes) (hh : ∀ b, (h b).length = 32) (a b : List Bytes)
    (hl : a.map List.length = b.map List.length) : (node h a).length = (node h b).length := by
  have hlen : a.length = b.length := by simpa using congrArg List.length hl
  rcases Nat.lt_or_ge a.length 2 with h2 | h2
  · match a, b with
    | [], [] => rfl
    | [x], [y] => rw [node_one, node_one]; simpa using hl
    | [], _ :: _ => simp at hlen
    | [_], [] => simp at hlen
    | [_], _ :: _ :: _ => simp at hlen
    | _ :: _ :: _, _ => simp at h2; omega
  · rw [node_two h a h2, node_two h b (by omega), hh, hh]

/-- Two lists of items of the same shape with the same `node` are the same list, or show a collision. -/
theorem node_agree (h : Bytes → Bytes) (hh : ∀ b, (h b).length = 32) : ∀ (n : Nat) (a b : List Bytes),
    a.length = n → a.map List.length = b.map List.length → node h a = node h b →
    a = b ∨ Collision h (nodeInputs h a) (nodeInputs h b) := by
  intro n
  induction n using Nat.strongRecOn with
  | _ n ih =>
    intro a b hn hl he
    have hlen : a.length = b.length := by simpa using congrArg List.length hl
    rcases Nat.lt_or_ge a.length 2 with h2 | h2
    · left
      match a, b with
      | [], [] => rfl
      | [x], [y] => rw [node_one, node_one] at he; rw [he]
      | [], _ :: _ => simp at hlen
      | [_], [] => simp at hlen
      | [_], _ :: _ :: _ => simp at hlen
      | _ :: _ :: _, _ => simp at h2; omega
    · have i1 : nodeInputs h a = (nodePrefix ++ node h (a.take (mid a.length)) ++ node h (a.drop (mid a.length))) ::
          (nodeInputs h (a.take (mid a.length)) ++ nodeInputs h (a.drop (mid a.length))) := by
        conv => lhs; unfold nodeInputs
        rw [dif_neg (by omega)]
      have i2 : nodeInputs h b = (nodePrefix ++ node h (b.take (mid b.length)) ++ node h (b.drop (mid b.length))) ::
          (nodeInputs h (b.take (mid b.length)) ++ nodeInputs h (b.drop (mid b.length))) := by
        conv => lhs; unfold nodeInputs
        rw [dif_neg (by omega)]
      rw [node_two h a h2, node_two h b (by omega)] at he
      rw [i1, i2]
      rw [← hlen] at he ⊢
      have t1 : (a.take (mid a.length)).map List.length = (b.take (mid a.length)).map List.length := by
        rw [List.map_take, List.map_take, hl]
      have t2 : (a.drop (mid a.length)).map List.length = (b.drop (mid a.length)).map List.length := by
        rw [List.map_drop, List.map_drop, hl]
      have hm : mid a.length < a.length := by unfold mid; omega
      have hm0 : 0 < mid a.length := by unfold mid; omega
      by_cases heq : nodePrefix ++ node h (a.take (mid a.length)) ++ node h (a.drop (mid a.length)) =
          nodePrefix ++ node h (b.take (mid a.length)) ++ node h (b.drop (mid a.length))
      · obtain ⟨e1, e2⟩ := nodeInput_inj (node_len_eq h hh _ _ t1) heq
        rcases ih _ (by rw [List.length_take]; omega) _ _ rfl t1 e1 with r1 | ⟨x, hx, y, hy, hxy⟩
        · rcases ih _ (by rw [List.length_drop]; omega) _ _ rfl t2 e2 with r2 | ⟨x, hx, y, hy, hxy⟩
          · left
            rw [← List.take_append_drop (mid a.length) a, r1, r2, List.take_append_drop]
          · exact .inr ⟨x, List.mem_cons_of_mem _ (List.mem_append_right _ hx), y,
              List.mem_cons_of_mem _ (List.mem_append_right _ hy), hxy⟩
        · exact .inr ⟨x, List.mem_cons_of_mem _ (List.mem_append_left _ hx), y,
            List.mem_cons_of_mem _ (List.mem_append_left _ hy), hxy⟩
      · exact .inr ⟨_, List.mem_cons_self, _, List.mem_cons_self, heq, he⟩

theorem recompute_len_eq (h : Bytes → Bytes) (hh : ∀ b, (h b).length = 32) (n idx : Nat) (p q : List Bytes)
    (a b : Bytes) (hl : p.length = q.length) (hab : a.length = b.length) :
    (recompute h n idx p a).length = (recompute h n idx q b).length := by
  match p, q with
  | [], [] => exact hab
  | [], _ :: _ => simp at hl
  | _ :: _, [] => simp at hl
  | _ :: _, _ :: _ => unfold recompute; split <;> rw [hh, hh]

/-- Openings of the same position whose parts have the same lengths agree or show a collision. -/
theorem openings_agree' (h : Bytes → Bytes) (hh : ∀ b, (h b).length = 32) :
    ∀ (p q : List Bytes) (n idx : Nat) (a b : Bytes), p.map List.length = q.map List.length →
    a.length = b.length → recompute h n idx p a = recompute h n idx q b →
    (a = b ∧ p = q) ∨ Collision h (verifierInputs h n idx p a) (verifierInputs h n idx q b) := by
  intro p
  induction p with
  | nil =>
    intro q n idx a b hpq _ he
    have : q = [] := by
      cases q with
      | nil => rfl
      | cons => simp at hpq
    subst this
    exact .inl ⟨by simpa [recompute] using he, rfl⟩
  | cons s p ih =>
    intro q n idx a b hpq hab he
    cases q with
    | nil => simp at hpq
    | cons t q =>
      rw [List.map_cons, List.map_cons, List.cons.injEq] at hpq
      have hpl : p.length = q.length := by simpa using congrArg List.length hpq.2
      simp only [recompute, verifierInputs] at he ⊢
      by_cases hc : idx < (n + 1) / 2
      · simp only [hc, if_true] at he ⊢
        by_cases heq : nodePrefix ++ recompute h ((n + 1) / 2) idx p a ++ s =
            nodePrefix ++ recompute h ((n + 1) / 2) idx q b ++ t
        · obtain ⟨e1, e2⟩ := nodeInput_inj (recompute_len_eq h hh _ _ p q a b hpl hab) heq
          rcases ih q _ _ a b hpq.2 hab e1 with ⟨r1, r2⟩ | ⟨x, hx, y, hy, hxy⟩
          · exact .inl ⟨r1, by rw [r2, e2]⟩
          · exact .inr ⟨x, List.mem_cons_of_mem _ hx, y, List.mem_cons_of_mem _ hy, hxy⟩
        · exact .inr ⟨_, List.mem_cons_self, _, List.mem_cons_self, heq, he⟩
      · simp only [hc, if_false] at he ⊢
        by_cases heq : nodePrefix ++ s ++ recompute h (n / 2) (idx - (n + 1) / 2) p a =
            nodePrefix ++ t ++ recompute h (n / 2) (idx - (n + 1) / 2) q b
        · obtain ⟨e1, e2⟩ := nodeInput_inj hpq.1 heq
          rcases ih q _ _ a b hpq.2 hab e2 with ⟨r1, r2⟩ | ⟨x, hx, y, hy, hxy⟩
          · exact .inl ⟨r1, by rw [r2, e1]⟩
          · exact .inr ⟨x, List.mem_cons_of_mem _ hx, y, List.mem_cons_of_mem _ hy, hxy⟩
        · exact .inr ⟨_, List.mem_cons_self, _, List.mem_cons_self, heq, he⟩

end Fastroll.Da
