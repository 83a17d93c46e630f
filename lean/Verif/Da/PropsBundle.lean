import Verif.Da.BundleModel
import Verif.Wire.Lemmas3
import Verif.Wire.Props
/-! # The auditable bundle (C56) -/
namespace Fastroll.Da
open Fastroll.Codec
open Fastroll.Wire

/-! ## Specification -/

/-- The data of a bundle has the shape its package declares: for every item as many extrinsics as it lists,
each of the declared length, and as many segments and justifications as it imports. -/
structure Shaped (size : Nat) (b : Bundle) : Prop where
  xts : b.xts.map (fun l => l.map List.length) = b.package.items.map (fun w => w.xts.map XtInfo.length)
  imports : b.imports.map List.length = b.package.items.map (fun w => w.imports.length)
  segments : ∀ l ∈ b.imports, ∀ s ∈ l, s.length = size
  justs : b.justs.map List.length = b.package.items.map (fun w => w.imports.length)
  paths : ∀ l ∈ b.justs, ∀ j ∈ l, Wire.Spec.Fits j.length 32 ∧ ∀ n ∈ j, n.length = 32

/-- The Gray Paper's layout: the package, then the extrinsics and the segments as plain octets, then the
justifications, each with its length. -/
def paperBundle (b : Bundle) : Wire.Bytes :=
  Wire.Spec.package b.package ++ (b.xts.flatten.flatten ++ (b.imports.flatten.flatten ++
    Wire.Spec.seq (Wire.Spec.seq (Wire.Spec.var id)) b.justs))

/-- The layout the code writes: every octet of a segment as a variable-length natural. -/
def codeBundle (b : Bundle) : Wire.Bytes :=
  Wire.Spec.package b.package ++ (b.xts.flatten.flatten ++
    (Wire.Spec.seq (Wire.Spec.seq (Wire.Spec.seq fun x : UInt8 => Wire.Spec.nat x.toNat)) b.imports ++
    Wire.Spec.seq (Wire.Spec.seq (Wire.Spec.var id)) b.justs))

/-! ## Lemmas -/

/-- The decoder reads exactly these octets as this value. -/
def Reads {α : Type} (d : Dec α) (s : Wire.Bytes) (a : α) : Prop := ∀ rest, d (s ++ rest) = .ok (a, rest)

theorem each_reads {α : Type} (f : α → Wire.Bytes) : ∀ (ds : List (Dec α)) (as : List α), ds.length = as.length →
    (∀ (i : Nat) (d : Dec α) (a : α), ds[i]? = some d → as[i]? = some a → Reads d (f a) a) →
    Reads (eachDec ds) (Wire.Spec.seq f as) as := by
  intro ds
  induction ds with
  | nil =>
    intro as hl _ rest
    have : as = [] := List.length_eq_zero_iff.mp hl.symm
    subst this
    rfl
  | cons d ds ih =>
    intro as hl h rest
    cases as with
    | nil => simp at hl
    | cons a as =>
      have h0 := h 0 d a rfl rfl
      have h1 := ih as (by simpa using hl) (fun i d' a' hd ha => h (i + 1) d' a' hd ha)
      unfold Wire.Spec.seq at h1 ⊢
      rw [List.flatMap_cons, List.append_assoc]
      unfold eachDec
      rw [bind_ok (h0 _), bind_ok (h1 _)]
      rfl

theorem map_get {α β γ : Type} {f : α → γ} {g : β → γ} {as : List α} {bs : List β}
    (h : as.map f = bs.map g) (i : Nat) (a : α) (b : β) (ha : as[i]? = some a) (hb : bs[i]? = some b) :
    f a = g b := by
  have := congrArg (fun l => l[i]?) h
  simp only [List.getElem?_map, ha, hb, Option.map_some] at this
  exact Option.some.inj this

theorem map_len {α β γ : Type} {f : α → γ} {g : β → γ} {as : List α} {bs : List β}
    (h : as.map f = bs.map g) : as.length = bs.length := by simpa using congrArg List.length h

theorem xt_reads (x : XtInfo) (b : Wire.Bytes) (h : b.length = x.length) (hx : x.length < 2 ^ 32) :
    Reads (xtDec x) b b := by
  intro rest
  unfold xtDec
  have hr : reserve 1 x.length (b ++ rest) = .ok ((), b ++ rest) := by
    unfold reserve maxAlloc
    rw [if_pos (by omega)]
    rfl
  rw [bind_ok hr, ← h]
  exact readBytes_append b rest

theorem byte_codes : Wire.Spec.Codes (fun x : UInt8 => natEnc x.toNat) ((intDecode 8).bind fun n => .pure (UInt8.ofNat n))
    (fun _ => True) (fun x => Wire.Spec.nat x.toNat) := by
  intro x _
  obtain ⟨h1, h2⟩ := nat_codes 8 (by decide) x.toNat (by have := x.toNat_lt; omega)
  refine ⟨h1, ?_⟩
  intro rest
  rw [bind_ok (h2 rest)]
  simp [Dec.pure]

theorem segment_codes (s : Wire.Bytes) :
    segmentEnc s = .ok (Wire.Spec.seq (fun x : UInt8 => Wire.Spec.nat x.toNat) s) ∧
    Reads (segmentDec s.length) (Wire.Spec.seq (fun x : UInt8 => Wire.Spec.nat x.toNat) s) s := by
  have := seq_codes byte_codes s (fun _ _ => trivial)
  exact this

theorem path_codes (j : List Wire.Bytes) (h1 : Wire.Spec.Fits j.length 32) (h2 : ∀ n ∈ j, n.length = 32) :
    vecEnc arrEnc j = .ok (Wire.Spec.var id j) ∧ Reads (vecDec 32 (arrDec 32)) (Wire.Spec.var id j) j :=
  vec_codes 32 (by decide) (arr_codes 32) j ⟨h1, h2⟩

theorem nested_enc {α : Type} {e : Enc α} {s : α → Wire.Bytes} (ls : List (List α))
    (h : ∀ l ∈ ls, ∀ x ∈ l, e x = .ok (s x)) :
    seqEnc (seqEnc e) ls = .ok (Wire.Spec.seq (Wire.Spec.seq s) ls) :=
  seqEnc_ok ls (fun l hl => seqEnc_ok l (fun x hx => h l hl x hx))

theorem seq_id {α : Type} (ls : List (List (List α))) :
    ls.flatMap (fun l => l.flatMap fun x => x) = ls.flatten.flatten := by
  induction ls with
  | nil => rfl
  | cons l ls ih =>
    rw [List.flatMap_cons, ih, List.flatten_cons, List.flatten_append, List.flatMap_id']

/-- **C56, round trip.** A bundle whose data has the declared shape is encoded, and decoding the encoding
returns the same bundle and leaves what follows. -/
theorem C56_roundtrip (P : Params) (size : Nat) (b : Bundle) (hp : Wire.Spec.PackageOk P b.package)
    (hs : Shaped size b) :
    Bundle.enc b = .ok (codeBundle b) ∧ ∀ rest, Bundle.dec P size (codeBundle b ++ rest) = .ok (b, rest) := by
  obtain ⟨p1, p2⟩ := package_codes P b.package hp
  have e2 : seqEnc (seqEnc fun x => .ok x) b.xts = .ok b.xts.flatten.flatten := by
    rw [nested_enc (s := fun x => x) b.xts (fun _ _ _ _ => rfl)]
    unfold Wire.Spec.seq
    rw [seq_id]
  have e3 := nested_enc (e := segmentEnc) b.imports (fun l _ x _ => (segment_codes x).1)
  have e4 := nested_enc (e := vecEnc arrEnc) b.justs (fun l hl x hx =>
    (path_codes x (hs.paths l hl x hx).1 (hs.paths l hl x hx).2).1)
  refine ⟨?_, ?_⟩
  · unfold Bundle.enc codeBundle
    exact cat_ok p1 (cat_ok e2 (cat_ok e3 e4))
  · intro rest
    have r2 : Reads (eachDec (b.package.items.map fun w => eachDec (w.xts.map xtDec))) b.xts.flatten.flatten b.xts := by
      rw [← seq_id]
      refine each_reads (fun l : List Wire.Bytes => l.flatMap fun x => x) _ _ (by rw [List.length_map]; exact (map_len hs.xts).symm) ?_
      intro i d l hd hl
      rw [List.getElem?_map] at hd
      cases hw : b.package.items[i]? with
      | none => rw [hw] at hd; cases hd
      | some w =>
        rw [hw] at hd
        cases hd
        have hshape := map_get hs.xts i l w hl hw
        refine each_reads (fun x => x) _ _ (by rw [List.length_map]; exact (map_len hshape).symm) ?_
        intro j d x hd hx
        rw [List.getElem?_map] at hd
        cases hxi : w.xts[j]? with
        | none => rw [hxi] at hd; cases hd
        | some xi =>
          rw [hxi] at hd
          cases hd
          exact xt_reads xi x (map_get hshape j x xi hx hxi)
            ((hp.items w (List.mem_of_getElem? hw)).xts xi (List.mem_of_getElem? hxi)).length
    have r3 : Reads (eachDec (b.package.items.map fun w => eachDec (w.imports.map fun _ => segmentDec size)))
        (Wire.Spec.seq (Wire.Spec.seq (Wire.Spec.seq fun x : UInt8 => Wire.Spec.nat x.toNat)) b.imports) b.imports := by
      refine each_reads _ _ _ (by rw [List.length_map]; exact (map_len hs.imports).symm) ?_
      intro i d l hd hl
      rw [List.getElem?_map] at hd
      cases hw : b.package.items[i]? with
      | none => rw [hw] at hd; cases hd
      | some w =>
        rw [hw] at hd
        cases hd
        refine each_reads _ _ _ (by rw [List.length_map]; exact (map_get hs.imports i l w hl hw).symm) ?_
        intro j d x hd hx
        rw [List.getElem?_map] at hd
        cases hxi : w.imports[j]? with
        | none => rw [hxi] at hd; cases hd
        | some xi =>
          rw [hxi] at hd
          cases hd
          have := (segment_codes x).2
          rw [hs.segments l (List.mem_of_getElem? hl) x (List.mem_of_getElem? hx)] at this
          exact this
    have r4 : Reads (eachDec (b.package.items.map fun w => eachDec (w.imports.map fun _ => vecDec 32 (arrDec 32))))
        (Wire.Spec.seq (Wire.Spec.seq (Wire.Spec.var id)) b.justs) b.justs := by
      refine each_reads _ _ _ (by rw [List.length_map]; exact (map_len hs.justs).symm) ?_
      intro i d l hd hl
      rw [List.getElem?_map] at hd
      cases hw : b.package.items[i]? with
      | none => rw [hw] at hd; cases hd
      | some w =>
        rw [hw] at hd
        cases hd
        refine each_reads _ _ _ (by rw [List.length_map]; exact (map_get hs.justs i l w hl hw).symm) ?_
        intro j d x hd hx
        rw [List.getElem?_map] at hd
        cases hxi : w.imports[j]? with
        | none => rw [hxi] at hd; cases hd
        | some xi =>
          rw [hxi] at hd
          cases hd
          obtain ⟨q1, q2⟩ := hs.paths l (List.mem_of_getElem? hl) x (List.mem_of_getElem? hx)
          exact (path_codes x q1 q2).2
    unfold codeBundle Bundle.dec
    rw [List.append_assoc, List.append_assoc, List.append_assoc]
    rw [bind_ok (p2 _), bind_ok (r2 _), bind_ok (r3 _), bind_ok (r4 _)]
    rfl

/-- A bundle for the package of the wire examples: one extrinsic of 99 octets, two imports. -/
def exBundle : Bundle :=
  { package := exPackage, xts := [[List.replicate 99 200]]
    imports := [[[1, 2, 255], [3, 4, 5]]], justs := [[[ex32 1, ex32 2], []]] }

theorem exBundle_shaped : Shaped 3 exBundle where
  xts := by decide
  imports := by decide
  segments := by decide
  justs := by decide
  paths := by
    intro l hl j hj
    have : l = [[ex32 1, ex32 2], []] := by simpa [exBundle] using hl
    subst this
    rcases List.mem_cons.mp hj with h | h
    · subst h
      refine ⟨by unfold Wire.Spec.Fits; decide, ?_⟩
      intro n hn
      rcases List.mem_cons.mp hn with h' | h'
      · subst h'; rfl
      · have : n = ex32 2 := by simpa using h'
        subst this; rfl
    · have : j = [] := by simpa using h
      subst this
      exact ⟨by unfold Wire.Spec.Fits; decide, fun n hn => by cases hn⟩

example : ∀ rest, Bundle.dec exP 3 (codeBundle exBundle ++ rest) = .ok (exBundle, rest) :=
  (C56_roundtrip exP 3 exBundle exPackage_ok exBundle_shaped).2

/-! ## The layout -/

theorem seq_flatten (f : UInt8 → Wire.Bytes) (ls : List (List Wire.Bytes)) :
    Wire.Spec.seq (Wire.Spec.seq (Wire.Spec.seq f)) ls = Wire.Spec.seq f ls.flatten.flatten := by
  have one : ∀ (l : List Wire.Bytes), (l.flatMap fun x => x.flatMap f) = l.flatten.flatMap f := by
    intro l
    induction l with
    | nil => rfl
    | cons x l ih => rw [List.flatMap_cons, ih, List.flatten_cons, List.flatMap_append]
  unfold Wire.Spec.seq
  induction ls with
  | nil => rfl
  | cons l ls ih =>
    rw [List.flatMap_cons, ih, one, List.flatten_cons, List.flatten_append, List.flatMap_append]

theorem octets_layout (b : Wire.Bytes) :
    Wire.Spec.seq (fun x : UInt8 => Wire.Spec.nat x.toNat) b = b ↔ ∀ x ∈ b, x.toNat < 128 := by
  have h1 := (segment_codes b).1
  unfold segmentEnc at h1
  constructor
  · intro h
    obtain ⟨bs, e1, e2⟩ := byteSeq_len b
    rw [h1, h] at e1
    injection e1 with e1
    rw [← e1] at e2
    have h0 : b.countP (fun x => decide (128 ≤ x.toNat)) = 0 := by omega
    rw [List.countP_eq_zero] at h0
    intro x hx
    have := h0 x hx
    simp at this
    exact this
  · intro h
    rw [byteSeq_small b h] at h1
    injection h1 with h1
    exact h1.symm

/-- **C56, layout (partial).** The encoding is the Gray Paper's exactly when no imported segment contains an
octet of 128 or more. Missing: the paper's layout for all other bundles, where every such octet takes two
octets (`C56_length`). -/
theorem C56_layout_partial (P : Params) (size : Nat) (b : Bundle) (hp : Wire.Spec.PackageOk P b.package)
    (hs : Shaped size b) :
    Bundle.enc b = .ok (paperBundle b) ↔ ∀ l ∈ b.imports, ∀ s ∈ l, ∀ x ∈ s, x.toNat < 128 := by
  have hall : (∀ x ∈ b.imports.flatten.flatten, x.toNat < 128) ↔ ∀ l ∈ b.imports, ∀ s ∈ l, ∀ x ∈ s, x.toNat < 128 := by
    simp only [List.mem_flatten]
    exact ⟨fun h l hl s hs x hx => h x ⟨s, ⟨l, hl, hs⟩, hx⟩, fun h x ⟨s, ⟨l, hl, hs⟩, hx⟩ => h l hl s hs x hx⟩
  rw [(C56_roundtrip P size b hp hs).1, ← hall, ← octets_layout]
  unfold codeBundle paperBundle
  rw [seq_flatten]
  constructor
  · intro h
    injection h with h
    exact List.append_cancel_right (List.append_cancel_left (List.append_cancel_left h))
  · intro h
    rw [h]

/-- The octet 255 in the first segment makes the difference. -/
example : Bundle.enc exBundle ≠ .ok (paperBundle exBundle) := by
  intro h
  have := (C56_layout_partial exP 3 exBundle exPackage_ok exBundle_shaped).mp h
    [[1, 2, 255], [3, 4, 5]] (by simp [exBundle]) [1, 2, 255] (by simp) 255 (by simp)
  exact absurd this (by decide)

/-- **C56, length.** The encoding is longer than the paper's by the number of octets of 128 or more in the
imported segments: up to twice the room for the segments. -/
theorem C56_length (P : Params) (size : Nat) (b : Bundle) (hp : Wire.Spec.PackageOk P b.package)
    (hs : Shaped size b) :
    ∃ bs, Bundle.enc b = .ok bs ∧ bs.length = (paperBundle b).length +
      b.imports.flatten.flatten.countP (fun x => decide (128 ≤ x.toNat)) := by
  refine ⟨_, (C56_roundtrip P size b hp hs).1, ?_⟩
  unfold codeBundle paperBundle
  rw [seq_flatten]
  have h1 := (segment_codes b.imports.flatten.flatten).1
  unfold segmentEnc at h1
  obtain ⟨bs, e1, e2⟩ := byteSeq_len b.imports.flatten.flatten
  rw [h1] at e1
  injection e1 with e1
  simp only [List.length_append]
  rw [e1, e2]
  omega

example : ∃ bs, Bundle.enc exBundle = .ok bs ∧ bs.length = (paperBundle exBundle).length + 1 := by
  obtain ⟨bs, h1, h2⟩ := C56_length exP 3 exBundle exPackage_ok exBundle_shaped
  have : exBundle.imports.flatten.flatten.countP (fun x => decide (128 ≤ x.toNat)) = 1 := by decide
  rw [this] at h2
  exact ⟨bs, h1, h2⟩

/-- **C56, shape (negation).** The encoder does not check the shape. Two different bundles of the same
package get the same encoding: extrinsics cut at different places. -/
theorem C56_shape_unchecked (p : WorkPackage) (a c : Wire.Bytes) (is : List (List Wire.Bytes))
    (js : List (List (List Wire.Bytes))) :
    Bundle.enc { package := p, xts := [[a, c]], imports := is, justs := js } =
      Bundle.enc { package := p, xts := [[a ++ c]], imports := is, justs := js } := by
  unfold Bundle.enc
  simp [seqEnc]

end Fastroll.Da
