import Verif.Da.Spec
/-! # A small code that keeps the library's promise: two words and their exclusive or -/
namespace Fastroll.Da

def xorW (a b : Bytes) : Bytes := a.zipWith (· ^^^ ·) b

def toyEncode (ws : List Bytes) : Option (List Bytes) := some [xorW (ws.getD 0 []) (ws.getD 1 [])]

def toyDecode (orig rec : List (Nat × Bytes)) : Option (List (Nat × Bytes)) :=
  match orig.lookup 0, orig.lookup 1, rec.lookup 0 with
  | some _, some _, _ => some []
  | some a, none, some r => some [(1, xorW a r)]
  | none, some b, some r => some [(0, xorW r b)]
  | _, _, _ => none

/-- Two words, one recovery word. -/
def toyRS : RS := { encode := toyEncode, decode := toyDecode }

theorem lookup_mem {l : List (Nat × Bytes)} {i : Nat} {w : Bytes} (h : l.lookup i = some w) :
    (i, w) ∈ l := by
  induction l with
  | nil => cases h
  | cons a l ih =>
    rw [List.lookup_cons] at h
    split at h
    · rename_i e
      have e : i = a.1 := by simpa using e
      cases h
      subst e
      exact List.mem_cons_self ..
    · exact List.mem_cons_of_mem _ (ih h)

theorem lookup_none {l : List (Nat × Bytes)} {i : Nat} (h : l.lookup i = none) :
    i ∉ l.map Prod.fst := by
  induction l with
  | nil => simp
  | cons a l ih =>
    rw [List.lookup_cons] at h
    split at h
    · cases h
    · rename_i e
      have e : i ≠ a.1 := by simpa using e
      rw [List.map_cons, List.mem_cons]
      exact fun h' => h'.elim e (ih h)

theorem xor_cancel (a b : Bytes) (h : a.length = b.length) : xorW a (xorW a b) = b := by
  induction a generalizing b with
  | nil => cases b with
    | nil => rfl
    | cons => simp at h
  | cons x a ih => cases b with
    | nil => simp at h
    | cons y b =>
      unfold xorW at ih ⊢
      rw [List.zipWith_cons_cons, List.zipWith_cons_cons, ih b (by simpa using h)]
      congr 1
      rw [← UInt8.xor_assoc]; simp

theorem xor_cancel' (a b : Bytes) (h : a.length = b.length) : xorW (xorW a b) b = a := by
  induction a generalizing b with
  | nil => cases b with
    | nil => rfl
    | cons => simp at h
  | cons x a ih => cases b with
    | nil => simp at h
    | cons y b =>
      unfold xorW at ih ⊢
      rw [List.zipWith_cons_cons, List.zipWith_cons_cons, ih b (by simpa using h)]
      congr 1
      rw [UInt8.xor_assoc]; simp

theorem nodup_le {l : List (Nat × Bytes)} {m : Nat} (h : (l.map Prod.fst).Nodup)
    (hb : ∀ x ∈ l, x.1 < m) : l.length ≤ m := by
  have := h.length_le_of_subset (l₂ := List.range m) (by
    intro i hi
    obtain ⟨x, hx, rfl⟩ := List.mem_map.mp hi
    exact List.mem_range.mpr (hb x hx))
  simpa using this

theorem toy_mds : Mds toyRS 2 3 := by
  refine ⟨?_, ?_⟩
  · rintro ws ⟨h1, h2⟩
    match ws, h1 with
    | [a, b], _ =>
      refine ⟨_, rfl, rfl, ?_⟩
      intro w hw
      have ha := h2 a (by simp)
      have hb := h2 b (by simp)
      simp only [List.getD_cons_zero, List.getD_cons_succ, List.mem_singleton] at hw
      rw [hw]
      simp [xorW, ha, hb]
  · rintro ws r orig rec ⟨h1, h2⟩ he ho hr hno hnr hk
    match ws, h1 with
    | [a, b], _ =>
      have ha := h2 a (by simp)
      have hb := h2 b (by simp)
      have he : r = [xorW a b] := by
        have := Option.some.inj he
        simpa using this.symm
      subst he
      have hlt : ∀ x ∈ orig, x.1 < 2 := by
        intro x hx
        have := ho x hx
        rcases Nat.lt_or_ge x.1 2 with h | h
        · exact h
        · rw [List.getElem?_eq_none (by simpa using h)] at this; cases this
      have hlr : ∀ x ∈ rec, x.1 < 1 := by
        intro x hx
        have := hr x hx
        rcases Nat.lt_or_ge x.1 1 with h | h
        · exact h
        · rw [List.getElem?_eq_none (by simpa using h)] at this; cases this
      have hl1 := nodup_le hnr hlr
      have hl2 := nodup_le hno hlt
      have key : ∀ i, i ∉ orig.map Prod.fst → i < 2 → orig.length ≤ 1 := by
        intro i hi hi2
        have : (i :: orig.map Prod.fst).Nodup := List.nodup_cons.mpr ⟨hi, hno⟩
        have := this.length_le_of_subset (l₂ := List.range 2) (by
          intro j hj
          rcases List.mem_cons.mp hj with h | h
          · exact List.mem_range.mpr (h ▸ hi2)
          · obtain ⟨x, hx, rfl⟩ := List.mem_map.mp h
            exact List.mem_range.mpr (hlt x hx))
        simpa using this
      have rec0 : rec.lookup 0 = none → rec.length = 0 := by
        intro h
        cases rec with
        | nil => rfl
        | cons x l =>
          have := hlr x (List.mem_cons_self ..)
          exact absurd (List.mem_map.mpr ⟨x, List.mem_cons_self .., by omega⟩) (lookup_none h)
      have both : 0 ∉ orig.map Prod.fst → 1 ∉ orig.map Prod.fst → orig.length = 0 := by
        intro h0 h1
        cases orig with
        | nil => rfl
        | cons x l =>
          have := hlt x (List.mem_cons_self ..)
          have hx : x.1 ∈ (x :: l).map Prod.fst := List.mem_map.mpr ⟨x, List.mem_cons_self .., rfl⟩
          rcases (by omega : x.1 = 0 ∨ x.1 = 1) with h | h
          · exact absurd (h ▸ hx) h0
          · exact absurd (h ▸ hx) h1
      have two : ∀ {i w}, [a, b][i]? = some w → i = 0 ∧ w = a ∨ i = 1 ∧ w = b := by
        intro i w h
        match i, h with
        | 0, h => exact .inl ⟨rfl, by simpa using h.symm⟩
        | 1, h => exact .inr ⟨rfl, by simpa using h.symm⟩
        | (i + 2), h => simp at h
      show ∃ out, toyDecode orig rec = some out ∧ _
      unfold toyDecode
      cases l0 : orig.lookup 0 with
      | some x =>
        have hx := ho _ (lookup_mem l0)
        have hx : a = x := by simpa using hx
        have m0 : 0 ∈ orig.map Prod.fst := List.mem_map.mpr ⟨_, lookup_mem l0, rfl⟩
        subst hx
        cases l1 : orig.lookup 1 with
        | some y =>
          have m1 : 1 ∈ orig.map Prod.fst := List.mem_map.mpr ⟨_, lookup_mem l1, rfl⟩
          refine ⟨[], rfl, ?_⟩
          intro z
          refine ⟨(fun h => by cases h), fun ⟨h, hn⟩ => ?_⟩
          rcases two h with ⟨h, _⟩ | ⟨h, _⟩
          · exact absurd (h ▸ m0) hn
          · exact absurd (h ▸ m1) hn
        | none =>
          have n1 := lookup_none l1
          have := key 1 n1 (by omega)
          cases lr : rec.lookup 0 with
          | none => have := rec0 lr; omega
          | some q =>
            have hq := hr _ (lookup_mem lr)
            have hq : xorW a b = q := by simpa using hq
            refine ⟨_, rfl, ?_⟩
            intro z
            rw [List.mem_singleton, ← hq, xor_cancel a b (by omega)]
            constructor
            · intro h; subst h; exact ⟨rfl, n1⟩
            · rintro ⟨h, hn⟩
              rcases two h with ⟨h, _⟩ | ⟨h, hw⟩
              · exact absurd (h ▸ m0) hn
              · exact Prod.ext h hw
      | none =>
        have n0 := lookup_none l0
        have := key 0 n0 (by omega)
        cases l1 : orig.lookup 1 with
        | none => have := both n0 (lookup_none l1); omega
        | some y =>
          have hy := ho _ (lookup_mem l1)
          have hy : b = y := by simpa using hy
          subst hy
          have m1 : 1 ∈ orig.map Prod.fst := List.mem_map.mpr ⟨_, lookup_mem l1, rfl⟩
          cases lr : rec.lookup 0 with
          | none => have := rec0 lr; omega
          | some q =>
            have hq := hr _ (lookup_mem lr)
            have hq : xorW a b = q := by simpa using hq
            refine ⟨_, rfl, ?_⟩
            intro z
            rw [List.mem_singleton, ← hq, xor_cancel' a b (by omega)]
            constructor
            · intro h; subst h; exact ⟨rfl, n0⟩
            · rintro ⟨h, hn⟩
              rcases two h with ⟨h, hw⟩ | ⟨h, _⟩
              · exact Prod.ext h hw
              · exact absurd (h ▸ m1) hn

end Fastroll.Da
