import Verif.Trie.Shape
import Verif.Trie.Spec
import Verif.Trie.NodeLemmas
namespace Fastroll.Trie
open Spec (KV under)

/-- The keys of a map. -/
def Keys (kv : KV) : Path → Prop := fun k => k ∈ kv.map (·.1)

/-- The Merklization of the part of a map below a path. -/
def hashAt (H : Bytes → Bytes) (kv : KV) (p : Path) : Bytes := Spec.merkle H (248 - p.length) p.length (under kv p)

theorem keys_of_mem {kv : KV} {k : Path} {v : Bytes} (h : (k, v) ∈ kv) : Keys kv k := List.mem_map.2 ⟨_, h, rfl⟩

theorem mem_of_keys {kv : KV} {k : Path} (h : Keys kv k) : ∃ v, (k, v) ∈ kv := by
  obtain ⟨⟨k', v⟩, h1, h2⟩ := List.mem_map.1 h
  dsimp only at h2
  exact ⟨v, h2 ▸ h1⟩

theorem value_unique {kv : KV} (hn : (kv.map (·.1)).Nodup) {k : Path} {v w : Bytes} (h1 : (k, v) ∈ kv)
    (h2 : (k, w) ∈ kv) : v = w := by
  induction kv with
  | nil => cases h1
  | cons e kv ih =>
    rw [List.map_cons, List.nodup_cons] at hn
    rcases List.mem_cons.1 h1 with h1' | h1'
    · rcases List.mem_cons.1 h2 with h2' | h2'
      · have := h1'.trans h2'.symm
        injection this
      · rw [← h1'] at hn
        exact absurd (keys_of_mem h2') hn.1
    · rcases List.mem_cons.1 h2 with h2' | h2'
      · rw [← h2'] at hn
        exact absurd (keys_of_mem h1') hn.1
      · exact ih hn.2 h1' h2'

theorem has_iff {kv : KV} {k : Path} : Spec.has kv k = true ↔ Keys kv k := by
  unfold Spec.has Keys
  rw [List.any_eq_true, List.mem_map]
  constructor
  · rintro ⟨x, h1, h2⟩; exact ⟨x, h1, by simpa using h2⟩
  · rintro ⟨x, h1, h2⟩; exact ⟨x, h1, by simpa using h2⟩

theorem mem_under {kv : KV} {p : Path} {e : Path × Bytes} : e ∈ under kv p ↔ e ∈ kv ∧ p <+: e.1 := by
  unfold under
  rw [List.mem_filter, isPrefixOf_iff]

theorem pack_unbits : ∀ (n : Nat) (bs : List Bool), bs.length = 8 * n → Spec.pack bs = unbits bs
  | 0, [], _ => rfl
  | 0, _ :: _, h => by simp at h
  | n + 1, a :: b :: c :: d :: e :: f :: g :: i :: r, h => by
    have hr : r.length = 8 * n := by simp only [List.length_cons] at h; omega
    have h8 : ∀ a b c d e f g i : Bool, UInt8.ofNat (128 * a.toNat + 64 * b.toNat + 32 * c.toNat + 16 * d.toNat +
        8 * e.toNat + 4 * f.toNat + 2 * g.toNat + i.toNat) = byteOf [a, b, c, d, e, f, g, i] := by decide +kernel
    show _ :: Spec.pack r = byteOf _ :: unbits r
    rw [pack_unbits n r hr, h8]

theorem leaf_hash (H : Bytes → Bytes) (hH : ∀ x, (H x).length = 32) {k : Path} (v : Bytes) (hk : k.length = keyBits) :
    H (Spec.pack (Spec.leafBits H k v)) = (Node.leaf (mkLeaf H k v)).hash H := by
  have hw := mkLeaf_wf H hH k v hk
  have hl := rawBits_length _ hw
  rw [mkLeaf_rawBits H k v hk] at hl
  unfold Node.hash
  rw [encode_eq, mkLeaf_rawBits H k v hk, pack_unbits 64 _ hl]

theorem branch_hash (H : Bytes → Bytes) (l r : Bytes) (hl : l.length = 32) (hr : r.length = 32) :
    H (Spec.pack (Spec.branchBits l r)) = (Node.branch (Branch.make l r)).hash H := by
  have hw := make_wf l r hl hr
  have h1 := rawBits_length _ hw
  rw [make_rawBits] at h1
  unfold Node.hash
  rw [encode_eq, make_rawBits, pack_unbits 64 _ h1]

theorem prefix_concat_iff (p k : Path) (b : Bool) (hl : p.length < k.length) :
    p ++ [b] <+: k ↔ p <+: k ∧ k.getD p.length false = b := by
  constructor
  · intro h
    refine ⟨(prefix_append_one p b).trans h, ?_⟩
    obtain ⟨r, rfl⟩ := h
    rw [List.append_assoc, List.getD_eq_getElem?_getD, List.getElem?_append_right (Nat.le_refl _), Nat.sub_self]
    rfl
  · rintro ⟨⟨r, rfl⟩, h2⟩
    rw [List.getD_eq_getElem?_getD, List.getElem?_append_right (Nat.le_refl _), Nat.sub_self] at h2
    cases r with
    | nil => rw [List.append_nil] at hl; omega
    | cons c r =>
      have : c = b := h2
      subst this
      exact ⟨r, by rw [List.append_assoc]; rfl⟩

theorem under_child (kv : KV) (hf : Flat (Keys kv)) (p : Path) (hp : p.length < keyBits) :
    ((under kv p).filter fun e => e.1.getD p.length false == false) = under kv (p ++ [false]) ∧
    ((under kv p).filter fun e => e.1.getD p.length false) = under kv (p ++ [true]) := by
  unfold under
  rw [List.filter_filter, List.filter_filter]
  have hk : ∀ e ∈ kv, p.length < e.1.length := fun e he => by
    rw [hf e.1 (List.mem_map.2 ⟨e, he, rfl⟩)]; exact hp
  constructor
  · apply List.filter_congr
    intro e he
    rw [Bool.eq_iff_iff, isPrefixOf_iff, prefix_concat_iff _ _ _ (hk e he), ← isPrefixOf_iff]
    generalize e.1.getD p.length false = b
    cases b <;> simp
  · apply List.filter_congr
    intro e he
    rw [Bool.eq_iff_iff, isPrefixOf_iff, prefix_concat_iff _ _ _ (hk e he), ← isPrefixOf_iff]
    generalize e.1.getD p.length false = b
    cases b <;> simp

theorem hashAt_none {H : Bytes → Bytes} {kv : KV} {p : Path} (h : ∀ k, Keys kv k → ¬ p <+: k) :
    hashAt H kv p = zeroHash := by
  have : under kv p = [] := by
    rw [List.eq_nil_iff_forall_not_mem]
    intro e he
    rw [mem_under] at he
    exact h e.1 (List.mem_map.2 ⟨e, he.1, rfl⟩) he.2
  unfold hashAt
  rw [this]
  cases (248 - p.length) <;> rfl

theorem under_single {kv : KV} (hn : (kv.map (·.1)).Nodup) {p k : Path} {v : Bytes} (hk : (k, v) ∈ kv)
    (hpk : p <+: k) (hu : ∀ k', Keys kv k' → p <+: k' → k' = k) : under kv p = [(k, v)] := by
  have hn' : ((under kv p).map (·.1)).Nodup := List.Nodup.sublist (List.Sublist.map _ List.filter_sublist) hn
  have hall : ∀ e ∈ under kv p, e = (k, v) := by
    rintro ⟨k', v'⟩ he
    rw [mem_under] at he
    have h1 := hu k' (keys_of_mem he.1) he.2
    subst h1
    rw [value_unique hn hk he.1]
  have hmem : (k, v) ∈ under kv p := mem_under.2 ⟨hk, hpk⟩
  match hc : under kv p with
  | [] => rw [hc] at hmem; cases hmem
  | [e] => rw [hc] at hall; rw [hall e List.mem_cons_self]
  | e :: e' :: r =>
    exfalso
    rw [hc] at hall hn'
    have h1 := hall e List.mem_cons_self
    have h2 := hall e' (List.mem_cons_of_mem _ List.mem_cons_self)
    rw [h1, h2] at hn'
    simp at hn'

theorem hashAt_leaf {H : Bytes → Bytes} (hH : ∀ x, (H x).length = 32) {kv : KV} (hn : (kv.map (·.1)).Nodup)
    (hf : Flat (Keys kv)) {p k : Path} {v : Bytes} (hk : (k, v) ∈ kv) (hl : Lf (Keys kv) p k) :
    hashAt H kv p = (Node.leaf (mkLeaf H k v)).hash H := by
  unfold hashAt
  rw [under_single hn hk hl.2.1 hl.2.2.1, ← leaf_hash H hH v (hf k hl.1)]
  cases (248 - p.length) <;> rfl

theorem br_two {kv : KV} {p : Path} (h : Br (Keys kv) p) : ∃ e e' r, under kv p = e :: e' :: r := by
  obtain ⟨a, b, h1, h2, h3, h4, h5⟩ := h
  obtain ⟨va, ha⟩ := mem_of_keys h2
  obtain ⟨vb, hb⟩ := mem_of_keys h3
  have ma : (a, va) ∈ under kv p := mem_under.2 ⟨ha, h4⟩
  have mb : (b, vb) ∈ under kv p := mem_under.2 ⟨hb, h5⟩
  match hc : under kv p with
  | [] => rw [hc] at ma; cases ma
  | [e] =>
    rw [hc, List.mem_singleton] at ma mb
    have := ma.trans mb.symm
    injection this with this
    exact absurd this h1
  | e :: e' :: r => exact ⟨e, e', r, rfl⟩

theorem hashAt_branch_raw {H : Bytes → Bytes} {kv : KV} (hf : Flat (Keys kv)) {p : Path} (h : Br (Keys kv) p) :
    hashAt H kv p = H (Spec.pack (Spec.branchBits (hashAt H kv (p ++ [false])) (hashAt H kv (p ++ [true])))) := by
  have hl := br_length hf h
  obtain ⟨c1, c2⟩ := under_child kv hf p hl
  have hlen : ∀ b, (p ++ [b]).length = p.length + 1 := fun b => by rw [List.length_append]; rfl
  obtain ⟨e, e', r, hu⟩ := br_two h
  unfold hashAt
  rw [hlen, hlen, ← c1, ← c2]
  obtain ⟨f, hfuel⟩ : ∃ f, 248 - p.length = f + 1 := ⟨248 - p.length - 1, by unfold keyBits at hl; omega⟩
  have hfuel' : 248 - (p.length + 1) = f := by omega
  rw [hfuel, hfuel', hu]
  rfl

theorem hashAt_length {H : Bytes → Bytes} (hH : ∀ x, (H x).length = 32) {kv : KV} (hn : (kv.map (·.1)).Nodup)
    (hf : Flat (Keys kv)) {p : Path} : (hashAt H kv p).length = 32 := by
  by_cases hb : Br (Keys kv) p
  · rw [hashAt_branch_raw hf hb]; exact hH _
  · by_cases hk : ∃ k, Keys kv k ∧ p <+: k
    · obtain ⟨k, hk1, hk2⟩ := hk
      obtain ⟨v, hv⟩ := mem_of_keys hk1
      unfold hashAt
      rw [under_single hn hv hk2 fun k' h1 h2 => by
        by_cases hxk : k' = k
        · exact hxk
        · exact absurd ⟨k', k, hxk, h1, hk1, h2, hk2⟩ hb]
      have : Spec.merkle H (248 - p.length) p.length [(k, v)] = H (Spec.pack (Spec.leafBits H k v)) := by
        cases (248 - p.length) <;> rfl
      rw [this]; exact hH _
    · rw [hashAt_none (fun k h1 h2 => hk ⟨k, h1, h2⟩)]
      rfl

theorem hashAt_branch {H : Bytes → Bytes} (hH : ∀ x, (H x).length = 32) {kv : KV} (hn : (kv.map (·.1)).Nodup)
    (hf : Flat (Keys kv)) {p : Path} (h : Br (Keys kv) p) :
    hashAt H kv p = (Node.branch (Branch.make (hashAt H kv (p ++ [false])) (hashAt H kv (p ++ [true])))).hash H := by
  rw [hashAt_branch_raw hf h, branch_hash H _ _ (hashAt_length hH hn hf) (hashAt_length hH hn hf)]

theorem hashAt_congr {H : Bytes → Bytes} {kv kv' : KV} {p : Path} (h : under kv p = under kv' p) :
    hashAt H kv p = hashAt H kv' p := by unfold hashAt; rw [h]

theorem hashAt_root (H : Bytes → Bytes) (kv : KV) : hashAt H kv [] = Spec.root H kv := by
  unfold hashAt Spec.root
  have : under kv [] = kv := by
    unfold under
    rw [List.filter_eq_self]
    intro e _
    rfl
  rw [this]
  rfl

end Fastroll.Trie
