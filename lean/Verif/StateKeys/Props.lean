import Verif.StateKeys.Model
/-
C34: state keys of different components never coincide.
-/
namespace Fastroll.StateKeys

/-- Specification: the service a service-entry key belongs to, read from the bytes 0, 2, 4, 6. -/
def Spec.serviceOf (key : List UInt8) : Nat :=
  (key.getD 0 0).toNat + 256 * (key.getD 2 0).toNat + 65536 * (key.getD 4 0).toNat +
    16777216 * (key.getD 6 0).toNat

/-- Specification: the items of a service that can exist: hashes have 32 bytes, lengths fit 32 bits. -/
def Spec.sane : Item → Bool
  | .storage _ => true
  | .preimage h => h.length = 32
  | .lookup h l => h.length = 32 ∧ l < 2 ^ 32

theorem le4_value (s : Nat) (hs : s < 2 ^ 32) :
    (UInt8.ofNat s).toNat + 256 * (UInt8.ofNat (s / 256)).toNat + 65536 * (UInt8.ofNat (s / 65536)).toNat +
      16777216 * (UInt8.ofNat (s / 16777216)).toNat = s := by
  simp only [UInt8.toNat_ofNat']
  omega

theorem le4_inj {a b : Nat} (ha : a < 2 ^ 32) (hb : b < 2 ^ 32) (h : le4 a = le4 b) : a = b := by
  unfold le4 at h
  simp only [List.cons.injEq, and_true] at h
  rw [← le4_value a ha, ← le4_value b hb, h.1, h.2.1, h.2.2.1, h.2.2.2]

theorem serviceOf_entry (H : List UInt8 → List UInt8) (s : Nat) (pre : List UInt8) (hs : s < 2 ^ 32) :
    Spec.serviceOf (entryKeyOf H s pre) = s := le4_value s hs

/-- The components' keys are 31 bytes and pairwise different, metadata keys of different services are
different, and no metadata key is a component's key. -/
theorem C34_components_and_metadata_distinct :
    (∀ a b : Component, simpleKey a = simpleKey b → a = b) ∧
    (∀ s t, s < 2 ^ 32 → t < 2 ^ 32 → metadataKey s = metadataKey t → s = t) ∧
    (∀ (a : Component) (s : Nat), simpleKey a ≠ metadataKey s) ∧
    (∀ (a : Component), (simpleKey a).length = 31) ∧ (∀ s, (metadataKey s).length = 31) := by
  refine ⟨?_, ?_, ?_, ?_, ?_⟩
  · intro a b h
    cases a <;> cases b <;> first | rfl | exact absurd h (by decide +kernel)
  · intro s t hs ht h
    unfold metadataKey le4 at h
    simp only [List.cons_append, List.nil_append, List.cons.injEq, List.getD_cons_zero, List.getD_cons_succ] at h
    apply le4_inj hs ht
    unfold le4
    rw [h.2.1, h.2.2.2.1, h.2.2.2.2.2.1, h.2.2.2.2.2.2.2.1]
  · intro a s h
    have h0 : (metadataKey s).head? = some 255 := rfl
    rw [← h] at h0
    cases a <;> exact absurd h0 (by decide +kernel)
  · intro a; cases a <;> decide +kernel
  · intro s; rfl

example : simpleKey .timeslot = 11 :: List.replicate 30 0 ∧
    metadataKey 0x12345678 = [255, 0x78, 0, 0x56, 0, 0x34, 0, 0x12] ++ List.replicate 23 0 := by decide +kernel

/-- The service is read back from the key of each of its entries; entries of different services never
share a key. -/
theorem C34_service_is_recoverable (H : List UInt8 → List UInt8) :
    (∀ s it, s < 2 ^ 32 → Spec.serviceOf (entryKey H s it) = s) ∧
    (∀ s t a b, s < 2 ^ 32 → t < 2 ^ 32 → s ≠ t → entryKey H s a ≠ entryKey H t b) ∧
    (∀ s it, (∀ x, (H x).length = 32) → (entryKey H s it).length = 31) := by
  refine ⟨fun s it hs => serviceOf_entry H s _ hs, fun s t a b hs ht hne h => hne ?_, fun s it hH => ?_⟩
  · rw [← serviceOf_entry H s a.hashed hs, ← serviceOf_entry H t b.hashed ht]
    exact congrArg Spec.serviceOf h
  · unfold entryKey entryKeyOf
    simp only [List.length_append, List.length_cons, List.length_nil, List.length_take, List.length_drop, hH]
    omega

/-- A toy hash of 32 bytes for the examples. -/
def exHash (x : List UInt8) : List UInt8 := (x ++ List.replicate 32 9).take 32

example : entryKey exHash 0x12345678 (.lookup (List.replicate 32 5) 1000) =
    [0x78, 232, 0x56, 3, 0x34, 0, 0x12, 0] ++ List.replicate 23 5 := by decide +kernel

theorem hash27 (h : List UInt8) (hl : h.length = 32) :
    h.take 27 = [h.getD 0 0, h.getD 1 0, h.getD 2 0, h.getD 3 0] ++ (h.drop 4).take 23 := by
  match h, hl with
  | a :: b :: c :: d :: r, _ => simp

/-- An entry's key is a component's key only for the services 1 to 16 and a hash that starts with 27 zero
bytes, and a metadata key only for the service 255 and a hash that starts with the other service's number
and 23 zero bytes.  Every other service's entries are exactly distinct from them.  Partial: the key format
leaves those cases, so the property holds there only as long as no such hash is found. -/
theorem C34_entries_never_components_partial (H : List UInt8 → List UInt8) (hH : ∀ x, (H x).length = 32)
    (s : Nat) (hs : s < 2 ^ 32) (it : Item) :
    (∀ c, entryKey H s it = simpleKey c → s = c.code ∧ (H it.hashed).take 27 = List.replicate 27 0) ∧
    (∀ t, t < 2 ^ 32 → entryKey H s it = metadataKey t →
      s = 255 ∧ (H it.hashed).take 27 = le4 t ++ List.replicate 23 0) := by
  constructor
  · intro c h
    constructor
    · rw [← serviceOf_entry H s it.hashed hs]
      show Spec.serviceOf (entryKey H s it) = _
      rw [h]
      cases c <;> decide +kernel
    · have hc : simpleKey c = UInt8.ofNat c.code :: List.replicate 30 0 := by cases c <;> rfl
      rw [hc] at h
      unfold entryKey entryKeyOf at h
      simp only [List.cons_append, List.nil_append, List.replicate, List.cons.injEq] at h
      rw [hash27 _ (hH _), h.2.1, h.2.2.2.1, h.2.2.2.2.2.1, h.2.2.2.2.2.2.2.1, h.2.2.2.2.2.2.2.2]
      rfl
  · intro t ht h
    constructor
    · rw [← serviceOf_entry H s it.hashed hs]
      show Spec.serviceOf (entryKey H s it) = _
      rw [h]
      rfl
    · unfold entryKey entryKeyOf metadataKey at h
      simp only [List.cons_append, List.nil_append, List.cons.injEq] at h
      rw [hash27 _ (hH _), h.2.1, h.2.2.2.1, h.2.2.2.2.2.1, h.2.2.2.2.2.2.2.1, h.2.2.2.2.2.2.2.2]
      rfl

/-- The exception is real for a hash with such a value: with a hash function that sends the tag of one item
to zeros, the entry of service 11 is the timeslot. -/
example : entryKey (fun _ => List.replicate 32 0) 11 (.storage [1]) = simpleKey .timeslot ∧
    entryKey (fun _ => [7, 0, 0, 0] ++ List.replicate 28 0) 255 (.storage [1]) = metadataKey 7 := by decide +kernel

/-- A service created by an unprivileged service has a number of at least 2^8 (2^16 in the code), and its
entries never share a key with a component or metadata. -/
theorem C34_large_services_are_apart (H : List UInt8 → List UInt8) (s : Nat) (hs : s < 2 ^ 32) (hbig : 256 ≤ s)
    (it : Item) :
    (∀ c, entryKey H s it ≠ simpleKey c) ∧ (∀ t, entryKey H s it ≠ metadataKey t) := by
  constructor
  · intro c h
    have h1 := serviceOf_entry H s it.hashed hs
    have h2 : Spec.serviceOf (simpleKey c) ≤ 16 := by cases c <;> decide +kernel
    have h3 := congrArg Spec.serviceOf h
    unfold entryKey at h3
    omega
  · intro t h
    have h1 := serviceOf_entry H s it.hashed hs
    have h2 : Spec.serviceOf (metadataKey t) = 255 := rfl
    have h3 := congrArg Spec.serviceOf h
    unfold entryKey at h3
    omega

example : entryKey exHash 65536 (.storage []) ≠ metadataKey 65536 := by decide +kernel

/-- Within a service: two entries with one key hash the same bytes, or they exhibit two different inputs
whose hashes agree on the first 27 bytes. -/
theorem C34_same_service_partial (H : List UInt8 → List UInt8) (hH : ∀ x, (H x).length = 32) (s : Nat) (a b : Item)
    (h : entryKey H s a = entryKey H s b) :
    a.hashed = b.hashed ∨ (a.hashed ≠ b.hashed ∧ (H a.hashed).take 27 = (H b.hashed).take 27) := by
  by_cases hc : a.hashed = b.hashed
  · exact Or.inl hc
  · refine Or.inr ⟨hc, ?_⟩
    unfold entryKey entryKeyOf at h
    simp only [List.cons_append, List.nil_append, List.cons.injEq] at h
    rw [hash27 _ (hH _), hash27 _ (hH _), h.2.1, h.2.2.2.1, h.2.2.2.2.2.1, h.2.2.2.2.2.2.2.1, h.2.2.2.2.2.2.2.2]

example : entryKey exHash 5 (.storage [1]) ≠ entryKey exHash 5 (.storage [2]) := by decide +kernel

/-- Equal hashed bytes mean the same item, except for a lookup of a hash at length 2^32-1 against the
32-byte storage name equal to that hash, and a lookup at length 2^32-2 against the preimage itself. -/
theorem C34_hashed_bytes_determine_item (a b : Item) (ha : Spec.sane a = true) (hb : Spec.sane b = true)
    (h : a.hashed = b.hashed) :
    a = b ∨ (∃ x, x.length = 32 ∧
      ((a = .storage x ∧ b = .lookup x (2 ^ 32 - 1)) ∨ (b = .storage x ∧ a = .lookup x (2 ^ 32 - 1)) ∨
       (a = .preimage x ∧ b = .lookup x (2 ^ 32 - 2)) ∨ (b = .preimage x ∧ a = .lookup x (2 ^ 32 - 2)))) := by
  have key : ∀ (m n : Nat) (x y : List UInt8), m < 2 ^ 32 → n < 2 ^ 32 → le4 m ++ x = le4 n ++ y → m = n ∧ x = y := by
    intro m n x y hm hn hxy
    have h1 := List.append_inj hxy rfl
    exact ⟨le4_inj hm hn h1.1, h1.2⟩
  cases a <;> cases b <;> simp only [Item.hashed, Spec.sane, decide_eq_true_eq] at h ha hb
  · exact Or.inl (by rw [(key _ _ _ _ (by decide) (by decide) h).2])
  · exact absurd (key _ _ _ _ (by decide) (by decide) h).1 (by decide)
  · have h1 := key _ _ _ _ (by decide) hb.2 h
    exact Or.inr ⟨_, hb.1, Or.inl ⟨by rw [h1.2], by rw [h1.1]⟩⟩
  · exact absurd (key _ _ _ _ (by decide) (by decide) h).1 (by decide)
  · exact Or.inl (by rw [(key _ _ _ _ (by decide) (by decide) h).2])
  · have h1 := key _ _ _ _ (by decide) hb.2 h
    exact Or.inr ⟨_, hb.1, Or.inr (Or.inr (Or.inl ⟨by rw [h1.2], by rw [← h1.1]⟩))⟩
  · have h1 := key _ _ _ _ ha.2 (by decide) h
    exact Or.inr ⟨_, ha.1, Or.inr (Or.inl ⟨by rw [h1.2], by rw [h1.1]⟩)⟩
  · have h1 := key _ _ _ _ ha.2 (by decide) h
    exact Or.inr ⟨_, ha.1, Or.inr (Or.inr (Or.inr ⟨by rw [h1.2], by rw [h1.1]⟩))⟩
  · have h1 := key _ _ _ _ ha.2 hb.2 h
    exact Or.inl (by rw [h1.1, h1.2])

example : Spec.sane (.lookup (List.replicate 32 1) 77) = true ∧ Spec.sane (.storage [3, 4]) = true := by decide +kernel

/-- The aliases exist: for every hash function, one service's lookup record at the largest length is the
same state entry as a storage item of its own, and at the second largest length as the preimage. -/
theorem C34_largest_lookups_alias (H : List UInt8 → List UInt8) (s : Nat) (x : List UInt8) :
    entryKey H s (.lookup x (2 ^ 32 - 1)) = entryKey H s (.storage x) ∧
    entryKey H s (.lookup x (2 ^ 32 - 2)) = entryKey H s (.preimage x) := ⟨rfl, rfl⟩

end Fastroll.StateKeys
