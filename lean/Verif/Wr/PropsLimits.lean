import Verif.Wr.Spec
import Verif.Wire.Props
/-!
# C57: the package limits are those of the Gray Paper

No code calls the three validations (they are public but unused), so nothing enforces them.
-/
namespace Fastroll.Wr
open Fastroll.Wire (WorkItem WorkPackage XtInfo)

theorem sum64_eq (l : List Nat) : sum64 l = l.sum % 2 ^ 64 := by
  have : ∀ (l : List Nat) (a : Nat), l.foldl (fun a b => (a + b) % 2 ^ 64) (a % 2 ^ 64) = (a + l.sum) % 2 ^ 64 := by
    intro l
    induction l with
    | nil => intro a; simp
    | cons b l ih =>
      intro a
      rw [List.foldl_cons, Nat.mod_add_mod, ih, List.sum_cons, Nat.add_assoc]
  have h := this l 0
  rw [Nat.zero_mod, Nat.zero_add] at h
  exact h

theorem sum32_eq (l : List Nat) : sum32 l = l.sum % 2 ^ 32 := by
  have : ∀ (l : List Nat) (a : Nat), l.foldl (fun a b => (a + b) % 2 ^ 32) (a % 2 ^ 32) = (a + l.sum) % 2 ^ 32 := by
    intro l
    induction l with
    | nil => intro a; simp
    | cons b l ih =>
      intro a
      rw [List.foldl_cons, Nat.mod_add_mod, ih, List.sum_cons, Nat.add_assoc]
  have h := this l 0
  rw [Nat.zero_mod, Nat.zero_add] at h
  exact h

/-- The limits of the full chain. -/
def fullLimits : Limits :=
  { exports := 3072, imports := 3072, xts := 128, bundle := 13791360, importFootprint := 4488,
    accGas := 10000000, refineGas := 5000000000, output := 48 * 1024, dependencies := 8, items := 16 }

/-- **C57, counts.** -/
theorem C57_counts (L : Limits) (p : WorkPackage) : countsOk L p = true ↔ Paper.Counts L p := by
  unfold countsOk Paper.Counts
  simp only [Bool.and_eq_true, decide_eq_true_eq]

example : Paper.Counts fullLimits Wire.exPackage := (C57_counts _ _).mp (by decide)

/-- **C57, size.** -/
theorem C57_size (L : Limits) (p : WorkPackage) : sizeOk L p = true ↔ Paper.Size L p := by
  unfold sizeOk Paper.Size
  rw [decide_eq_true_eq]
  have : itemOctets L = fun w : WorkItem => w.payload.length + L.importFootprint * w.imports.length +
      (w.xts.map XtInfo.length).sum := by
    funext w
    unfold itemOctets
    rw [Nat.mul_comm]
  rw [this]

example : Paper.Size fullLimits Wire.exPackage := (C57_size _ _).mp (by decide)

/-- **C57, gas**, as far as it holds: when the sums of the limits are below `2^64`. -/
theorem C57_gas_partial (L : Limits) (p : WorkPackage) (ha : (p.items.map WorkItem.accGas).sum < 2 ^ 64)
    (hr : (p.items.map WorkItem.refineGas).sum < 2 ^ 64) : gasOk L p = true ↔ Paper.Gas L p := by
  unfold gasOk Paper.Gas
  rw [sum64_eq, sum64_eq, Nat.mod_eq_of_lt ha, Nat.mod_eq_of_lt hr]
  simp only [Bool.and_eq_true, decide_eq_true_eq]

example : ¬ Paper.Gas fullLimits Wire.exPackage ∧
    Paper.Gas fullLimits { Wire.exPackage with items := [{ Wire.exItem with accGas := 9999999 }] } :=
  ⟨fun h => absurd ((C57_gas_partial fullLimits Wire.exPackage (by decide) (by decide)).mpr h) (by decide),
   (C57_gas_partial fullLimits _ (by decide) (by decide)).mp (by decide)⟩

/-- In general the code compares the sums modulo `2^64`. -/
theorem C57_gas_modulo (L : Limits) (p : WorkPackage) : gasOk L p = true ↔
    (p.items.map WorkItem.accGas).sum % 2 ^ 64 < L.accGas ∧
    (p.items.map WorkItem.refineGas).sum % 2 ^ 64 < L.refineGas := by
  unfold gasOk
  rw [sum64_eq, sum64_eq]
  simp only [Bool.and_eq_true, decide_eq_true_eq]

/-- **C57** fails for larger sums: two items may ask for `2^63` units of gas each. -/
theorem C57_gas_wraps : ∃ p : WorkPackage, (∀ w ∈ p.items, w.accGas < 2 ^ 64 ∧ w.refineGas < 2 ^ 64) ∧
    gasOk fullLimits p = true ∧ ¬ Paper.Gas fullLimits p := by
  refine ⟨{ Wire.exPackage with items :=
    [{ Wire.exItem with accGas := 2 ^ 63 }, { Wire.exItem with accGas := 2 ^ 63 }] }, ?_, by decide, ?_⟩
  · intro w hw
    simp only [List.mem_cons, List.not_mem_nil, or_false] at hw
    rcases hw with rfl | rfl <;> decide
  · unfold Paper.Gas; decide

theorem le_sum_of_mem {l : List Nat} {x : Nat} (h : x ∈ l) : x ≤ l.sum := by
  induction l with
  | nil => cases h
  | cons a l ih =>
    rw [List.sum_cons]
    rcases List.mem_cons.mp h with rfl | h
    · omega
    · have := ih h; omega

/-- **C57, use.** A package within the limits of either chain has items whose counts fit the fields of a work
digest. -/
theorem C57_countable (L : Limits) (hi : L.imports < 2 ^ 16) (hx : L.xts < 2 ^ 16) (hb : L.bundle < 2 ^ 32)
    (p : WorkPackage) (hc : countsOk L p = true) (hs : sizeOk L p = true) :
    ∀ w ∈ p.items, Paper.Countable w := by
  intro w hw
  obtain ⟨_, h2, h3⟩ := (C57_counts L p).mp hc
  have h4 := (C57_size L p).mp hs
  unfold Paper.Size at h4
  have e2 := le_sum_of_mem (List.mem_map_of_mem (f := fun w : WorkItem => w.imports.length) hw)
  have e3 := le_sum_of_mem (List.mem_map_of_mem (f := fun w : WorkItem => w.xts.length) hw)
  have e4 := le_sum_of_mem (List.mem_map_of_mem (f := fun w : WorkItem =>
    w.payload.length + L.importFootprint * w.imports.length + (w.xts.map XtInfo.length).sum) hw)
  clear hc hs hw
  generalize L.importFootprint * w.imports.length = y at *
  exact ⟨by omega, by omega, by omega⟩

example : ∀ w ∈ Wire.exPackage.items, Paper.Countable w :=
  C57_countable fullLimits (by decide) (by decide) (by decide) Wire.exPackage (by decide) (by decide)

end Fastroll.Wr
