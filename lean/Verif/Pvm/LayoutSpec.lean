import Verif.Pvm.LayoutModel
import Verif.Pvm.MemSpec
/-!
# The standard program's memory map

Stated with sizes rounded up to whole pages / zones by their own definition.
-/
namespace Fastroll.Pvm

/-- `y` is `x` rounded up to a multiple of `u`. -/
def RoundsUp (u x y : Nat) : Prop := u ∣ y ∧ x ≤ y ∧ y < x + u

/-- A region `[start, stop)`. -/
structure Region where
  start : Nat
  stop : Nat

def Region.Has (r : Region) (x : Nat) : Prop := r.start ≤ x ∧ x < r.stop

/-- The four regions of a program, given its rounded sizes: read-only data of `po` bytes
(`zo` when rounded to zones), heap of `pw` bytes, stack of `ps` bytes, arguments of `pa` bytes. -/
structure Regions where
  ro : Region
  heap : Region
  stack : Region
  args : Region

/-- The regions the protocol prescribes (Graypaper, standard program initialization). -/
def Regions.Prescribed (r : Regions) (p : FProg) (argsLen : Nat) : Prop :=
  ∃ po zo pw ps pa, RoundsUp 4096 p.staticSize po ∧ RoundsUp 65536 p.staticSize zo ∧ RoundsUp 4096 p.heapSize pw ∧
    RoundsUp 4096 p.stackSize ps ∧ RoundsUp 4096 argsLen pa ∧
    r.ro = ⟨65536, 65536 + po⟩ ∧
    r.heap = ⟨131072 + zo, 131072 + zo + pw + p.extraPages * 4096⟩ ∧
    r.stack = ⟨4294967296 - 131072 - 16777216 - ps, 4294967296 - 131072 - 16777216⟩ ∧
    r.args = ⟨4294967296 - 65536 - 16777216, 4294967296 - 65536 - 16777216 + pa⟩

/-- The regions are in order, with at least a zone between each two, above the low zone and
below the high zone. -/
def Regions.Separate (r : Regions) : Prop :=
  65536 ≤ r.ro.start ∧ r.ro.start ≤ r.ro.stop ∧ r.ro.stop + 65536 ≤ r.heap.start ∧ r.heap.start ≤ r.heap.stop ∧
  r.heap.stop + 65536 ≤ r.stack.start ∧ r.stack.start ≤ r.stack.stop ∧ r.stack.stop + 65536 ≤ r.args.start ∧
  r.args.start ≤ r.args.stop ∧ r.args.stop + 65536 ≤ 4294967296

/-- The byte map the program starts with. -/
structure Regions.Describes (r : Regions) (p : FProg) (args : List UInt8) (s : PMem) : Prop where
  ro : ∀ x, r.ro.Has x → s.perm x = .readOnly ∧ s.byte x = p.staticData.getD (x - r.ro.start) 0
  heap : ∀ x, r.heap.Has x → s.perm x = .readWrite ∧ s.byte x = p.heapData.getD (x - r.heap.start) 0
  stack : ∀ x, r.stack.Has x → s.perm x = .readWrite ∧ s.byte x = 0
  args : ∀ x, r.args.Has x → s.perm x = .readOnly ∧ s.byte x = args.getD (x - r.args.start) 0
  other : ∀ x, ¬ r.ro.Has x → ¬ r.heap.Has x → ¬ r.stack.Has x → ¬ r.args.Has x → s.perm x = .inaccessible

end Fastroll.Pvm
