import Verif.Pvm.MemModel
/-!
# What memory should be: a protected byte map

A total map from addresses to bytes with a permission per address.
-/
namespace Fastroll.Pvm

/-- A protected byte map. Addresses outside the memory are inaccessible. -/
structure PMem where
  byte : Nat → UInt8
  perm : Nat → Access

/-- What a program (or the host) can do with a memory. -/
inductive MemOp where
  | load (addr len : Nat)
  | loadByte (addr : Nat)
  | store (addr : Nat) (bytes : List UInt8)
  | storeByte (addr : Nat) (b : UInt8)
  | protect (firstPage lastPage : Nat) (a : Access)
deriving Repr

/-- A range may be loaded: it is empty, or it starts above the forbidden zone and every
address in it is readable. -/
def PMem.Loadable (zone : Nat) (s : PMem) (addr len : Nat) : Prop :=
  len = 0 ∨ (zone ≤ addr ∧ ∀ x, addr ≤ x → x < addr + len → s.perm x ≠ .inaccessible)

/-- A range may be stored to. -/
def PMem.Storable (zone : Nat) (s : PMem) (addr len : Nat) : Prop :=
  len = 0 ∨ (zone ≤ addr ∧ ∀ x, addr ≤ x → x < addr + len → s.perm x = .readWrite)

/-- One operation on the byte map: the state before, the result (`none` is failure) and the
state after. -/
inductive PMem.Does (zone pageSize size : Nat) : PMem → MemOp → Option (List UInt8) → PMem → Prop
  | load {s addr len} (h : s.Loadable zone addr len) :
      Does zone pageSize size s (.load addr len) (some ((List.range len).map fun i => s.byte (addr + i))) s
  | loadFail {s addr len} (h : ¬ s.Loadable zone addr len) :
      Does zone pageSize size s (.load addr len) none s
  | loadByte {s addr} (h : s.Loadable zone addr 1) :
      Does zone pageSize size s (.loadByte addr) (some [s.byte addr]) s
  | loadByteFail {s addr} (h : ¬ s.Loadable zone addr 1) :
      Does zone pageSize size s (.loadByte addr) none s
  | store {s addr bytes} (h : s.Storable zone addr bytes.length) :
      Does zone pageSize size s (.store addr bytes) (some [])
        { s with byte := fun x => if addr ≤ x ∧ x < addr + bytes.length then bytes.getD (x - addr) 0 else s.byte x }
  | storeFail {s addr bytes} (h : ¬ s.Storable zone addr bytes.length) :
      Does zone pageSize size s (.store addr bytes) none s
  | storeByte {s addr b} (h : s.Storable zone addr 1) :
      Does zone pageSize size s (.storeByte addr b) (some [])
        { s with byte := fun x => if x = addr then b else s.byte x }
  | storeByteFail {s addr b} (h : ¬ s.Storable zone addr 1) :
      Does zone pageSize size s (.storeByte addr b) none s
  | protect {s lo hi a} (h : hi ≤ lo ∨ hi * pageSize ≤ size) :
      Does zone pageSize size s (.protect lo hi a) (some [])
        { s with perm := fun x => if lo ≤ x / pageSize ∧ x / pageSize < hi ∧ x < size then a else s.perm x }
  | protectFail {s lo hi a} (h : ¬ (hi ≤ lo ∨ hi * pageSize ≤ size)) :
      Does zone pageSize size s (.protect lo hi a) none
        { s with perm := fun x => if lo ≤ x / pageSize ∧ x / pageSize < hi ∧ x < size then a else s.perm x }

/-- A sequence of operations. -/
inductive PMem.Runs (zone pageSize size : Nat) : PMem → List MemOp → List (Option (List UInt8)) → PMem → Prop
  | nil {s} : Runs zone pageSize size s [] [] s
  | cons {s op r s1 ops rs s2} : Does zone pageSize size s op r s1 → Runs zone pageSize size s1 ops rs s2 →
      Runs zone pageSize size s (op :: ops) (r :: rs) s2

/-- The byte map a memory stands for. -/
def Mem.abs (m : Mem) : PMem where
  byte x := m.data.getD x 0
  perm x := if x < m.data.length then m.acc.getD (x / m.pageSize) .inaccessible else .inaccessible

/-- A well-formed memory: whole pages (the code's size and page size are powers of two). -/
structure Mem.WF (m : Mem) : Prop where
  ps : 0 < m.pageSize
  len : m.data.length = m.acc.length * m.pageSize

def toOpt {α : Type} : Except MemErr α → Option α
  | .ok a => some a
  | .error _ => none

/-- The model doing one operation. -/
def Mem.exec (m : Mem) : MemOp → Option (List UInt8) × Mem
  | .load a n => (toOpt (m.readBytes a n), m)
  | .loadByte a => ((toOpt (m.readByte a)).map fun b => [b], m)
  | .store a bs => ((toOpt (m.writeBytes a bs).1).map fun _ => [], (m.writeBytes a bs).2)
  | .storeByte a b => ((toOpt (m.writeByte a b).1).map fun _ => [], (m.writeByte a b).2)
  | .protect lo hi acc => ((toOpt (m.setPageRange lo hi acc).1).map fun _ => [], (m.setPageRange lo hi acc).2)

/-- The model doing a sequence of operations. -/
def Mem.execAll (m : Mem) : List MemOp → List (Option (List UInt8)) × Mem
  | [] => ([], m)
  | op :: ops =>
    let (r, m1) := m.exec op
    let (rs, m2) := m1.execAll ops
    (r :: rs, m2)

end Fastroll.Pvm
