/-!
# Model of the PVM's memory

Transcribes `/repo/pvm/pvm-core/src/state/memory.rs` (lines 8-383).

Addresses (`u32`) and sizes (`usize`) are naturals. The constants `PAGE_SIZE` and
`INIT_ZONE_SIZE` (`/repo/pvm/pvm-types/src/constants.rs` lines 37-40) are fields, so small
memories can be computed with; the code always uses `4096` and `65536`. Operations taking
`&mut self` return the memory beside their result, so that an error that left a partial
effect behind would be visible.
-/
namespace Fastroll.Pvm

/-- Results can be compared (used to evaluate examples). -/
instance {ε α : Type} [DecidableEq ε] [DecidableEq α] : DecidableEq (Except ε α)
  | .ok a, .ok b => if h : a = b then .isTrue (by rw [h]) else .isFalse (fun e => h (by cases e; rfl))
  | .error a, .error b => if h : a = b then .isTrue (by rw [h]) else .isFalse (fun e => h (by cases e; rfl))
  | .ok _, .error _ => .isFalse (fun e => by cases e)
  | .error _, .ok _ => .isFalse (fun e => by cases e)

/-- `AccessType`, lines 27-33. -/
inductive Access where
  | inaccessible | readOnly | readWrite
deriving DecidableEq, Repr

/-- `MemoryError`, lines 8-24 (payloads kept where a caller looks at them). -/
inductive MemErr where
  | forbidden (addr : Nat) | outOfRange (addr : Nat) | invalidPageIndex (page : Nat)
  | accessViolation (addr : Nat) | sbrkHeapStackCollision
deriving DecidableEq, Repr

/-- `Memory`, lines 39-48. `total_pages` is the length of `acc` (lines 51-55). -/
structure Mem where
  data : List UInt8
  acc : List Access
  pageSize : Nat
  zone : Nat
  heapStart : Nat := 0
  heapEnd : Nat := 0
  stackStart : Nat := 0
deriving DecidableEq, Repr

/-- `Memory::new`, lines 51-61; `zone` is the constant `INIT_ZONE_SIZE`. -/
def Mem.new (size pageSize zone : Nat) : Mem :=
  { data := List.replicate size 0,
    acc := List.replicate ((size + pageSize - 1) / pageSize) .inaccessible, pageSize, zone }

/-- `get_page_and_offset`, lines 74-78 (page component). -/
def Mem.page (m : Mem) (addr : Nat) : Nat := addr / m.pageSize

/-- `set_page_access`, lines 81-89. -/
def Mem.setPageAccess (m : Mem) (page : Nat) (a : Access) : Except MemErr Unit × Mem :=
  if page ≥ m.acc.length then (.error (.invalidPageIndex page), m)
  else (.ok (), { m with acc := m.acc.set page a })

/-- The loop of `set_page_range_access`, lines 92-104: `n` pages from `start`. An invalid
index stops the loop and leaves the earlier pages changed. -/
def Mem.setPagesLoop (m : Mem) (start : Nat) (a : Access) : Nat → Except MemErr Unit × Mem
  | 0 => (.ok (), m)
  | n + 1 =>
    match m.setPageAccess start a with
    | (.error e, m') => (.error e, m')
    | (.ok _, m') => m'.setPagesLoop (start + 1) a n

/-- `set_page_range_access`, lines 92-104, for pages `lo..hi`. -/
def Mem.setPageRange (m : Mem) (lo hi : Nat) (a : Access) : Except MemErr Unit × Mem :=
  m.setPagesLoop lo a (hi - lo)

/-- `set_address_range_access`, lines 107-120, for addresses `lo..hi`. -/
def Mem.setAddrRange (m : Mem) (lo hi : Nat) (a : Access) : Except MemErr Unit × Mem :=
  if hi ≤ lo then (.ok (), m)
  else m.setPageRange (m.page lo) (m.page (hi - 1) + 1) a

/-- `is_page_readable`, lines 124-129. -/
def Mem.pageReadable (m : Mem) (p : Nat) : Bool :=
  match m.acc[p]? with
  | some .readOnly => true
  | some .readWrite => true
  | _ => false

/-- `is_page_writable`, lines 180-185. -/
def Mem.pageWritable (m : Mem) (p : Nat) : Bool :=
  match m.acc[p]? with
  | some .readWrite => true
  | _ => false

/-- `check_not_readable_in_range` / `check_not_writable_in_range`, lines 140-148, 196-204: the first
address of the first of `n` pages from `p` that fails the test. -/
def Mem.firstBad (m : Mem) (test : Nat → Bool) (p : Nat) : Nat → Option Nat
  | 0 => none
  | n + 1 => if !test p then some (p * m.pageSize) else m.firstBad test (p + 1) n

/-- `is_page_range_readable` / `_writable`, lines 151-155, 207-211: `n` pages from `p`. -/
def allPages (test : Nat → Bool) (p : Nat) : Nat → Bool
  | 0 => true
  | n + 1 => test p && allPages test (p + 1) n

/-- `is_address_range_readable` / `_writable`, lines 158-176, 214-232. The `usize` overflow
of `start + length` is caught by `checked_add` and answered `false`; for naturals the next test
already answers `false`. -/
def Mem.rangeTest (m : Mem) (test : Nat → Bool) (start length : Nat) : Bool :=
  if length = 0 then true
  else
    let stop := start + length - 1
    if stop ≥ m.data.length then false
    else allPages test (m.page start) (m.page stop + 1 - m.page start)

def Mem.rangeReadable (m : Mem) := m.rangeTest m.pageReadable
def Mem.rangeWritable (m : Mem) := m.rangeTest m.pageWritable

/-- `read_byte`, lines 235-250. -/
def Mem.readByte (m : Mem) (addr : Nat) : Except MemErr UInt8 :=
  if addr < m.zone then .error (.forbidden addr)
  else if addr ≥ m.data.length then .error (.outOfRange addr)
  else if m.pageReadable (m.page addr) then .ok (m.data.getD addr 0)
  else .error (.accessViolation addr)

/-- `validate_read`, lines 253-279, and the check `write_bytes` makes, lines 324-348: the
same tests with the page test as a parameter. -/
def Mem.validate (m : Mem) (test : Nat → Bool) (addr length : Nat) : Except MemErr Unit :=
  if addr < m.zone then .error (.forbidden addr)
  else
    let stop := addr + length
    if stop > m.data.length then .error (.outOfRange addr)
    else
      match m.firstBad test (m.page addr) (m.page (stop - 1) + 1 - m.page addr) with
      | some bad => .error (.accessViolation bad)
      | none => .ok ()

/-- `read_bytes`, lines 282-288 (and `read_bytes_fixed`, 291-302, which differs only in
returning an array). -/
def Mem.readBytes (m : Mem) (addr length : Nat) : Except MemErr (List UInt8) :=
  if length = 0 then .ok []
  else
    match m.validate m.pageReadable addr length with
    | .error e => .error e
    | .ok _ => .ok ((m.data.drop addr).take length)

/-- `write_byte`, lines 305-321. -/
def Mem.writeByte (m : Mem) (addr : Nat) (v : UInt8) : Except MemErr Unit × Mem :=
  if addr < m.zone then (.error (.forbidden addr), m)
  else if addr ≥ m.data.length then (.error (.outOfRange addr), m)
  else if m.pageWritable (m.page addr) then (.ok (), { m with data := m.data.set addr v })
  else (.error (.accessViolation addr), m)

/-- `write_bytes`, lines 324-352. -/
def Mem.writeBytes (m : Mem) (addr : Nat) (bytes : List UInt8) : Except MemErr Unit × Mem :=
  if bytes.length = 0 then (.ok (), m)
  else
    match m.validate m.pageWritable addr bytes.length with
    | .error e => (.error e, m)
    | .ok _ =>
      (.ok (), { m with data := m.data.take addr ++ bytes ++ m.data.drop (addr + bytes.length) })

/-- The loop of `get_break`, lines 355-368, with an explicit iteration bound (a range is
only readable inside the memory, so `data.length + 1` iterations always suffice;
`getBreak_ok` proves it). -/
def Mem.getBreakLoop (m : Mem) (size : Nat) : Nat → Nat → Nat
  | 0, brk => brk
  | fuel + 1, brk =>
    if m.rangeReadable brk size && !m.rangeWritable brk size then m.getBreakLoop size fuel (brk + 1)
    else brk

/-- `get_break`, lines 355-368. -/
def Mem.getBreak (m : Mem) (size : Nat) : Nat := m.getBreakLoop size (m.data.length + 1) m.heapEnd

/-- `expand_heap`, lines 371-383. `size as MemAddress` truncates to 32 bits and, without
overflow checks, so does the addition (with them, the addition panics instead). -/
def Mem.expandHeap (m : Mem) (start size : Nat) : Except MemErr Unit × Mem :=
  let stop := (start + size % 2 ^ 32) % 2 ^ 32
  if m.heapStart ≠ 0 ∧ stop ≥ m.stackStart then (.error .sbrkHeapStackCollision, m)
  else
    match m.setAddrRange start stop .readWrite with
    | (.error e, m') => (.error e, m')
    | (.ok _, m') => (.ok (), { m' with heapEnd := stop })

/-- The `sbrk` instruction's use of memory,
`/repo/pvm/pvm-core/src/program/instruction/set.rs` lines 794-813: the allocation's start. -/
def Mem.sbrk (m : Mem) (size : Nat) : Except MemErr Nat × Mem :=
  let start := m.getBreak size
  match m.expandHeap start size with
  | (.error e, m') => (.error e, m')
  | (.ok _, m') => (.ok start, m')

end Fastroll.Pvm
