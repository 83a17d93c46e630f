import Verif.Refine.Spec

/-!
# What the host functions of accumulation should do

Stated over an ideal context: a service is its maps and its numbers, with no counters of what it holds;
privileges are one holder each. Numbers are those of the Gray Paper's appendix on the PVM's host
functions. `φ` are the registers, `μ` the memory, `ϱ` the gas of the calling program.
-/
namespace Fastroll.Host.Paper
open Fastroll.Pvm
open Fastroll.Refine.Paper (CanRead CanWrite octets)
open Fastroll.Pvm.Paper (word)

abbrev Bytes := List UInt8

/-- A service account. -/
structure Acct where
  code : Bytes
  balance : Nat
  minAcc : Nat
  minMemo : Nat
  gratis : Nat
  created : Nat
  last : Nat
  parent : Nat
  storage : Bytes → Option Bytes
  preimages : Bytes → Option Bytes
  requests : Bytes → Nat → Option (List Nat)

/-- The account holds `i` items of `o` octets in all. -/
def Holds (a : Acct) (i o : Nat) : Prop :=
  ∃ (ks : List Bytes) (ls : List (Bytes × Nat)), ks.Nodup ∧ ls.Nodup ∧ (∀ k, k ∈ ks ↔ (a.storage k).isSome) ∧
    (∀ h z, (h, z) ∈ ls ↔ (a.requests h z).isSome) ∧ i = 2 * ls.length + ks.length ∧
    o = (ls.map fun l => 81 + l.2).sum + (ks.map fun k => 34 + k.length + ((a.storage k).getD []).length).sum

/-- The least balance the account may have. -/
def Needs (a : Acct) (t : Nat) : Prop := ∃ i o, Holds a i o ∧ t = 100 + 10 * i + o - a.gratis

/-- A transfer on its way. -/
structure Xfer where
  src : Nat
  dst : Nat
  amount : Nat
  memo : Bytes
  gas : Nat

structure Ctx where
  self : Nat
  accts : Nat → Option Acct
  manager : Nat
  assigner : Nat → Option Nat
  delegator : Nat
  registrar : Nat
  always : Nat → Option Nat
  queue : Nat → Option (List Bytes)
  staged : Option (List Bytes)
  next : Nat
  transfers : List Xfer
  yielded : Option Bytes
  provided : Nat → Bytes → Prop

def Ctx.put (x : Ctx) (s : Nat) (a : Option Acct) : Ctx := { x with accts := fun k => if k = s then a else x.accts k }

/-- The account with one storage entry, one request, one preimage replaced. -/
def Acct.store (a : Acct) (k : Bytes) (v : Option Bytes) : Acct :=
  { a with storage := fun k' => if k' = k then v else a.storage k' }
def Acct.request (a : Acct) (h : Bytes) (z : Nat) (v : Option (List Nat)) : Acct :=
  { a with requests := fun h' z' => if h' = h ∧ z' = z then v else a.requests h' z' }
def Acct.forget (a : Acct) (h : Bytes) : Acct :=
  { a with preimages := fun h' => if h' = h then none else a.preimages h' }

/-- Constants of the chain and the block. -/
structure Const where
  cores : Nat
  validators : Nat
  expiry : Nat
  queueLen : Nat
  keyLen : Nat
  memoLen : Nat
  slot : Nat
  hash : Bytes → Bytes

/-- What the calling program sees: the call ends it, or registers 7 and 8 and a part of its memory are
written and gas is taken on top of the 10 units of every call. -/
inductive Res where
  | outOfGas
  | panic
  | ret (r7 : Nat) (r8 : Option Nat) (write : Option (Nat × Bytes)) (extra : Nat)

def NONE : Nat := 2 ^ 64 - 1
def WHAT : Nat := 2 ^ 64 - 2
def WHO : Nat := 2 ^ 64 - 4
def FULL : Nat := 2 ^ 64 - 5
def CORE : Nat := 2 ^ 64 - 6
def CASH : Nat := 2 ^ 64 - 7
def LOW : Nat := 2 ^ 64 - 8
def HUH : Nat := 2 ^ 64 - 9

/-- A call that only returns a number. -/
def Res.just (n : Nat) : Res := .ret n none none 0

/-- A number in `n` octets, least significant first. -/
def little (n x : Nat) : Bytes := (List.range n).map fun k => UInt8.ofNat (x / 256 ^ k)

/-- The service a register names: `2^64 - 1` is the caller. -/
def named (x : Ctx) (r : Nat) : Nat := if r = 2 ^ 64 - 1 then x.self else r

/-- A datum, or none, offered at address `o` from offset `f` in at most `l` octets. -/
inductive Offers (μ : PMem) (o f l : Nat) : Option Bytes → Res → Prop
  | none : Offers μ o f l none (.just NONE)
  | panic {v : Bytes} (h : ¬ CanWrite μ o (min l (v.length - min f v.length))) : Offers μ o f l (some v) .panic
  | some {v : Bytes} (h : CanWrite μ o (min l (v.length - min f v.length))) :
      Offers μ o f l (some v)
        (.ret v.length none (some (o, (v.drop (min f v.length)).take (min l (v.length - min f v.length)))) 0)

/-- What `info` tells of an account that holds `i` items of `o` octets and needs `t`. -/
def Acct.told (a : Acct) (i o t : Nat) : Bytes :=
  a.code ++ little 8 a.balance ++ little 8 t ++ little 8 a.minAcc ++ little 8 a.minMemo ++ little 8 o ++ little 4 i ++ little 8 a.gratis ++
  little 4 a.created ++ little 4 a.last ++ little 4 a.parent

/-- The first free identifier from `i` on, along the ring of public identifiers. -/
def FirstFree (d : Nat → Option Acct) (i j : Nat) : Prop :=
  ∃ n, j = 2 ^ 16 + (i - 2 ^ 16 + n) % (2 ^ 32 - 2 ^ 16 - 2 ^ 8) ∧ d j = none ∧
    ∀ m, m < n → (d (2 ^ 16 + (i - 2 ^ 16 + m) % (2 ^ 32 - 2 ^ 16 - 2 ^ 8))).isSome

/-- `n` chunks of `z` octets of memory. -/
def cells (μ : PMem) (a z n : Nat) : List Bytes := (List.range n).map fun i => octets μ (a + z * i) z

/-- The service and the gas in the `i`-th of the records at `o`; a later record of the same service counts
instead of an earlier one. -/
def Listed (μ : PMem) (o n s g : Nat) : Prop :=
  ∃ i, i < n ∧ word μ (o + 12 * i) 4 = s ∧ word μ (o + 12 * i + 4) 8 = g ∧
    ∀ j, i < j → j < n → word μ (o + 12 * j) 4 ≠ s

/-- A fresh account of `new`. -/
def fresh (P : Const) (x : Ctx) (c : Bytes) (l g m f t : Nat) : Acct where
  code := c
  balance := t
  minAcc := g
  minMemo := m
  gratis := f
  created := P.slot
  last := 0
  parent := x.self
  storage := fun _ => none
  preimages := fun _ => none
  requests := fun h z => if h = c ∧ z = l then some [] else none

/-- The calls that act on the regular context only. -/
inductive Acts (P : Const) (datum : Option Bytes) (φ : Nat → Nat) (μ : PMem) (ϱ : Int) (x : Ctx) : Nat → Res → Ctx → Prop
  | gas : Acts P datum φ μ ϱ x 0 (.just (ϱ.toNat - 10)) x
  | fetch {r} (h : Offers μ (φ 7) (φ 8) (φ 9) datum r) : Acts P datum φ μ ϱ x 1 r x
  | lookupPanic (h : ¬ CanRead μ (φ 8) 32) : Acts P datum φ μ ϱ x 2 .panic x
  | lookup {r} (h : CanRead μ (φ 8) 32)
      (ho : Offers μ (φ 9) (φ 10) (φ 11) ((x.accts (named x (φ 7))).bind fun a => a.preimages (octets μ (φ 8) 32)) r) :
      Acts P datum φ μ ϱ x 2 r x
  | readPanic (h : ¬ CanRead μ (φ 8) (φ 9)) : Acts P datum φ μ ϱ x 3 .panic x
  | read {r} (h : CanRead μ (φ 8) (φ 9))
      (ho : Offers μ (φ 10) (φ 11) (φ 12) ((x.accts (named x (φ 7))).bind fun a => a.storage (octets μ (φ 8) (φ 9))) r) :
      Acts P datum φ μ ϱ x 3 r x
  | writePanic (h : ¬ (CanRead μ (φ 7) (φ 8) ∧ (φ 10 ≠ 0 → CanRead μ (φ 9) (φ 10)))) : Acts P datum φ μ ϱ x 4 .panic x
  | writeFull {a v t} (h : CanRead μ (φ 7) (φ 8) ∧ (φ 10 ≠ 0 → CanRead μ (φ 9) (φ 10))) (ha : x.accts x.self = some a)
      (hv : v = if φ 10 = 0 then none else some (octets μ (φ 9) (φ 10)))
      (ht : Needs (a.store (octets μ (φ 7) (φ 8)) v) t) (hb : a.balance < t) : Acts P datum φ μ ϱ x 4 (.just FULL) x
  | write {a v t r} (h : CanRead μ (φ 7) (φ 8) ∧ (φ 10 ≠ 0 → CanRead μ (φ 9) (φ 10))) (ha : x.accts x.self = some a)
      (hv : v = if φ 10 = 0 then none else some (octets μ (φ 9) (φ 10)))
      (ht : Needs (a.store (octets μ (φ 7) (φ 8)) v) t) (hb : t ≤ a.balance)
      (hr : r = ((a.storage (octets μ (φ 7) (φ 8))).map List.length).getD NONE) :
      Acts P datum φ μ ϱ x 4 (.just r) (x.put x.self (some (a.store (octets μ (φ 7) (φ 8)) v)))
  | infoNone (h : x.accts (named x (φ 7)) = none) : Acts P datum φ μ ϱ x 5 (.just NONE) x
  | info {a i o t r} (h : x.accts (named x (φ 7)) = some a) (hh : Holds a i o) (ht : Needs a t)
      (ho : Offers μ (φ 8) (φ 9) (φ 10) (some (a.told i o t)) r) : Acts P datum φ μ ϱ x 5 r x
  | blessPanic (h : ¬ (CanRead μ (φ 8) (4 * P.cores) ∧ CanRead μ (φ 11) (12 * φ 12))) : Acts P datum φ μ ϱ x 14 .panic x
  | blessWho (h : CanRead μ (φ 8) (4 * P.cores) ∧ CanRead μ (φ 11) (12 * φ 12))
      (hw : ¬ (φ 7 < 2 ^ 32 ∧ φ 9 < 2 ^ 32 ∧ φ 10 < 2 ^ 32)) : Acts P datum φ μ ϱ x 14 (.just WHO) x
  | bless {as zs} (h : CanRead μ (φ 8) (4 * P.cores) ∧ CanRead μ (φ 11) (12 * φ 12))
      (hw : φ 7 < 2 ^ 32 ∧ φ 9 < 2 ^ 32 ∧ φ 10 < 2 ^ 32)
      (ha : ∀ c, as c = if c < P.cores then some (word μ (φ 8 + 4 * c) 4) else none)
      (hz : ∀ s g, zs s = some g ↔ Listed μ (φ 11) (φ 12) s g) :
      Acts P datum φ μ ϱ x 14 (.just 0)
        { x with manager := φ 7, assigner := as, delegator := φ 9, registrar := φ 10, always := zs }
  | assignPanic (h : ¬ CanRead μ (φ 8) (32 * P.queueLen)) : Acts P datum φ μ ϱ x 15 .panic x
  | assignCore (h : CanRead μ (φ 8) (32 * P.queueLen)) (hc : P.cores ≤ φ 7) : Acts P datum φ μ ϱ x 15 (.just CORE) x
  | assignHuh (h : CanRead μ (φ 8) (32 * P.queueLen)) (hc : φ 7 < P.cores) (hs : x.assigner (φ 7) ≠ some x.self) :
      Acts P datum φ μ ϱ x 15 (.just HUH) x
  | assignWho (h : CanRead μ (φ 8) (32 * P.queueLen)) (hc : φ 7 < P.cores) (hs : x.assigner (φ 7) = some x.self)
      (hw : 2 ^ 32 ≤ φ 9) : Acts P datum φ μ ϱ x 15 (.just WHO) x
  | assign (h : CanRead μ (φ 8) (32 * P.queueLen)) (hc : φ 7 < P.cores) (hs : x.assigner (φ 7) = some x.self)
      (hw : φ 9 < 2 ^ 32) :
      Acts P datum φ μ ϱ x 15 (.just 0)
        { x with queue := fun c => if c = φ 7 then some (cells μ (φ 8) 32 P.queueLen) else x.queue c,
                 assigner := fun c => if c = φ 7 then some (φ 9) else x.assigner c }
  | designatePanic (h : ¬ CanRead μ (φ 7) (P.keyLen * P.validators)) : Acts P datum φ μ ϱ x 16 .panic x
  | designateHuh (h : CanRead μ (φ 7) (P.keyLen * P.validators)) (hs : x.delegator ≠ x.self) : Acts P datum φ μ ϱ x 16 (.just HUH) x
  | designate (h : CanRead μ (φ 7) (P.keyLen * P.validators)) (hs : x.delegator = x.self) :
      Acts P datum φ μ ϱ x 16 (.just 0) { x with staged := some (cells μ (φ 7) P.keyLen P.validators) }
  | newPanic (h : ¬ (CanRead μ (φ 7) 32 ∧ φ 8 < 2 ^ 32)) : Acts P datum φ μ ϱ x 18 .panic x
  | newHuh (h : CanRead μ (φ 7) 32 ∧ φ 8 < 2 ^ 32) (hf : φ 11 ≠ 0 ∧ x.manager ≠ x.self) : Acts P datum φ μ ϱ x 18 (.just HUH) x
  | newCash {a t u b} (h : CanRead μ (φ 7) 32 ∧ φ 8 < 2 ^ 32) (hf : ¬ (φ 11 ≠ 0 ∧ x.manager ≠ x.self))
      (ha : x.accts x.self = some a) (ht : Needs a t)
      (hn : b = fresh P x (octets μ (φ 7) 32) (φ 8) (φ 9) (φ 10) (φ 11) u) (hu : Needs b u) (hb : a.balance < t + u) :
      Acts P datum φ μ ϱ x 18 (.just CASH) x
  | newFull {a t u b} (h : CanRead μ (φ 7) 32 ∧ φ 8 < 2 ^ 32) (hf : ¬ (φ 11 ≠ 0 ∧ x.manager ≠ x.self))
      (ha : x.accts x.self = some a) (ht : Needs a t)
      (hn : b = fresh P x (octets μ (φ 7) 32) (φ 8) (φ 9) (φ 10) (φ 11) u) (hu : Needs b u) (hb : t + u ≤ a.balance)
      (hr : x.registrar = x.self ∧ φ 12 < 2 ^ 16) (hx : (x.accts (φ 12)).isSome) : Acts P datum φ μ ϱ x 18 (.just FULL) x
  | newSmall {a t u b} (h : CanRead μ (φ 7) 32 ∧ φ 8 < 2 ^ 32) (hf : ¬ (φ 11 ≠ 0 ∧ x.manager ≠ x.self))
      (ha : x.accts x.self = some a) (ht : Needs a t)
      (hn : b = fresh P x (octets μ (φ 7) 32) (φ 8) (φ 9) (φ 10) (φ 11) u) (hu : Needs b u) (hb : t + u ≤ a.balance)
      (hr : x.registrar = x.self ∧ φ 12 < 2 ^ 16) (hx : x.accts (φ 12) = none) :
      Acts P datum φ μ ϱ x 18 (.just (φ 12))
        ((x.put x.self (some { a with balance := a.balance - u })).put (φ 12) (some b))
  /-- The identifier kept for the next account is free after this one was added. -/
  | new {a t u b y n} (h : CanRead μ (φ 7) 32 ∧ φ 8 < 2 ^ 32) (hf : ¬ (φ 11 ≠ 0 ∧ x.manager ≠ x.self))
      (ha : x.accts x.self = some a) (ht : Needs a t)
      (hn : b = fresh P x (octets μ (φ 7) 32) (φ 8) (φ 9) (φ 10) (φ 11) u) (hu : Needs b u) (hb : t + u ≤ a.balance)
      (hr : ¬ (x.registrar = x.self ∧ φ 12 < 2 ^ 16))
      (hy : y = (x.put x.self (some { a with balance := a.balance - u })).put x.next (some b))
      (hi : FirstFree y.accts (2 ^ 16 + (x.next - 2 ^ 16 + 42) % (2 ^ 32 - 2 ^ 16 - 2 ^ 8)) n) :
      Acts P datum φ μ ϱ x 18 (.just x.next) { y with next := n }
  | upgradePanic (h : ¬ CanRead μ (φ 7) 32) : Acts P datum φ μ ϱ x 19 .panic x
  | upgrade {a} (h : CanRead μ (φ 7) 32) (ha : x.accts x.self = some a) :
      Acts P datum φ μ ϱ x 19 (.just 0)
        (x.put x.self (some { a with code := octets μ (φ 7) 32, minAcc := φ 8, minMemo := φ 9 }))
  | transferPanic (h : ¬ CanRead μ (φ 10) P.memoLen) : Acts P datum φ μ ϱ x 20 .panic x
  | transferWho (h : CanRead μ (φ 10) P.memoLen) (hd : x.accts (φ 7) = none) : Acts P datum φ μ ϱ x 20 (.just WHO) x
  | transferLow {d} (h : CanRead μ (φ 10) P.memoLen) (hd : x.accts (φ 7) = some d) (hl : φ 9 < d.minMemo) :
      Acts P datum φ μ ϱ x 20 (.just LOW) x
  | transferCash {d a t} (h : CanRead μ (φ 10) P.memoLen) (hd : x.accts (φ 7) = some d) (hl : d.minMemo ≤ φ 9)
      (ha : x.accts x.self = some a) (ht : Needs a t) (hb : a.balance < t + φ 8) : Acts P datum φ μ ϱ x 20 (.just CASH) x
  | transferGas {d a t} (h : CanRead μ (φ 10) P.memoLen) (hd : x.accts (φ 7) = some d) (hl : d.minMemo ≤ φ 9)
      (ha : x.accts x.self = some a) (ht : Needs a t) (hb : t + φ 8 ≤ a.balance) (hg : ϱ < (10 + φ 9 : Nat)) :
      Acts P datum φ μ ϱ x 20 .outOfGas x
  | transfer {d a t} (h : CanRead μ (φ 10) P.memoLen) (hd : x.accts (φ 7) = some d) (hl : d.minMemo ≤ φ 9)
      (ha : x.accts x.self = some a) (ht : Needs a t) (hb : t + φ 8 ≤ a.balance) (hg : (10 + φ 9 : Nat) ≤ ϱ) :
      Acts P datum φ μ ϱ x 20 (.ret 0 none none (φ 9))
        { x.put x.self (some { a with balance := a.balance - φ 8 }) with
          transfers := x.transfers ++ [⟨x.self, φ 7, φ 8, octets μ (φ 10) P.memoLen, φ 9⟩] }
  | ejectPanic (h : ¬ CanRead μ (φ 8) 32) : Acts P datum φ μ ϱ x 21 .panic x
  | ejectWho (h : CanRead μ (φ 8) 32)
      (hw : φ 7 = x.self ∨ x.accts (φ 7) = none ∨ ∃ d, x.accts (φ 7) = some d ∧ d.code ≠ little 32 x.self) :
      Acts P datum φ μ ϱ x 21 (.just WHO) x
  | ejectHuh {d i o} (h : CanRead μ (φ 8) 32) (hw : φ 7 ≠ x.self) (hd : x.accts (φ 7) = some d) (hc : d.code = little 32 x.self)
      (hh : Holds d i o)
      (hx : ¬ (i = 2 ∧ ∃ u v, d.requests (octets μ (φ 8) 32) (max 81 o - 81) = some [u, v] ∧ v + P.expiry < P.slot)) :
      Acts P datum φ μ ϱ x 21 (.just HUH) x
  | eject {d a o u v} (h : CanRead μ (φ 8) 32) (hw : φ 7 ≠ x.self) (hd : x.accts (φ 7) = some d) (hc : d.code = little 32 x.self)
      (hh : Holds d 2 o) (hx : d.requests (octets μ (φ 8) 32) (max 81 o - 81) = some [u, v]) (hv : v + P.expiry < P.slot)
      (ha : x.accts x.self = some a) :
      Acts P datum φ μ ϱ x 21 (.just 0) ((x.put x.self (some { a with balance := a.balance + d.balance })).put (φ 7) none)
  | queryPanic (h : ¬ CanRead μ (φ 7) 32) : Acts P datum φ μ ϱ x 22 .panic x
  | queryNone {a} (h : CanRead μ (φ 7) 32) (ha : x.accts x.self = some a) (hr : a.requests (octets μ (φ 7) 32) (φ 8) = none) :
      Acts P datum φ μ ϱ x 22 (.ret NONE (some 0) none 0) x
  | query0 {a} (h : CanRead μ (φ 7) 32) (ha : x.accts x.self = some a) (hr : a.requests (octets μ (φ 7) 32) (φ 8) = some []) :
      Acts P datum φ μ ϱ x 22 (.ret 0 (some 0) none 0) x
  | query1 {a u} (h : CanRead μ (φ 7) 32) (ha : x.accts x.self = some a) (hr : a.requests (octets μ (φ 7) 32) (φ 8) = some [u]) :
      Acts P datum φ μ ϱ x 22 (.ret (1 + 2 ^ 32 * u) (some 0) none 0) x
  | query2 {a u v} (h : CanRead μ (φ 7) 32) (ha : x.accts x.self = some a) (hr : a.requests (octets μ (φ 7) 32) (φ 8) = some [u, v]) :
      Acts P datum φ μ ϱ x 22 (.ret (2 + 2 ^ 32 * u) (some v) none 0) x
  | query3 {a u v w} (h : CanRead μ (φ 7) 32) (ha : x.accts x.self = some a)
      (hr : a.requests (octets μ (φ 7) 32) (φ 8) = some [u, v, w]) :
      Acts P datum φ μ ϱ x 22 (.ret (3 + 2 ^ 32 * u) (some (v + 2 ^ 32 * w)) none 0) x
  | solicitPanic (h : ¬ CanRead μ (φ 7) 32) : Acts P datum φ μ ϱ x 23 .panic x
  | solicitHuh {a ts} (h : CanRead μ (φ 7) 32) (ha : x.accts x.self = some a)
      (hr : a.requests (octets μ (φ 7) 32) (φ 8) = some ts) (hl : ts.length ≠ 2) : Acts P datum φ μ ϱ x 23 (.just HUH) x
  | solicitFull {a b t} (h : CanRead μ (φ 7) 32) (ha : x.accts x.self = some a)
      (hb : (a.requests (octets μ (φ 7) 32) (φ 8) = none ∧ b = a.request (octets μ (φ 7) 32) (φ 8) (some [])) ∨
        ∃ u v, a.requests (octets μ (φ 7) 32) (φ 8) = some [u, v] ∧
          b = a.request (octets μ (φ 7) 32) (φ 8) (some [u, v, P.slot]))
      (ht : Needs b t) (hf : b.balance < t) : Acts P datum φ μ ϱ x 23 (.just FULL) x
  | solicit {a b t} (h : CanRead μ (φ 7) 32) (ha : x.accts x.self = some a)
      (hb : (a.requests (octets μ (φ 7) 32) (φ 8) = none ∧ b = a.request (octets μ (φ 7) 32) (φ 8) (some [])) ∨
        ∃ u v, a.requests (octets μ (φ 7) 32) (φ 8) = some [u, v] ∧
          b = a.request (octets μ (φ 7) 32) (φ 8) (some [u, v, P.slot]))
      (ht : Needs b t) (hf : t ≤ b.balance) : Acts P datum φ μ ϱ x 23 (.just 0) (x.put x.self (some b))
  | forgetPanic (h : ¬ CanRead μ (φ 7) 32) : Acts P datum φ μ ϱ x 24 .panic x
  | forgetDrop {a ts} (h : CanRead μ (φ 7) 32) (ha : x.accts x.self = some a)
      (hr : a.requests (octets μ (φ 7) 32) (φ 8) = some ts) (he : ts = [] ∨ ∃ u v, ts = [u, v] ∧ v + P.expiry < P.slot) :
      Acts P datum φ μ ϱ x 24 (.just 0)
        (x.put x.self (some ((a.request (octets μ (φ 7) 32) (φ 8) none).forget (octets μ (φ 7) 32))))
  | forgetMark {a u} (h : CanRead μ (φ 7) 32) (ha : x.accts x.self = some a)
      (hr : a.requests (octets μ (φ 7) 32) (φ 8) = some [u]) :
      Acts P datum φ μ ϱ x 24 (.just 0) (x.put x.self (some (a.request (octets μ (φ 7) 32) (φ 8) (some [u, P.slot]))))
  | forgetAgain {a u v w} (h : CanRead μ (φ 7) 32) (ha : x.accts x.self = some a)
      (hr : a.requests (octets μ (φ 7) 32) (φ 8) = some [u, v, w]) (he : v + P.expiry < P.slot) :
      Acts P datum φ μ ϱ x 24 (.just 0) (x.put x.self (some (a.request (octets μ (φ 7) 32) (φ 8) (some [w, P.slot]))))
  | forgetHuh {a} (h : CanRead μ (φ 7) 32) (ha : x.accts x.self = some a)
      (hr : ∀ ts, a.requests (octets μ (φ 7) 32) (φ 8) = some ts →
        ¬ (ts = [] ∨ (∃ u, ts = [u]) ∨ ∃ u v ws, ts = u :: v :: ws ∧ ws.length ≤ 1 ∧ v + P.expiry < P.slot)) :
      Acts P datum φ μ ϱ x 24 (.just HUH) x
  | yieldPanic (h : ¬ CanRead μ (φ 7) 32) : Acts P datum φ μ ϱ x 25 .panic x
  | yield (h : CanRead μ (φ 7) 32) : Acts P datum φ μ ϱ x 25 (.just 0) { x with yielded := some (octets μ (φ 7) 32) }
  | providePanic (h : ¬ CanRead μ (φ 8) (φ 9)) : Acts P datum φ μ ϱ x 26 .panic x
  | provideWho (h : CanRead μ (φ 8) (φ 9)) (ha : x.accts (named x (φ 7)) = none) : Acts P datum φ μ ϱ x 26 (.just WHO) x
  | provideHuh {a} (h : CanRead μ (φ 8) (φ 9)) (ha : x.accts (named x (φ 7)) = some a)
      (hr : a.requests (P.hash (octets μ (φ 8) (φ 9))) (φ 9) ≠ some [] ∨ x.provided (named x (φ 7)) (octets μ (φ 8) (φ 9))) :
      Acts P datum φ μ ϱ x 26 (.just HUH) x
  | provide {a} (h : CanRead μ (φ 8) (φ 9)) (ha : x.accts (named x (φ 7)) = some a)
      (hr : a.requests (P.hash (octets μ (φ 8) (φ 9))) (φ 9) = some []) (hp : ¬ x.provided (named x (φ 7)) (octets μ (φ 8) (φ 9))) :
      Acts P datum φ μ ϱ x 26 (.just 0)
        { x with provided := fun s d => (s = named x (φ 7) ∧ d = octets μ (φ 8) (φ 9)) ∨ x.provided s d }

/-- One host call on the regular and the exceptional context, with at least 10 units of gas. -/
inductive Answers (P : Const) (datum : Option Bytes) (φ : Nat → Nat) (μ : PMem) (ϱ : Int) (x y : Ctx) : Nat → Res → Ctx → Ctx → Prop
  | acts {h r x'} (a : Acts P datum φ μ ϱ x h r x') : Answers P datum φ μ ϱ x y h r x' y
  | checkpoint : Answers P datum φ μ ϱ x y 17 (.just (ϱ.toNat - 10)) x x
  | unknown {h} (hh : 5 < h) (hn : ¬ (14 ≤ h ∧ h ≤ 26)) : Answers P datum φ μ ϱ x y h (.just WHAT) x y

end Fastroll.Host.Paper
