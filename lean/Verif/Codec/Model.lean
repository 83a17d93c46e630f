/-!
# Model of the JAM codec

Transcribes `/repo/codec/fr-codec/src/lib.rs`. Output is a byte list (the bytes
pushed to the destination, in order); input is a byte list whose unread tail is
returned. `Result` is `Except Err`.
-/
namespace Fastroll.Codec

/-- The error kinds of `JamCodecError` that the modelled functions return
(`lib.rs` lines 19-40); messages are dropped. `panic` is not an error value of the
code: it stands for the thread panicking. -/
inductive Err where
  | input | conversion | invalidSize | encoding | panic
deriving DecidableEq, Repr

deriving instance DecidableEq for Except

/-- A decoder: consumes a prefix of the input and returns the unread rest
(`JamDecode`, lines 104-109, on `&[u8]`, lines 58-74). -/
abbrev Dec (α : Type) := List UInt8 → Except Err (α × List UInt8)

/-- An encoder: the bytes written (`JamEncode::encode_to`, lines 91-102). -/
abbrev Enc (α : Type) := α → Except Err (List UInt8)

/-- The `?` operator on a decoder: continue with the value on the unread rest, or
return the error. -/
def Dec.bind {α β : Type} (d : Dec α) (f : α → Dec β) : Dec β := fun inp =>
  match d inp with
  | .error e => .error e
  | .ok (a, r) => f a r

/-- `Ok(a)`. -/
def Dec.pure {α : Type} (a : α) : Dec α := fun inp => .ok (a, inp)

/-- `Err(e)`. -/
def Dec.fail {α : Type} (e : Err) : Dec α := fun _ => .error e

/-- `read_byte`, lines 47-52 with 58-69. -/
def readByte : Dec UInt8
  | [] => .error .input
  | b :: r => .ok (b, r)

/-- `u8::leading_ones`. -/
def leadingOnes (b : UInt8) : Nat :=
  ((List.range 8).takeWhile (fun i => b.toNat.testBit (7 - i))).length

/-- The first `n` little-endian bytes of `x`:
`((x >> (8*i)) & 0xFF) as u8` for `i in 0..n` (lines 160-163), which is also
`x.to_le_bytes()[..n]` (lines 169, 566-567). -/
def leBytes (n x : Nat) : List UInt8 :=
  (List.range n).map (fun i => UInt8.ofNat ((x >>> (8 * i)) &&& 0xFF))

/-- `integer_encode_to`, lines 116-173, on the `u64` value `x`. -/
def intEncode (x : Nat) : List UInt8 :=
  if x = 0 then [0]
  else if x < 1 <<< 56 then
    let l := x.log2 / 7
    let leading := if l = 0 then 0 else (1 <<< 8) - (1 <<< (8 - l))
    let divisor := 1 <<< (8 * l)
    let quotient := x / divisor
    let remainder := x % divisor
    (UInt8.ofNat leading ||| UInt8.ofNat quotient) :: leBytes l remainder
  else 0xFF :: leBytes 8 x

/-- `integer_size_hint`, lines 175-188. -/
def intSizeHint (x : Nat) : Nat :=
  if x = 0 then 1 else if x < 1 <<< 56 then x.log2 / 7 + 1 else 9

/-- The loop of `decode_fixed` for integers, lines 584-587:
`value |= (read_byte()? as u64) << (8 * i)` from index `i` on for `n` bytes. -/
def readLE : (i n v : Nat) → Dec Nat
  | _, 0, v => .pure v
  | i, n + 1, v => readByte.bind fun b => readLE (i + 1) n (v ||| (b.toNat <<< (8 * i)))

/-- `U::try_from(value)` for an unsigned type of `w` bits. -/
def tryFrom (w : Nat) (v : Nat) : Dec Nat :=
  if v < 2 ^ w then .pure v else .fail .conversion

/-- `decode_fixed` for an unsigned type of `w` bits, lines 575-590
(`size_of::<Self>()` is `w/8`). -/
def fixedDecode (w size : Nat) : Dec Nat :=
  if size > w / 8 then .fail .invalidSize
  else (readLE 0 size 0).bind fun v => tryFrom w v

/-- `encode_to_fixed` for unsigned integers, lines 556-569. -/
def fixedEncode (size : Nat) (v : Nat) : Except Err (List UInt8) :=
  if size > 8 then .error .invalidSize
  else if v > (1 <<< (size * 8)) - 1 then .error .conversion
  else .ok (leBytes size v)

/-- `integer_decode`, lines 190-219, into an unsigned type of `w` bits. -/
def intDecode (w : Nat) : Dec Nat :=
  readByte.bind fun first =>
    if first = 0 then tryFrom w 0
    else
      let l := leadingOnes first
      if l = 8 then
        (fixedDecode 64 8).bind fun v => tryFrom w v
      else
        let mask : UInt8 := if l ≥ 7 then 0 else UInt8.ofNat (0xFF >>> (l + 1))
        let quotient := (first &&& mask).toNat
        (fixedDecode 64 l).bind fun rem => tryFrom w ((quotient <<< (8 * l)) ||| rem)

/-- `usize`/`u64` encode as a fallible encoder; a value that is not a `u64` is
reported as the conversion error of lines 124-126. -/
def natEnc : Enc Nat := fun x =>
  if x < 2 ^ 64 then .ok (intEncode x) else .error .conversion

/-- `bool`, lines 244-266. -/
def boolEnc : Enc Bool := fun b => .ok [if b then 1 else 0]
def boolDec : Dec Bool :=
  readByte.bind fun b => if b = 0 then .pure false else if b = 1 then .pure true
    else .fail .input

/-- `Option<T>` encode, lines 268-287. -/
def optEnc {α : Type} (e : Enc α) : Enc (Option α)
  | none => .ok (intEncode 0)
  | some a => match e a with
    | .error x => .error x
    | .ok bs => .ok (intEncode 1 ++ bs)

/-- `Option<T>` decode, lines 289-298. -/
def optDec {α : Type} (d : Dec α) : Dec (Option α) :=
  readByte.bind fun b =>
    if b = 0 then .pure none
    else if b = 1 then d.bind fun a => .pure (some a)
    else .fail .input

/-- Two-field tuples and derived structs, lines 596-624 and
`codec/fr-codec-derive/src/lib.rs`: fields in order with no separator. Longer
tuples are nested pairs here. -/
def pairEnc {α β : Type} (ea : Enc α) (eb : Enc β) : Enc (α × β) := fun p =>
  match ea p.1 with
  | .error x => .error x
  | .ok x => match eb p.2 with
    | .error y => .error y
    | .ok y => .ok (x ++ y)

def pairDec {α β : Type} (da : Dec α) (db : Dec β) : Dec (α × β) :=
  da.bind fun a => db.bind fun b => .pure (a, b)

/-- `iter().try_for_each(|e| e.encode_to(dest))`, e.g. line 332; also the whole
encoding of arrays `[E; N]` (line 307) and of `FixedVec` (line 388). -/
def seqEnc {α : Type} (e : Enc α) : Enc (List α)
  | [] => .ok []
  | a :: as => match e a with
    | .error x => .error x
    | .ok bs => match seqEnc e as with
      | .error x => .error x
      | .ok cs => .ok (bs ++ cs)

/-- `for _ in 0..n { push(T::decode(input)?) }`, lines 314-316, 340-342. -/
def seqDec {α : Type} (d : Dec α) : Nat → Dec (List α)
  | 0 => .pure []
  | n + 1 => d.bind fun a => (seqDec d n).bind fun as => .pure (a :: as)

/-- `Vec<T>` and `LimitedVec` encode, lines 324-334, 347-357. -/
def vecEnc {α : Type} (e : Enc α) : Enc (List α) := fun as =>
  match natEnc as.length with
  | .error x => .error x
  | .ok p => match seqEnc e as with
    | .error x => .error x
    | .ok bs => .ok (p ++ bs)

/-- `isize::MAX` on a 64-bit target, the most bytes one allocation may have. -/
def maxAlloc : Nat := 2 ^ 63 - 1

/-- `Vec::<T>::with_capacity(n)` or `vec![0; n]` with `sz = size_of::<T>()`: panics
with "capacity overflow" when `n * sz` exceeds `isize::MAX`. An allocation that is in
range but larger than the memory of the machine is taken to succeed. -/
def reserve (sz n : Nat) : Dec Unit := if n * sz ≤ maxAlloc then .pure () else .fail .panic

/-- `Vec<T>` decode, lines 336-345, with `sz = size_of::<T>()`. -/
def vecDec {α : Type} (sz : Nat) (d : Dec α) : Dec (List α) :=
  (intDecode 64).bind fun n => (reserve sz n).bind fun _ => seqDec d n

/-- `LimitedVec` decode, lines 359-376. -/
def limitedDec {α : Type} (max : Nat) (d : Dec α) : Dec (List α) :=
  (intDecode 64).bind fun n =>
    if n > max then .fail .invalidSize
    else (seqDec d n).bind fun as =>
      if as.length ≤ max then .pure as else .fail .invalidSize

/-- `BTreeMap::insert` on a key-sorted association list. -/
def mapInsert {κ ν : Type} (lt : κ → κ → Bool) (k : κ) (v : ν) :
    List (κ × ν) → List (κ × ν)
  | [] => [(k, v)]
  | (k', v') :: m =>
    if lt k k' then (k, v) :: (k', v') :: m
    else if lt k' k then (k', v') :: mapInsert lt k v m
    else (k, v) :: m

/-- `BTreeMap` encode, lines 453-466: length, then key and value of each entry
in key order. The map is represented by its sorted association list. -/
def mapEnc {κ ν : Type} (ek : Enc κ) (ev : Enc ν) : Enc (List (κ × ν)) :=
  vecEnc (pairEnc ek ev)

/-- Loop of `BTreeMap` decode, lines 474-478. -/
def mapDecLoop {κ ν : Type} (lt : κ → κ → Bool) (dk : Dec κ) (dv : Dec ν) :
    Nat → List (κ × ν) → Dec (List (κ × ν))
  | 0, m => .pure m
  | n + 1, m => (pairDec dk dv).bind fun p => mapDecLoop lt dk dv n (mapInsert lt p.1 p.2 m)

/-- `BTreeMap` decode, lines 469-481. -/
def mapDec {κ ν : Type} (lt : κ → κ → Bool) (dk : Dec κ) (dv : Dec ν) :
    Dec (List (κ × ν)) :=
  (intDecode 64).bind fun n => mapDecLoop lt dk dv n []

/-- Packing loop of `BitVec` `encode_to_fixed`, lines 660-681. -/
def packLoop : List Bool → (cur : UInt8) → (cnt : Nat) → List UInt8
  | [], cur, cnt => if cnt > 0 then [cur] else []
  | b :: bs, cur, cnt =>
    let cur' := if b then cur ||| UInt8.ofNat (1 <<< cnt) else cur
    if cnt + 1 = 8 then cur' :: packLoop bs 0 0
    else packLoop bs cur' (cnt + 1)

/-- `BitVec` `encode_to_fixed`, lines 643-683. -/
def bitsEncFixed (size : Nat) (bs : List Bool) : Except Err (List UInt8) :=
  if bs.length ≠ size then .error .invalidSize else .ok (packLoop bs 0 0)

/-- Inner loop of lines 700-706: push bits of one byte while fewer than `size`
bits are collected. -/
def pushBits (size : Nat) (byte : UInt8) (acc : List Bool) : List Bool :=
  (List.range 8).foldl
    (fun bv i => if bv.length < size then bv ++ [byte &&& UInt8.ofNat (1 <<< i) != 0] else bv) acc

/-- Outer loop of lines 696-707: `n` more bytes. -/
def unpackLoop (size : Nat) : Nat → List Bool → Dec (List Bool)
  | 0, acc => .pure acc
  | n + 1, acc => readByte.bind fun b => unpackLoop size n (pushBits size b acc)

/-- `BitVec` `decode_fixed`, lines 688-710. -/
def bitsDecFixed (size : Nat) : Dec (List Bool) :=
  unpackLoop size ((size + 7) / 8) []

/-- `BitVec` encode, lines 417-424. -/
def bitsEnc : Enc (List Bool) := fun bs =>
  match natEnc bs.length with
  | .error x => .error x
  | .ok p => match bitsEncFixed bs.length bs with
    | .error x => .error x
    | .ok b => .ok (p ++ b)

/-- `BitVec` decode, lines 427-433. `BitVec::with_capacity(n)` (line 694) panics when
`n` exceeds `BitSlice::MAX_BITS`, which is `usize::MAX >> 3`. -/
def bitsDec : Dec (List Bool) :=
  (intDecode 64).bind fun n =>
    if n ≤ 2 ^ 61 - 1 then bitsDecFixed n else .fail .panic

end Fastroll.Codec
