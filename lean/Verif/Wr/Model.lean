import Verif.Wire.Model
/-!
# Model of the work-package limits and of the computation of work reports

Transcribes `/repo/common/src/types/workloads/work_package.rs` lines 236-291 and
`/repo/pvm/pvm-invocation/src/refine/pipeline.rs`.

* `usize` sums are `Nat` (lengths of vectors in memory, at most 16 items); `u64` and `u32` sums wrap, as in a
  release build.
* The invocations `Ψ_I` and `Ψ_R` are parameters: what they return for the item index and export offset they
  are called with. `none` is their `Err`.
* Where the code has `unimplemented!` (import segments, extrinsic data, the bundle, the lookup table) the
  model takes a parameter; `shipped` puts the panics back.
-/
namespace Fastroll.Wr
open Fastroll.Wire (WorkItem WorkPackage WorkResult WorkError WorkDigest RefineStats WorkReport AvailSpecs XtInfo ImportInfo PackageId)

abbrev Bytes := List UInt8

/-- The constants of common/src/constants used here. -/
structure Limits where
  exports : Nat
  imports : Nat
  xts : Nat
  bundle : Nat
  importFootprint : Nat
  accGas : Nat
  refineGas : Nat
  output : Nat
  dependencies : Nat
  items : Nat

/-! ## Package limits -/

/-- `validate_data_references_count`, lines 238-257. -/
def countsOk (L : Limits) (p : WorkPackage) : Bool :=
  decide ((p.items.map WorkItem.exports).sum ≤ L.exports) &&
  (decide ((p.items.map fun w => w.imports.length).sum ≤ L.imports) &&
   decide ((p.items.map fun w => w.xts.length).sum ≤ L.xts))

/-- The octets of one item, lines 264-271. -/
def itemOctets (L : Limits) (w : WorkItem) : Nat :=
  w.payload.length + w.imports.length * L.importFootprint + (w.xts.map XtInfo.length).sum

/-- `validate_work_bundle_size`, lines 260-275. -/
def sizeOk (L : Limits) (p : WorkPackage) : Bool :=
  decide (p.token.length + p.config.length + (p.items.map (itemOctets L)).sum ≤ L.bundle)

/-- `.sum::<u64>()` of a release build. -/
def sum64 (l : List Nat) : Nat := l.foldl (fun a b => (a + b) % 2 ^ 64) 0

/-- `validate_gas_limits`, lines 278-290. -/
def gasOk (L : Limits) (p : WorkPackage) : Bool :=
  decide (sum64 (p.items.map WorkItem.accGas) < L.accGas) &&
  decide (sum64 (p.items.map WorkItem.refineGas) < L.refineGas)

/-! ## Work reports -/

/-- `RefineResult`, refine/mod.rs lines 38-45. -/
structure RefineRes where
  gas : Nat
  output : WorkResult
  exports : List Bytes
  deriving DecidableEq

/-- `.sum::<u32>()` of a release build. -/
def sum32 (l : List Nat) : Nat := l.foldl (fun a b => (a + b) % 2 ^ 32) 0

/-- `work_item_to_digest`, pipeline.rs lines 28-51. -/
def toDigest (h : Bytes → Bytes) (w : WorkItem) (r : WorkResult) (gas : Nat) : WorkDigest :=
  { service := w.service, codeHash := w.codeHash, payloadHash := h w.payload, accGas := w.accGas, result := r,
    stats := { gasUsed := gas, imports := w.imports.length % 2 ^ 16, xtCount := w.xts.length % 2 ^ 16,
               xtOctets := sum32 (w.xts.map XtInfo.length), exports := w.exports } }

/-- `work_package_authorizer`, lines 53-61. -/
def authorizer (h : Bytes → Bytes) (p : WorkPackage) : Bytes := h (p.authCode ++ p.config)

/-- The outcome of a call: a value, an `Err`, or a panic. -/
inductive Out (α : Type) where
  | ok (a : α)
  | err
  | panic
  deriving DecidableEq

def Out.bind {α β : Type} (x : Out α) (f : α → Out β) : Out β :=
  match x with
  | .ok a => f a
  | .err => .err
  | .panic => .panic

/-- Lines 69-75: is the import named by package hash? -/
def byPackage (i : ImportInfo) : Bool :=
  match i.id with
  | .packageHash _ => true
  | .segmentRoot _ => false

/-- The count of lines 66-77. -/
def lookupCount (p : WorkPackage) : Nat :=
  p.items.foldl (fun acc w => acc + (w.imports.filter byPackage).length) 0

/-- `build_segment_roots_lookup_table`, lines 63-82; `table` stands for the `unimplemented!`. -/
def lookupTable (L : Limits) (table : Out (List (Bytes × Bytes))) (p : WorkPackage) :
    Out (List (Bytes × Bytes)) :=
  if lookupCount p > L.dependencies then .err else table

/-- The variables of the loop, lines 121-126. -/
structure Loop where
  offset : Nat
  size : Nat
  digests : List WorkDigest
  exports : List (List Bytes)
  deriving DecidableEq

/-- Lines 146-148: the octets of an output are added to the running size. -/
def addSize (size : Nat) (r : WorkResult) : Nat :=
  match r with
  | .output b => size + b.length
  | .error _ => size

/-- Lines 153-171: the result of the digest and the exports kept (`none`: they are zeroed and dropped). -/
def judge (L : Limits) (size : Nat) (w : WorkItem) (r : RefineRes) : WorkResult × Option (List Bytes) :=
  if size > L.output then (.error .oversize, none)
  else if r.exports.length ≠ w.exports then (.error .badExports, none)
  else match r.output with
    | .error e => (.error e, none)
    | .output b => (.output b, some r.exports)

/-- One turn of the loop after `refine`, lines 146-176; the `try_push` fails beyond the item limit. -/
def turn (L : Limits) (h : Bytes → Bytes) (s : Loop) (w : WorkItem) (r : RefineRes) : Out Loop :=
  let size := addSize s.size r.output
  let j := judge L size w r
  if s.digests.length < L.items then
    .ok { offset := s.offset + w.exports, size := size,
          digests := s.digests ++ [toDigest h w j.1 r.gas],
          exports := s.exports ++ j.2.toList }
  else .err

/-- The loop, lines 128-177. `refine` is called with the item's index and the export offset. -/
def run (L : Limits) (h : Bytes → Bytes) (refine : Nat → Nat → Out RefineRes) :
    Nat → List WorkItem → Loop → Out Loop
  | _, [], s => .ok s
  | j, w :: ws, s =>
    (refine j s.offset).bind fun r => (turn L h s w r).bind fun s' => run L h refine (j + 1) ws s'

/-- What the report is computed from besides the package. -/
structure Env where
  hash : Bytes → Bytes
  authorize : Out (Nat × WorkResult)
  refine : Nat → Nat → Out RefineRes
  specs : List Bytes → Out AvailSpecs
  table : Out (List (Bytes × Bytes))

/-- Lines 108-118. -/
def traceOf (L : Limits) (r : WorkResult) : Out Bytes :=
  match r with
  | .output b => if b.length > L.output then .err else .ok b
  | .error _ => .err

/-- `compute_work_report`, lines 94-194. -/
def computeReport (L : Limits) (E : Env) (core : Nat) (p : WorkPackage) : Out WorkReport :=
  E.authorize.bind fun a =>
  (traceOf L a.2).bind fun trace =>
  (run L E.hash E.refine 0 p.items { offset := 0, size := trace.length, digests := [], exports := [] }).bind fun s =>
  (E.specs s.exports.flatten).bind fun specs =>
  (lookupTable L E.table p).bind fun table =>
  .ok { specs := specs, ctx := p.ctx, core := core, authorizer := authorizer E.hash p, authGas := a.1,
        trace := trace, lookup := table, digests := s.digests }

/-- The code as it stands: `construct_import_segments` and `construct_extrinsic_data_info_map` (called to
build the arguments of every `refine`), `build_auditable_bundle` and the lookup table are `unimplemented!`. -/
def shipped (E : Env) : Env :=
  { E with refine := fun _ _ => .panic, specs := fun _ => .panic, table := .panic }

end Fastroll.Wr
