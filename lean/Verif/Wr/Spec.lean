import Verif.Wr.Model
/-!
# What the Gray Paper says about package limits and work reports

The limits are those of section 14.3, the report that of the function `Ξ` of section 14.4. The paper's
`I(p, j)` is `itemOf`, its running sum `z` counts the outputs it has accepted so far, and its offset `ℓ`
the exports declared so far. `R j ℓ` is what refinement of item `j` returns.
-/
namespace Fastroll.Wr.Paper
open Fastroll.Wire (WorkItem WorkPackage WorkResult WorkError WorkDigest XtInfo ImportInfo PackageId)

/-- The three limits on the number of segments and extrinsics. -/
def Counts (L : Limits) (p : WorkPackage) : Prop :=
  (p.items.map WorkItem.exports).sum ≤ L.exports ∧
  (p.items.map fun w => w.imports.length).sum ≤ L.imports ∧
  (p.items.map fun w => w.xts.length).sum ≤ L.xts

/-- The limit on the size of the package with its data. -/
def Size (L : Limits) (p : WorkPackage) : Prop :=
  p.token.length + p.config.length +
    (p.items.map fun w => w.payload.length + L.importFootprint * w.imports.length +
      (w.xts.map XtInfo.length).sum).sum ≤ L.bundle

/-- The limits on gas. -/
def Gas (L : Limits) (p : WorkPackage) : Prop :=
  (p.items.map WorkItem.accGas).sum < L.accGas ∧ (p.items.map WorkItem.refineGas).sum < L.refineGas

/-- Octets of a result: an error has none. -/
def octets : WorkResult → Nat
  | .output b => b.length
  | .error _ => 0

/-- The zero segments exported in place of those of an item that failed. -/
def zeros (n : Nat) : List Bytes := List.replicate n (List.replicate 4104 0)

/-- `I(p, j)`: the result and the exports of an item, given the octets `z` accepted before it. -/
def itemOf (W z : Nat) (w : WorkItem) (r : RefineRes) : WorkResult × List Bytes :=
  match r.output with
  | .output b =>
    if W < b.length + z then (.error .oversize, zeros w.exports)
    else if r.exports.length = w.exports then (.output b, r.exports)
    else (.error .badExports, zeros w.exports)
  | .error e =>
    if r.exports.length = w.exports then (.error e, zeros w.exports)
    else (.error .badExports, zeros w.exports)

/-- The results, gas and exports of the items from the `j`-th on. -/
def results (W : Nat) (R : Nat → Nat → RefineRes) : Nat → Nat → Nat → List WorkItem →
    List (WorkResult × Nat × List Bytes)
  | _, _, _, [] => []
  | j, l, z, w :: ws =>
    let i := itemOf W z w (R j l)
    (i.1, (R j l).gas, i.2) :: results W R (j + 1) (l + w.exports) (z + octets i.1) ws

/-- `C(w, r, u)`: the digest of an item. -/
def Digest (h : Bytes → Bytes) (w : WorkItem) (r : WorkResult) (gas : Nat) (d : WorkDigest) : Prop :=
  d.service = w.service ∧ d.codeHash = w.codeHash ∧ d.payloadHash = h w.payload ∧ d.accGas = w.accGas ∧
  d.result = r ∧ d.stats.gasUsed = gas ∧ d.stats.imports = w.imports.length ∧ d.stats.xtCount = w.xts.length ∧
  d.stats.xtOctets = (w.xts.map XtInfo.length).sum ∧ d.stats.exports = w.exports

/-- The counts of an item fit the fields of a digest. -/
def Countable (w : WorkItem) : Prop :=
  w.imports.length < 2 ^ 16 ∧ w.xts.length < 2 ^ 16 ∧ (w.xts.map XtInfo.length).sum < 2 ^ 32

/-- What the code returns for the item `n` of the package before judging it. -/
def raw (R : Nat → Nat → RefineRes) (ws : List WorkItem) (n : Nat) : RefineRes :=
  R n ((ws.take n).map WorkItem.exports).sum

/-- Item `n` either failed by itself or had its output accepted: no output was turned down. -/
def Kept (W : Nat) (R : Nat → Nat → RefineRes) (z : Nat) (ws : List WorkItem) (n : Nat) : Prop :=
  ∀ b, (raw R ws n).output = .output b → ∀ x, (results W R 0 0 z ws)[n]? = some x → x.1 = .output b

/-- The package an import names, if it names one. -/
def packageOf (i : ImportInfo) : Option Bytes :=
  match i.id with
  | .packageHash h => some h
  | .segmentRoot _ => none

/-- The packages whose exports a package refers to, once for each import. -/
def imported (p : WorkPackage) : List Bytes := p.items.flatMap fun w => w.imports.filterMap packageOf

/-- The packages whose exports a package refers to, each once. -/
def dependencies (p : WorkPackage) : List Bytes := (imported p).eraseDups

end Fastroll.Wr.Paper
