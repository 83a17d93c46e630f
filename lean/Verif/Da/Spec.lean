import Verif.Da.Model
/-! # What erasure coding should do -/
namespace Fastroll.Da

/-- Octets `a, a+1, …, a+n-1`. -/
def slice (d : Bytes) (a n : Nat) : Bytes := (d.drop a).take n

/-- A column of the message: `k` words of two octets. -/
def IsColumn (k : Nat) (ws : List Bytes) : Prop := ws.length = k ∧ ∀ w ∈ ws, w.length = 2

/-- The library keeps the promise of a maximum-distance-separable systematic code: `k` words get `n - k`
recovery words, and any `k` or more of the `n` words restore exactly the missing originals. -/
structure Mds (rs : RS) (k n : Nat) : Prop where
  enc : ∀ ws, IsColumn k ws → ∃ r, rs.encode ws = some r ∧ IsColumn (n - k) r
  dec : ∀ ws r orig rec, IsColumn k ws → rs.encode ws = some r →
    (∀ x ∈ orig, ws[x.1]? = some x.2) → (∀ x ∈ rec, r[x.1]? = some x.2) →
    (orig.map Prod.fst).Nodup → (rec.map Prod.fst).Nodup → k ≤ orig.length + rec.length →
    ∃ out, rs.decode orig rec = some out ∧
      ∀ x, x ∈ out ↔ (ws[x.1]? = some x.2 ∧ x.1 ∉ orig.map Prod.fst)

/-- `d` with the fewest zero octets appended that make it `k` chunks of whole words. -/
def Padded (k : Nat) (data d : Bytes) : Prop :=
  ∃ z, z < 2 * k ∧ d = data ++ List.replicate z 0 ∧ d.length % (2 * k) = 0

/-- Column `p` of `d` cut into `k` consecutive chunks of `len` octets: word `p` of each. -/
def column (d : Bytes) (k len p : Nat) : List Bytes :=
  (List.range k).map fun i => slice d (i * len + 2 * p) 2

/-- The chunks of `d`: `n` of them, of `len` octets each, the first `k` of which joined are `d`, and
word `p` of chunk `j` is word `j` of the codeword of column `p`. -/
def IsCoding (rs : RS) (k n : Nat) (d : Bytes) (chunks : List Bytes) : Prop :=
  chunks.length = n ∧ (∀ c ∈ chunks, c.length * k = d.length) ∧ (chunks.take k).flatten = d ∧
  ∀ p, 2 * k * p < d.length → ∃ r, rs.encode (column d k (d.length / k) p) = some r ∧
    chunks.map (fun c => slice c (2 * p) 2) = column d k (d.length / k) p ++ r

/-- What a receiver holds: a list with some of the genuine chunks in their places. -/
def Holds (chunks : List Bytes) (got : List (Option Bytes)) : Prop :=
  ∀ (i : Nat) (c : Bytes), got[i]? = some (some c) → chunks[i]? = some c

/-- How many chunks a receiver holds. -/
def held (got : List (Option Bytes)) : Nat := got.countP Option.isSome

end Fastroll.Da
