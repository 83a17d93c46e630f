import Verif.Reports.Model
/-!
# What the reports part of a block should do
-/
namespace Fastroll.Reports.Spec
variable {σ : Type}

/-- The validators assuring a core, in the order of the extrinsic. -/
def assurers (xt : List (Assurance σ)) (core : Nat) : List Nat := (xt.filter fun a => a.bits[core]? = some true).map Assurance.voter

/-- More than two thirds of `V`. -/
def Supermajority (V n : Nat) : Prop := 2 * V < 3 * n

/-- Strictly increasing. -/
def Increasing (l : List Nat) : Prop := l.Pairwise (· < ·)

/-- An assurance that may be included: it names the parent, is signed by the active validator it names, and
only assures cores with a pending report. -/
def AssuranceOk (E : Env σ) (parent : Nat) (pend : List (Option Pending)) (a : Assurance σ) : Prop :=
  a.parent = parent ∧ (∃ key, E.judge.active[a.voter]? = some key ∧ E.verAvail key parent a.bits a.sig = true) ∧
  ∀ c : Nat, a.bits[c]? = some true → ∃ p, pend[c]? = some (some p)

/-- A pending report at a core. -/
def At (pend : List (Option Pending)) (core : Nat) (p : Pending) : Prop := pend[core]? = some (some p)

/-- The reports judged bad or wonky in a block (by hash): no votes for, or a third. -/
def Condemned (V : Nat) (xt : Judge.Xt σ) (h : Nat) : Prop := ∃ v ∈ xt.verdicts, v.report = h ∧
  ((v.js.filter fun j => j.vote = true).length = 0 ∨ (v.js.filter fun j => j.vote = true).length = V / 3)

/-- The three ways a pending report leaves its core in a block: more than two thirds of the validators assure
it, it times out, or it is judged against. -/
def Leaves (P : Par) (E : Env σ) (b : Block σ) (core : Nat) (p : Pending) : Prop :=
  (core < P.C ∧ Supermajority P.V (assurers b.assurances core).length) ∨ p.slot + P.timeout ≤ b.slot ∨ Condemned E.judge.V b.disputes (E.hash p.report)

/-- Another report with the same hash. -/
def Collision (hash : Report → Nat) (r : Report) : Prop := ∃ r', r' ≠ r ∧ hash r' = hash r

/-- A report is guaranteed in a block for a core. -/
def Guaranteed (b : Block σ) (core : Nat) (r : Report) : Prop := ∃ g ∈ b.guarantees, g.report = r ∧ r.core = core

/-- The last `n` elements. -/
def lastN {α : Type} (n : Nat) (l : List α) : List α := l.drop (l.length - n)

/-- The packages reported in the remembered blocks. -/
def recent (hist : List Hist) : List (Nat × Nat) := hist.flatMap Hist.packages

/-- A credential that counts: a key that is not banned, of a validator assigned to the core at the time of the
guarantee (current or previous rotation), signs the report. -/
def CredOk (P : Par) (E : Env σ) (now : Nat) (r : Report) (slot : Nat) (c : Cred σ) : Prop :=
  ∃ a key, (slot / P.rotation = now / P.rotation ∧ a = E.current ∨ slot / P.rotation ≠ now / P.rotation ∧ a = E.previous) ∧
    a.keys[c.voter]? = some key ∧ a.cores[c.voter]? = some r.core ∧ key ≠ 0 ∧ E.judge.ver key (.guarantee (E.hash r)) c.sig = true

/-- The report itself is acceptable on top of the given state. -/
structure ReportOk (P : Par) (E : Env σ) (now : Nat) (pend pend0 : List (Option Pending)) (pools : List (List Nat)) (hist : List Hist)
    (block : List Report) (r : Report) : Prop where
  size : r.trace + (r.digests.map Digest.bytes).sum ≤ P.maxBytes
  gas : (r.digests.map Digest.gas).sum ≤ P.maxGas
  services : ∀ d ∈ r.digests, ∃ code minGas, E.service d.service = some (code, minGas) ∧ minGas ≤ d.gas ∧ code = d.code
  free : pend[r.core]? = some none
  authorized : ∃ pool, pools[r.core]? = some pool ∧ r.auth ∈ pool
  anchored : ∃ e, (hist.find? fun e => e.header == r.anchor) = some e ∧ e.root = r.anchorRoot ∧ e.mmr = r.anchorMmr
  lookupAge : now ≤ r.lookupSlot + P.maxAge
  lookupKnown : ∀ anc, E.ancestors = some anc → anc r.lookupSlot r.lookupHash = true
  newRecent : ∀ m ∈ recent hist, m.1 ≠ r.pkg
  newPipeline : r.pkg ∉ E.accumulated ∧ r.pkg ∉ E.queued ∧ ∀ c p, At pend0 c p → p.report.pkg ≠ r.pkg
  deps : r.prereqs.length + r.lookup.length ≤ P.maxDeps
  lookup : ∀ l ∈ r.lookup, ((recent hist ++ block.map fun q => (q.pkg, q.seg)).find? fun m => m.1 == l.1) = some l
  prereqs : ∀ h ∈ r.prereqs, (∃ q ∈ block, q.pkg = h) ∨ ∃ m ∈ recent hist, m.1 = h

/-- The guarantee is acceptable. -/
structure GuaranteeOk (P : Par) (E : Env σ) (now : Nat) (pend pend0 : List (Option Pending)) (pools : List (List Nat)) (hist : List Hist)
    (block : List Report) (g : Guarantee σ) : Prop where
  report : ReportOk P E now pend pend0 pools hist block g.report
  count : g.creds.length = 2 ∨ g.creds.length = 3
  up : Increasing (g.creds.map Cred.voter)
  creds : ∀ c ∈ g.creds, CredOk P E now g.report g.slot c
  notFuture : g.slot ≤ now
  notOld : P.rotation * (now / P.rotation - 1) ≤ g.slot

/-- The guarantees of a block are acceptable. -/
structure GuaranteesOk (P : Par) (E : Env σ) (now : Nat) (pend pend0 : List (Option Pending)) (pools : List (List Nat)) (hist : List Hist)
    (gs : List (Guarantee σ)) : Prop where
  up : Increasing (gs.map fun g => g.report.core)
  packages : (gs.map fun g => g.report.pkg).Nodup
  each : ∀ g ∈ gs, GuaranteeOk P E now pend pend0 pools hist (gs.map Guarantee.report) g

/-- Shape of a state: one entry per core, reports on their own core, bounded pools and history. -/
structure Shape (P : Par) (s : St) : Prop where
  pending : s.pending.length = P.C
  cores : ∀ c p, At s.pending c p → p.report.core = c
  hist : s.hist.length ≤ P.histLen
  pools : s.pools.length = P.C
  pool : ∀ pool ∈ s.pools, pool.length ≤ P.poolLen

/-- Slots of a chain increase from a given one. -/
def SlotsUp (slot : Nat) (bs : List (Env σ × Block σ)) : Prop := (slot :: bs.map fun b => b.2.slot).Pairwise (· < ·)

/-- The last slot of a chain. -/
def lastSlot (slot : Nat) (bs : List (Env σ × Block σ)) : Nat := (bs.map fun b => b.2.slot).getLast?.getD slot

/-- The guarantees of core `core` using authorizer `a` in a chain. -/
def uses (bs : List (Env σ × Block σ)) (core a : Nat) : Nat :=
  ((bs.flatMap fun b => b.2.guarantees).filter fun g => g.report.core = core ∧ g.report.auth = a).length

/-- The authorizers queued for core `core` over a chain, one per block. -/
def queuedFor (P : Par) (bs : List (Env σ × Block σ)) (core : Nat) : List Nat :=
  bs.filterMap fun b => (b.1.queues[core]?).bind fun q => q[b.2.slot % P.queueLen]?

end Fastroll.Reports.Spec
