import Verif.Judge.Model
/-!
# Model of work reports on chain

Transcribes the part of a block that handles reports:
* `/repo/extrinsics/src/validation/assurances.rs` lines 43-122,
* `/repo/block/src/types/extrinsics/assurances.rs` lines 37-56,
* `/repo/extrinsics/src/validation/guarantees.rs` lines 89-609,
* `/repo/transition/src/state/reports.rs` lines 32-176 and `/repo/state/src/types/reports.rs` lines 50-106,
* `/repo/transition/src/state/history.rs` lines 22-43, 94-121 and `/repo/state/src/types/history.rs` lines 50-88,
* `/repo/transition/src/state/authorizer.rs` lines 16-61,
in the order of `/repo/node/src/roles/executor.rs` lines 75-314.

Simplifications.
* Hashes and keys are numbers. The hash of an encoded report is a function `hash`; signature verification
  is a function. The default key (all zero) is 0.
* What accumulation produces or needs (its queue and history, the service accounts, the authorizer queues
  after it, the root of the beefy belt) and the guarantor assignments are inputs of each block.
* An index out of bounds is the error `panic`.
* `FixedVec`s of one entry per core are lists; that their length stays `C` is proved.
-/
namespace Fastroll.Reports
open Fastroll.Judge (sortedBy noDup)

structure Digest where
  service : Nat
  code : Nat
  gas : Nat
  bytes : Nat
deriving DecidableEq

/-- `WorkReport`, with the fields validation reads. -/
structure Report where
  pkg : Nat
  seg : Nat
  core : Nat
  auth : Nat
  anchor : Nat
  anchorRoot : Nat
  anchorMmr : Nat
  lookupHash : Nat
  lookupSlot : Nat
  prereqs : List Nat
  lookup : List (Nat × Nat)
  trace : Nat
  digests : List Digest
deriving DecidableEq

structure Pending where
  report : Report
  slot : Nat
deriving DecidableEq

structure Assurance (σ : Type) where
  parent : Nat
  bits : List Bool
  voter : Nat
  sig : σ

structure Cred (σ : Type) where
  voter : Nat
  sig : σ

structure Guarantee (σ : Type) where
  report : Report
  slot : Nat
  creds : List (Cred σ)

/-- `BlockHistoryEntry`. -/
structure Hist where
  header : Nat
  mmr : Nat
  root : Nat
  packages : List (Nat × Nat)
deriving DecidableEq

/-- Protocol constants. -/
structure Par where
  V : Nat
  C : Nat
  timeout : Nat
  rotation : Nat
  maxAge : Nat
  maxDeps : Nat
  maxBytes : Nat
  maxGas : Nat
  histLen : Nat
  poolLen : Nat
  queueLen : Nat

/-- `GuarantorAssignment`: keys (punished ones zeroed) and cores by validator index. -/
structure Assignment where
  keys : List Nat
  cores : List Nat

/-- What a block reads besides the state modelled here. -/
structure Env (σ : Type) where
  hash : Report → Nat
  judge : Judge.Env σ
  verAvail : Nat → Nat → List Bool → σ → Bool
  current : Assignment
  previous : Assignment
  service : Nat → Option (Nat × Nat)
  accumulated : List Nat
  queued : List Nat
  ancestors : Option (Nat → Nat → Bool)
  queues : List (List Nat)
  mmr : Nat

structure Block (σ : Type) where
  header : Nat
  parent : Nat
  parentRoot : Nat
  slot : Nat
  disputes : Judge.Xt σ
  assurances : List (Assurance σ)
  guarantees : List (Guarantee σ)

structure St where
  pending : List (Option Pending)
  hist : List Hist
  pools : List (List Nat)
  judged : Judge.Disputes
deriving DecidableEq

inductive Err
  | panic | disputes
  | assuranceOrder | dupAssurer | parent | assurer | assuranceSig | notPending | missing
  | guaranteeOrder | dupCore | dupPackage | size | gas | noService | minGas | badCore | occupied | auth | noAnchor | anchorRoot | anchorMmr
  | lookupAge | lookupHash | inHistory | inPipeline | deps | segMissing | segWrong | prereq | code
  | credCount | credOrder | dupCred | guarantor | banned | credSig | future | old | assigned
deriving DecidableEq, Repr

variable {σ : Type}

/-! ## Assurances -/

/-- The bits of one assurance against the pending reports, assurances.rs lines 110-119. -/
def checkBits : List Bool → List (Option Pending) → Except Err Unit
  | [], _ => .ok ()
  | false :: bs, [] => checkBits bs []
  | true :: _, [] => .error .panic
  | b :: bs, p :: ps => if b && p.isNone then .error .notPending else checkBits bs ps

/-- `validate_entry`, lines 76-122. -/
def checkAssurance (E : Env σ) (parent : Nat) (pend : List (Option Pending)) (a : Assurance σ) : Except Err Unit :=
  if a.parent ≠ parent then .error .parent
  else
    match E.judge.active[a.voter]? with
    | none => .error .assurer
    | some key => if !E.verAvail key parent a.bits a.sig then .error .assuranceSig else checkBits a.bits pend

def checkAssurances (E : Env σ) (parent : Nat) (pend : List (Option Pending)) : List (Assurance σ) → Except Err Unit
  | [] => .ok ()
  | a :: as =>
    match checkAssurance E parent pend a with
    | .error e => .error e
    | .ok () => checkAssurances E parent pend as

/-- `validate`, lines 43-72. -/
def validateAssurances (E : Env σ) (parent : Nat) (pend : List (Option Pending)) (xt : List (Assurance σ)) : Except Err Unit :=
  if xt.isEmpty then .ok ()
  else if !sortedBy Assurance.voter xt then .error .assuranceOrder
  else if !noDup (xt.map Assurance.voter) [] then .error .dupAssurer
  else checkAssurances E parent pend xt

/-- One assurance added to the counters; `none` is the panic of indexing past the end. -/
def addBits : List Nat → List Bool → Option (List Nat)
  | ns, [] => some ns
  | [], _ :: _ => none
  | n :: ns, b :: bs => (addBits ns bs).map fun ns => (n + b.toNat) :: ns

/-- `cores_assurances_counts`, block assurances.rs lines 47-56. -/
def counts : List (Assurance σ) → List Nat → Option (List Nat)
  | [], ns => some ns
  | a :: as, ns => (addBits ns a.bits).bind (counts as)

/-- Indices at which a counter reaches the quorum, lines 37-44. -/
def reached (q : Nat) : List Nat → Nat → List Nat
  | [], _ => []
  | n :: ns, i => if n ≥ q then i :: reached q ns (i + 1) else reached q ns (i + 1)

def availableCores (P : Par) (xt : List (Assurance σ)) : Option (List Nat) := (counts xt (List.replicate P.C 0)).map fun ns => reached (Judge.super P.V) ns 0

/-! ## Pending reports -/

/-- `remove_by_hash`, reports.rs lines 80-93: the first report with the hash is removed. -/
def removeHash (hash : Report → Nat) (h : Nat) : List (Option Pending) → List (Option Pending)
  | [] => []
  | none :: ps => none :: removeHash hash h ps
  | some p :: ps => if hash p.report = h then none :: ps else some p :: removeHash hash h ps

/-- `transition_reports_eliminate_invalid`, lines 32-64. -/
def eliminate (E : Env σ) (d : Judge.Disputes) (pend : List (Option Pending)) (xt : Judge.Xt σ) : Except Err (List (Option Pending)) :=
  match Judge.validate E.judge d xt with
  | .error _ => .error .disputes
  | .ok () =>
    .ok ((Judge.split E.judge.V .bad xt.verdicts ++ Judge.split E.judge.V .wonky xt.verdicts).foldl (fun ps h => removeHash E.hash h ps) pend)

/-- The reports at the available cores, lines 94-101. -/
def collect (pend : List (Option Pending)) : List Nat → Except Err (List Report)
  | [] => .ok []
  | c :: cs =>
    match pend[c]? with
    | some (some p) =>
      match collect pend cs with
      | .error e => .error e
      | .ok rs => .ok (p.report :: rs)
    | _ => .error .missing

/-- `get_timed_out_core_indices`, lines 61-76. -/
def timedOut (P : Par) (slot : Nat) : List (Option Pending) → Nat → List Nat
  | [], _ => []
  | none :: ps, i => timedOut P slot ps (i + 1)
  | some p :: ps, i => if slot ≥ p.slot + P.timeout then i :: timedOut P slot ps (i + 1) else timedOut P slot ps (i + 1)

/-- `remove_by_core_index` for each of the cores. -/
def clear (pend : List (Option Pending)) (cs : List Nat) : List (Option Pending) := cs.foldl (fun ps c => ps.set c none) pend

/-- `transition_reports_clear_availables`, lines 75-125. -/
def clearAvailable (P : Par) (E : Env σ) (b : Block σ) (pend : List (Option Pending)) : Except Err (List (Option Pending) × List Report) :=
  match validateAssurances E b.parent pend b.assurances with
  | .error e => .error e
  | .ok () =>
    match availableCores P b.assurances with
    | none => .error .panic
    | some cs =>
      match collect pend cs with
      | .error e => .error e
      | .ok rs => .ok (clear pend (cs ++ timedOut P b.slot pend 0), rs)

/-! ## Guarantees -/

/-- Lines 222-239: each digest's service exists and is given its minimum gas. -/
def checkGas (service : Nat → Option (Nat × Nat)) : List Digest → Except Err Unit
  | [] => .ok ()
  | d :: ds =>
    match service d.service with
    | none => .error .noService
    | some (_, minGas) => if d.gas < minGas then .error .minGas else checkGas service ds

/-- `validate_work_digests`, lines 478-499. -/
def checkCode (service : Nat → Option (Nat × Nat)) : List Digest → Except Err Unit
  | [] => .ok ()
  | d :: ds =>
    match service d.service with
    | none => .error .noService
    | some (code, _) => if code ≠ d.code then .error .code else checkCode service ds

/-- `total_accumulation_gas_allotted`: the sum, or the maximum when it overflows. -/
def totalGas (ds : List Digest) : Nat := if (ds.map Digest.gas).sum < 2 ^ 64 then (ds.map Digest.gas).sum else 2 ^ 64 - 1

/-- `total_output_size`. -/
def totalBytes (r : Report) : Nat := r.trace + (r.digests.map Digest.bytes).sum

/-- `validate_anchor_block`, lines 385-424. -/
def checkAnchor (hist : List Hist) (r : Report) : Except Err Unit :=
  match hist.find? fun e => e.header == r.anchor with
  | none => .error .noAnchor
  | some e =>
    if e.root ≠ r.anchorRoot then .error .anchorRoot
    else if e.mmr ≠ r.anchorMmr then .error .anchorMmr
    else .ok ()

/-- `validate_lookup_anchor_block`, lines 426-476. -/
def checkLookupAnchor (P : Par) (E : Env σ) (slot : Nat) (r : Report) : Except Err Unit :=
  if r.lookupSlot < slot - P.maxAge then .error .lookupAge
  else
    match E.ancestors with
    | none => .ok ()
    | some anc => if anc r.lookupSlot r.lookupHash then .ok () else .error .lookupHash

/-- `check_work_package_hash_exists`. -/
def inHist (hist : List Hist) (pkg : Nat) : Bool := hist.any fun e => (e.packages.map Prod.fst).contains pkg

/-- Packages of pending reports. -/
def pendingPkgs (pend : List (Option Pending)) : List Nat := (pend.filterMap id).map fun p => p.report.pkg

/-- Lines 296-306. -/
def checkLookup (manifests : List (Nat × Nat)) : List (Nat × Nat) → Except Err Unit
  | [] => .ok ()
  | e :: es =>
    match manifests.find? fun m => m.1 == e.1 with
    | none => .error .segMissing
    | some m => if m.2 ≠ e.2 then .error .segWrong else checkLookup manifests es

/-- Lines 310-319. -/
def checkPrereqs (pkgs : List Nat) (hist : List Hist) : List Nat → Except Err Unit
  | [] => .ok ()
  | h :: hs => if !pkgs.contains h && !inHist hist h then .error .prereq else checkPrereqs pkgs hist hs

/-- Everything the validation of one report of a block reads: the pending reports now (ρ‡) and before the
block (ρ), the pools before the block, the history with the parent's root (β†), the reports of the block. -/
structure Ctx (σ : Type) where
  P : Par
  E : Env σ
  slot : Nat
  pend : List (Option Pending)
  pend0 : List (Option Pending)
  pools : List (List Nat)
  hist : List Hist
  reports : List Report

/-- `validate_work_report`, lines 198-324, up to the dependencies. -/
def checkReport (X : Ctx σ) (r : Report) : Except Err Unit :=
  if totalBytes r > X.P.maxBytes then .error .size
  else if totalGas r.digests > X.P.maxGas then .error .gas
  else
    match checkGas X.E.service r.digests with
    | .error e => .error e
    | .ok () =>
      match X.pend[r.core]?, X.pools[r.core]? with
      | some p, some pool =>
        if p.isSome then .error .occupied
        else if !pool.contains r.auth then .error .auth
        else
          match checkAnchor X.hist r with
          | .error e => .error e
          | .ok () =>
            match checkLookupAnchor X.P X.E X.slot r with
            | .error e => .error e
            | .ok () =>
              if inHist X.hist r.pkg then .error .inHistory
              else if (X.E.accumulated ++ X.E.queued ++ pendingPkgs X.pend0).contains r.pkg then .error .inPipeline
              else if r.prereqs.length + r.lookup.length > X.P.maxDeps then .error .deps
              else
                match checkLookup (X.hist.flatMap Hist.packages ++ X.reports.map fun r => (r.pkg, r.seg)) r.lookup with
                | .error e => .error e
                | .ok () =>
                  match checkPrereqs (X.reports.map Report.pkg) X.hist r.prereqs with
                  | .error e => .error e
                  | .ok () => checkCode X.E.service r.digests
      | _, _ => .error .badCore

/-- `get_guarantor_assignment`, lines 596-608. -/
def assignment (X : Ctx σ) (slot : Nat) : Assignment := if X.slot / X.P.rotation = slot / X.P.rotation then X.E.current else X.E.previous

/-- `validate_credential`, lines 540-594; gives the guarantor's key. -/
def checkCred (X : Ctx σ) (r : Report) (slot : Nat) (c : Cred σ) : Except Err Nat :=
  match (assignment X slot).keys[c.voter]? with
  | none => .error .guarantor
  | some key =>
    if key = 0 then .error .banned
    else if !X.E.judge.ver key (.guarantee (X.E.hash r)) c.sig then .error .credSig
    else if slot > X.slot then .error .future
    else if slot < X.P.rotation * (X.slot / X.P.rotation - 1) then .error .old
    else
      match (assignment X slot).cores[c.voter]? with
      | none => .error .panic
      | some core => if core ≠ r.core then .error .assigned else .ok key

def checkCreds (X : Ctx σ) (r : Report) (slot : Nat) : List (Cred σ) → Except Err (List Nat)
  | [] => .ok []
  | c :: cs =>
    match checkCred X r slot c with
    | .error e => .error e
    | .ok key =>
      match checkCreds X r slot cs with
      | .error e => .error e
      | .ok keys => .ok (key :: keys)

/-- `validate_credentials`, lines 501-538. -/
def validateCreds (X : Ctx σ) (g : Guarantee σ) : Except Err (List Nat) :=
  if ¬ (g.creds.length = 2 ∨ g.creds.length = 3) then .error .credCount
  else if !sortedBy Cred.voter g.creds then .error .credOrder
  else if !noDup (g.creds.map Cred.voter) [] then .error .dupCred
  else checkCreds X g.report g.slot g.creds

def checkGuarantees (X : Ctx σ) : List (Guarantee σ) → Except Err (List Nat)
  | [] => .ok []
  | g :: gs =>
    match checkReport X g.report with
    | .error e => .error e
    | .ok () =>
      match validateCreds X g with
      | .error e => .error e
      | .ok keys =>
        match checkGuarantees X gs with
        | .error e => .error e
        | .ok keys' => .ok (keys ++ keys')

/-- `validate`, lines 89-160; gives the guarantors' keys. -/
def validateGuarantees (X : Ctx σ) (xt : List (Guarantee σ)) : Except Err (List Nat) :=
  if xt.isEmpty then .ok []
  else if !sortedBy (fun g => g.report.core) xt then .error .guaranteeOrder
  else if !noDup (xt.map fun g => g.report.core) [] then .error .dupCore
  else if !noDup (xt.map fun g => g.report.pkg) [] then .error .dupPackage
  else checkGuarantees X xt

/-- `transition_reports_update_entries`, reports.rs lines 151-165. -/
def place (slot : Nat) (pend : List (Option Pending)) (xt : List (Guarantee σ)) : List (Option Pending) :=
  xt.foldl (fun ps g => ps.set g.report.core (some ⟨g.report, slot⟩)) pend

/-! ## Authorizer pools -/

/-- `LimitedVec::shift_push`: the oldest entry goes when the vector is full. -/
def shiftPush {α : Type} (cap : Nat) (l : List α) (x : α) : List α := (if l.length ≥ cap then l.drop 1 else l) ++ [x]

/-- One core's pool, authorizer.rs lines 26-55. -/
def nextPool (P : Par) (queues : List (List Nat)) (slot : Nat) (xt : List (Guarantee σ)) (core : Nat) (pool : List Nat) : List Nat :=
  let pool :=
    match xt.find? fun g => g.report.core == core with
    | none => pool
    | some g => pool.erase g.report.auth
  match (queues[core]?).bind fun q => q[slot % P.queueLen]? with
  | none => pool
  | some h => shiftPush P.poolLen pool h

/-- `transition_auth_pool`. -/
def nextPools (P : Par) (queues : List (List Nat)) (slot : Nat) (xt : List (Guarantee σ)) : List (List Nat) → Nat → List (List Nat)
  | [], _ => []
  | pool :: pools, i => nextPool P queues slot xt i pool :: nextPools P queues slot xt pools (i + 1)

/-! ## Block history -/

/-- `transition_block_history_parent_root`. -/
def setRoot (root : Nat) : List Hist → List Hist
  | [] => []
  | [e] => [{ e with root }]
  | e :: f :: l => e :: setRoot root (f :: l)

/-- Ordering of `ReportedWorkPackage`s. -/
def pairLe (a b : Nat × Nat) : Bool := decide (a.1 < b.1 ∨ (a.1 = b.1 ∧ a.2 ≤ b.2))

def insertPair (x : Nat × Nat) : List (Nat × Nat) → List (Nat × Nat)
  | [] => [x]
  | y :: l => if pairLe x y then x :: y :: l else y :: insertPair x l

/-- `sort_unstable`. -/
def sortPairs (l : List (Nat × Nat)) : List (Nat × Nat) := l.foldr insertPair []

/-- `transition_block_history_append`; the root is the default one until the next block. -/
def append (P : Par) (hist : List Hist) (header mmr : Nat) (packages : List (Nat × Nat)) : List Hist :=
  shiftPush P.histLen hist { header, mmr, root := 0, packages := sortPairs packages }

/-! ## A block -/

/-- The reports part of a block: disputes, history root, ρ†, ρ‡, ρ′, pools, history. Gives the new state, the
reports made available and the keys of the guarantors. -/
def step (P : Par) (E : Env σ) (s : St) (b : Block σ) : Except Err (St × List Report × List Nat) :=
  match Judge.transition E.judge s.judged b.disputes with
  | .error _ => .error .disputes
  | .ok judged =>
    let hist := setRoot b.parentRoot s.hist
    match eliminate E s.judged s.pending b.disputes with
    | .error e => .error e
    | .ok pend1 =>
      match clearAvailable P E b pend1 with
      | .error e => .error e
      | .ok (pend2, available) =>
        match validateGuarantees { P, E, slot := b.slot, pend := pend2, pend0 := s.pending, pools := s.pools, hist, reports := b.guarantees.map Guarantee.report } b.guarantees with
        | .error e => .error e
        | .ok keys =>
          .ok ({ pending := place b.slot pend2 b.guarantees, pools := nextPools P E.queues b.slot b.guarantees s.pools 0,
                 hist := append P hist b.header E.mmr (b.guarantees.map fun g => (g.report.pkg, g.report.seg)), judged }, available, keys)

/-- A chain of blocks, each with what it reads. -/
def run (P : Par) : List (Env σ × Block σ) → St → Except Err St
  | [], s => .ok s
  | eb :: bs, s =>
    match step P eb.1 s eb.2 with
    | .error e => .error e
    | .ok (s, _) => run P bs s

end Fastroll.Reports
