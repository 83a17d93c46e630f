import Verif.Stf.Gone
import Verif.Safrole.Props
/-!
# The state transition of whole blocks (C69)

For every state and chain of blocks, all constants, signature schemes, hash functions and whatever executing services
does to the accounts.
-/
namespace Fastroll.Stf
open Fastroll.Safrole (VKey)
open Fastroll.Merkle (Bytes)

/-! ## A chain to instantiate the theorems -/
namespace Ex

/-- Six validators, two cores, epochs of six slots, rotations of three. -/
def W : World Nat Nat (List Nat) Nat Unit where
  S := { epoch := 6, contest := 5, perXt := 2, perVal := 2, validators := 6 }
  P := { V := 6, C := 2, timeout := 5, rotation := 3, maxAge := 14, maxDeps := 8, maxBytes := 100, maxGas := 50, histLen := 2, poolLen := 2, queueLen := 2 }
  H := Safrole.exHeap
  C := { mix := fun a b => 10 * a + b, word := fun e i => e + i, ringRoot := fun v => v.map VKey.bander, zero := ⟨0, 0⟩ }
  hash := fun r => r.pkg + 1000
  ver := fun key _ s => s == key
  verAvail := fun key _ _ s => s == key
  blake := fun _ => List.replicate 32 7
  keccak := fun b => [UInt8.ofNat b.length, b.foldl (· + ·) 0]
  octets := fun _ => List.replicate 32 0
  num := fun b => b.foldl (fun n x => 256 * n + x.toNat) 0
  service := fun _ n => if n = 4 then some (44, 5) else none
  full := fun r => { core := r.core, bundleLen := 0, segCount := 0, digests := [] }
  sizes := fun _ => []
  accumulate := fun i =>
    some ⟨i.world + i.reports.length, i.queues, none, i.reports.length, if i.reports.isEmpty then [] else [(4, [9])], if i.reports.isEmpty then [] else [(4, 1, 1)]⟩
  touch := fun w _ _ => w
  preimages := fun _ w _ _ => some w

/-- The same six validators in every set, with keys 10 to 15. -/
def set : List (VKey Nat) := (List.range 6).map fun i => ⟨20 + i, 10 + i⟩

def s0 : State Nat (List Nat) Nat where
  slot := 0
  e0 := 1
  e1 := 2
  e2 := 3
  e3 := 4
  saf := { pending := set, root := [], sealers := .keys [20, 21, 22, 23, 24, 25], acc := [] }
  staging := set
  active := set
  past := set
  judged := ⟨[], [], [], []⟩
  pending := [none, none]
  hist := []
  belt := []
  pools := [[30, 31], [30, 31]]
  queues := [[30, 30], [30, 30]]
  ready := List.replicate 6 []
  done := List.replicate 6 []
  outputs := []
  stats := { curr := List.replicate 6 {}, prev := List.replicate 6 {}, cores := List.replicate 2 {}, services := [] }
  world := 0

def empty (header parent slot : Nat) : Blk Nat Nat Unit where
  header := header
  parent := parent
  parentRoot := 8
  slot := slot
  author := 1
  vrf := slot
  tickets := []
  disputes := ⟨[], [], []⟩
  assurances := []
  guarantees := []
  preimages := ()

def r1 : Reports.Report := { pkg := 1, seg := 51, core := 0, auth := 30, anchor := 101, anchorRoot := 8, anchorMmr := W.num (Merkle.superPeak W.keccak (Merkle.mmrAppend W.keccak [] (outputRoot W []))), lookupHash := 0, lookupSlot := 0, prereqs := [], lookup := [], trace := 2, digests := [⟨4, 44, 6, 10⟩] }
/-- The second report needs the first. -/
def r2 : Reports.Report := { r1 with pkg := 2, seg := 52, core := 1, prereqs := [1], lookup := [(1, 51)] }

def b1 := empty 101 100 1
/-- Both reports are guaranteed. -/
def b2 := { empty 102 101 2 with guarantees := [⟨r1, 1, [⟨0, 10⟩, ⟨4, 14⟩]⟩, ⟨r2, 1, [⟨1, 11⟩, ⟨2, 12⟩, ⟨3, 13⟩]⟩], tickets := [⟨some 5, 0, true⟩] }
def assure (parent : Nat) (bits : List Bool) : List (Reports.Assurance Nat) := (List.range 5).map fun i => ⟨parent, bits, i, 10 + i⟩
/-- The second report is available and waits for the first. -/
def b3 := { empty 103 102 3 with assurances := assure 102 [false, true] }
/-- The first is available: both are accumulated. -/
def b4 := { empty 104 103 4 with assurances := assure 103 [true, false] }
/-- Validator 5 has called the first report invalid. -/
def b5 := { empty 105 104 5 with disputes := { verdicts := [⟨1001, 0, (List.range 5).map fun i => ⟨true, i, 10 + i⟩⟩], culprits := [], faults := [⟨1001, false, 15, 15⟩] } }
/-- The three epochs after it. -/
def b6 := empty 106 105 6
def b7 := empty 107 106 13
def b8 := empty 108 107 18

def bs : Spec.Blocks Nat Nat Unit := [b1, b2, b3, b4, b5, b6, b7, b8].map fun b => (none, b)

def final : State Nat (List Nat) Nat × List (List Acc.Report) := match run W bs s0 with | .ok x => x | .error _ => (s0, [])
theorem isOk : (match run W bs s0 with | .ok _ => true | .error _ => false) = true := by decide +kernel
theorem ran : run W bs s0 = .ok final := by
  have h := isOk
  unfold final
  split
  · assumption
  · rename_i e; rw [e] at h; cases h
theorem accs : final.2.map (fun l => l.map Acc.Report.pkg) = [[], [], [], [1, 2], [], [], [], []] := by decide +kernel
theorem genesis : Spec.Genesis W s0 where
  slot := rfl
  pending := by decide
  hist := rfl
  ready := rfl
  done := rfl
theorem positive : ∀ b ∈ bs, 0 < b.2.slot := by decide
theorem headers : (bs.map fun b => b.2.header).Nodup := by decide
theorem fixed : Spec.AnchorFixed bs := by unfold Spec.AnchorFixed; decide
theorem sound : Spec.Sound W where
  epoch := by decide
  validators := by decide
  same := rfl
  hist := by decide
  pool := by decide
  staged := fun i o v h h2 => by
    injection h with h
    rw [← h] at h2
    cases h2
  count := fun i o h => by
    injection h with h
    rw [← h]
    exact Nat.le_refl _
  cores := ⟨by decide, 3, by decide, rfl⟩
  full := fun _ => rfl
theorem shape : Spec.Shape W s0 where
  validators := by decide
  tickets := by decide
  sealers := by decide
  cores := by decide
  own := fun c p h => by
    have : ∀ o ∈ s0.pending, o = none := by decide
    have := this _ (List.mem_of_getElem? h); cases this
  hist := by decide
  pools := by decide
  rings := by decide
  stats := by decide


/-- As before, but the first report times out. -/
def late : Spec.Blocks Nat Nat Unit := [b1, b2, b3, { empty 104 103 8 with parentRoot := 9 }, empty 105 104 9].map fun b => (none, b)
def lateAt (n : Nat) : State Nat (List Nat) Nat := match run W (late.take n) s0 with | .ok x => x.1 | .error _ => s0
def lateAccs (n : Nat) : List (List Acc.Report) := match run W (late.take n) s0 with | .ok x => x.2 | .error _ => []
theorem lateOk : ∀ n ≤ 5, (match run W (late.take n) s0 with | .ok _ => true | .error _ => false) = true := by decide +kernel
theorem lateRan (n : Nat) (h : n ≤ 5) : run W (late.take n) s0 = .ok (lateAt n, lateAccs n) := by
  have h := lateOk n h
  unfold lateAt lateAccs
  split
  · assumption
  · rename_i e; rw [e] at h; cases h

def at' (n : Nat) : State Nat (List Nat) Nat := match run W (bs.take n) s0 with | .ok x => x.1 | .error _ => s0
def accsAt (n : Nat) : List (List Acc.Report) := match run W (bs.take n) s0 with | .ok x => x.2 | .error _ => []
theorem atOk : ∀ n ≤ 8, (match run W (bs.take n) s0 with | .ok _ => true | .error _ => false) = true := by decide +kernel
theorem reached (n : Nat) (h : n ≤ 8) : run W (bs.take n) s0 = .ok (at' n, accsAt n) := by
  have h := atOk n h
  unfold at' accsAt
  split
  · assumption
  · rename_i e; rw [e] at h; cases h
def tail : State Nat (List Nat) Nat × List (List Acc.Report) := match run W (bs.drop 5) (at' 5) with | .ok x => x | .error _ => (s0, [])
theorem tailOk : (match run W (bs.drop 5) (at' 5) with | .ok _ => true | .error _ => false) = true := by decide +kernel
theorem tailRan : run W (bs.drop 5) (at' 5) = .ok tail := by
  have h := tailOk
  unfold tail
  split
  · assumption
  · rename_i e; rw [e] at h; cases h
def second : State Nat (List Nat) Nat × List Acc.Report := match block W none (at' 1) b2 with | .ok x => x | .error _ => (s0, [])
theorem secondRan : block W none (at' 1) b2 = .ok second := by
  have h : (match block W none (at' 1) b2 with | .ok _ => true | .error _ => false) = true := by decide +kernel
  unfold second
  split
  · assumption
  · rename_i e; rw [e] at h; cases h

end Ex

variable {σ η ρ ω π : Type} {W : World σ η ρ ω π}

/-! ## From guarantee to accumulation -/

/-- **C69**: whatever a block accumulates was guaranteed in an earlier block by two or three different validators
assigned to its core, none of them an offender, and then assured in a later one by more than two thirds of the active
validators; the accumulated work is that report's. -/
theorem C69_provenance {s0 s' : State η ρ ω} {bs : Spec.Blocks σ η π} {accs : List (List Acc.Report)} (h : run W bs s0 = .ok (s', accs)) (hg : Spec.Genesis W s0)
    (hE : 0 < W.S.epoch) (hm : W.P.maxGas < 2 ^ 64 - 1) (hz : W.C.zero.ed = 0) (h0 : ∀ b ∈ bs, 0 < b.2.slot) {k : Nat} {acc : List Acc.Report} (hk : accs[k]? = some acc)
    {r : Acc.Report} (hr : r ∈ acc) :
    ∃ (i j : Nat) (bi bj : Option (Nat → Nat → Bool) × Blk σ η π) (ti tj : State η ρ ω) (g : Reports.Guarantee σ), i < j ∧ j ≤ k ∧ bs[i]? = some bi ∧ bs[j]? = some bj ∧
      g ∈ bi.2.guarantees ∧ Spec.Same r g.report ∧ Spec.Reached W s0 bs (i + 1) ti ∧ Spec.Attested W ti g ∧ Spec.Reached W s0 bs j tj ∧ Spec.Assured W tj bj.2 g.report.core := by
  obtain ⟨l, hl, e1, e2⟩ := run_stages.1 h
  rw [← e2, List.getElem?_map] at hk
  cases hgk : l[k]? with
  | none => rw [hgk] at hk; cases hk
  | some gk =>
    rw [hgk] at hk
    injection hk with hk
    rw [← hk] at hr
    obtain ⟨i, j, gi, gj, gu, hij, hjk, hi, hj, hgu, e, hq⟩ := traced hE hl hg (stages_pos e1 h0) hgk hr
    obtain ⟨a1, _, a3⟩ := reached_before hl e1 hi
    obtain ⟨c1, c2, _⟩ := reached_before hl e1 hj
    exact ⟨i, j, _, _, _, _, gu, hij, hjk, a1, c1, hgu, by rw [e]; exact same_sched _, a3, attested (linked_at hl hi).2.1 hm hz hgu, c2, assured (linked_at hl hj).2.1 hq⟩

example : ∃ (acc : List Acc.Report) (r : Acc.Report), Ex.final.2[3]? = some acc ∧ r ∈ acc ∧ r.pkg = 2 ∧ ∃ (i : Nat) (bi : Option (Nat → Nat → Bool) × Blk Nat Nat Unit)
    (g : Reports.Guarantee Nat), i < 3 ∧ Ex.bs[i]? = some bi ∧ g ∈ bi.2.guarantees ∧ g.report.pkg = 2 := by
  have h : ∃ acc, Ex.final.2[3]? = some acc ∧ acc.map Acc.Report.pkg = [1, 2] := by
    have e := congrArg (fun l : List (List Nat) => l[3]?) Ex.accs
    rw [List.getElem?_map] at e
    cases hk : Ex.final.2[3]? with
    | none => rw [hk] at e; cases e
    | some acc => rw [hk] at e; injection e with e; exact ⟨acc, rfl, e⟩
  obtain ⟨acc, hk, e⟩ := h
  have : 2 ∈ acc.map Acc.Report.pkg := by rw [e]; decide
  obtain ⟨r, hr, er⟩ := List.mem_map.1 this
  obtain ⟨i, j, bi, _, _, _, g, h1, h2, h3, _, h5, h6, _⟩ := C69_provenance Ex.ran Ex.genesis (by decide) (by decide) rfl Ex.positive hk hr
  exact ⟨acc, r, hk, hr, er, i, bi, g, by omega, h3, h5, by rw [← h6.pkg]; exact er⟩

/-- **C69**: over the whole chain, work is accumulated after everything it depends on. -/
theorem C69_dependencies_first {s0 s' : State η ρ ω} {bs : Spec.Blocks σ η π} {accs : List (List Acc.Report)} (h : run W bs s0 = .ok (s', accs)) (hg : Spec.Genesis W s0)
    (hE : 0 < W.S.epoch) (h0 : ∀ b ∈ bs, 0 < b.2.slot) : Acc.Ordered [] accs.flatten := by
  obtain ⟨l, hl, e1, e2⟩ := run_stages.1 h
  rw [← e2]
  exact (linked_good hE hl hg (stages_pos e1 h0)).ordered

example : Acc.Ordered [] Ex.final.2.flatten ∧ Ex.final.2.flatten.map Acc.Report.deps = [[], [1, 1]] :=
  ⟨C69_dependencies_first Ex.ran Ex.genesis (by decide) Ex.positive, by decide +kernel⟩

/-- **C69**: in a chain without repeated headers no package is pending on two cores, waiting twice, accumulated twice
or in two of these places: pending, waiting and accumulated packages are all different. -/
theorem C69_once {s0 s' : State η ρ ω} {bs : Spec.Blocks σ η π} {accs : List (List Acc.Report)} (h : run W bs s0 = .ok (s', accs)) (hg : Spec.Genesis W s0)
    (hE : 0 < W.S.epoch) (hh : W.P.histLen ≠ 0) (h0 : ∀ b ∈ bs, 0 < b.2.slot) (hd : (bs.map fun b => b.2.header).Nodup) (ha : Spec.AnchorFixed bs) :
    (Spec.pendingPkgs s' ++ Spec.waitingPkgs s' ++ accs.flatten.map Acc.Report.pkg).Nodup := by
  obtain ⟨l, hl, e1, e2⟩ := run_stages.1 h
  have hap := apart_run hh hg.hist (genesis_pending hg) _ l s' rfl hl (headers_stages e1 hd) (fixed_stages e1 ha)
  have hgood := linked_good hE hl hg (stages_pos e1 h0)
  rw [e2] at hgood
  have hO : (((l.map accOf).flatMap (·.available)).map (·.pkg)).Nodup := by rw [avail_sched]; exact hap.nodup
  have hc := nodup_of_count (L := s'.ready.flatten.map (·.1) ++ accs.flatten) hO (fun r => by
    have := hgood.count r
    rw [List.count_append]
    unfold Acc.cnt Acc.cntE at this
    rw [Nat.add_comm]
    exact this)
  rw [List.map_append, avail_sched] at hc
  have ew : (s'.ready.flatten.map (·.1)).map (·.pkg) = Spec.waitingPkgs s' := by rw [List.map_map]; rfl
  rw [ew] at hc
  rw [List.append_assoc, List.nodup_append]
  refine ⟨pendingPkgs_nodup hap.inj, hc.1, ?_⟩
  intro a hpa b hb e
  obtain ⟨c, p, hp, ep⟩ := mem_pendingPkgs.1 hpa
  exact hap.away c p hp (by rw [ep, e]; exact hc.2 b hb)

example : (Spec.pendingPkgs Ex.final.1 ++ Spec.waitingPkgs Ex.final.1 ++ Ex.final.2.flatten.map Acc.Report.pkg).Nodup ∧ Ex.final.2.flatten.map Acc.Report.pkg = [1, 2] :=
  ⟨C69_once Ex.ran Ex.genesis (by decide) (by decide) Ex.positive Ex.headers Ex.fixed, by decide +kernel⟩

/-- **C69**: a report that leaves its core in a block in which it is not assured (it was condemned or too old) is
never accumulated, neither then nor in any later block. -/
theorem C69_gone {s0 s' : State η ρ ω} {bs : Spec.Blocks σ η π} {accs : List (List Acc.Report)} (h : run W bs s0 = .ok (s', accs)) (hg : Spec.Genesis W s0)
    (hE : 0 < W.S.epoch) (hh : W.P.histLen ≠ 0) (h0 : ∀ b ∈ bs, 0 < b.2.slot) (hd : (bs.map fun b => b.2.header).Nodup) (ha : Spec.AnchorFixed bs)
    {i c : Nat} {t t' : State η ρ ω} {b : Option (Nat → Nat → Bool) × Blk σ η π} {p : Reports.Pending} (hb : bs[i]? = some b) (ht : Spec.Reached W s0 bs i t)
    (ht' : Spec.Reached W s0 bs (i + 1) t') (hp : t.pending[c]? = some (some p)) (hn : t'.pending[c]? ≠ some (some p))
    (hq : ¬ 2 * W.P.V < 3 * (Reports.Spec.assurers b.2.assurances c).length) : p.report.pkg ∉ accs.flatten.map Acc.Report.pkg := by
  obtain ⟨l, hl, e1, e2⟩ := run_stages.1 h
  have hil : i < l.length := by
    have := (List.getElem?_eq_some_iff.1 hb).1
    rw [← e1, List.length_map] at this
    exact this
  have hgi : l[i]? = some l[i] := List.getElem?_eq_getElem hil
  generalize l[i] = g at hgi
  obtain ⟨h1, hok, h2⟩ := linked_at hl hgi
  obtain ⟨r1, ⟨_, r2⟩, ⟨_, r3⟩⟩ := reached_before hl e1 hgi
  have eb : b = (g.anc, g.blk) := by rw [r1] at hb; injection hb with hb; exact hb.symm
  have et : t = g.before := by
    obtain ⟨_, q⟩ := ht
    rw [r2] at q; injection q with q; injection q with q; exact q.symm
  have et' : t' = g.after W := by
    obtain ⟨_, q⟩ := ht'
    rw [r3] at q; injection q with q; injection q with q; exact q.symm
  subst eb; subst et; subst et'
  have hH := headers_stages e1 hd
  have hF := fixed_stages e1 ha
  have el : l = l.take i ++ [g] ++ l.drop (i + 1) := by
    have e3 : l.take i ++ [g] = l.take (i + 1) := by rw [List.take_add_one, hgi]; rfl
    rw [e3, List.take_append_drop]
  have hl1 : Linked W s0 (l.take i ++ [g]) (g.after W) := linked_snoc.2 ⟨h1, hok, rfl⟩
  rw [el] at hH hF
  have hd1 : ((l.take i ++ [g]).map fun g => g.blk.header).Nodup := by
    rw [List.map_append (l₂ := l.drop (i + 1)), List.nodup_append] at hH
    exact hH.1
  have hd0 : ((l.take i).map fun g => g.blk.header).Nodup := by
    rw [List.map_append, List.nodup_append] at hd1
    exact hd1.1
  have hnew := never_again hh hg.hist hl1 hd1 (fun x hx a hxa y hy b hyb => hF x (List.mem_append_left _ hx) a hxa y (List.mem_append_left _ hy) b hyb)
  have hap := apart_run hh hg.hist (genesis_pending hg) _ (l.take i) g.before rfl h1 hd0
    (fun x hx a hxa y hy b hyb => hF x (List.mem_append_left _ (List.mem_append_left _ hx)) a hxa y (List.mem_append_left _ (List.mem_append_left _ hy)) b hyb)
  have hst := dead_start hok hap hnew hp hq hn
  have hdead := dead_run hh hg.hist _ _ _ _ hl1 h2 hH hF hst
  rw [← el] at hdead
  intro hm
  obtain ⟨r, hr, er⟩ := List.mem_map.1 hm
  have hgood := linked_good hE hl hg (stages_pos e1 h0)
  rw [e2] at hgood
  have hpres := hgood.present r hr
  refine hdead.available ?_
  rw [← avail_sched, ← er]
  exact List.mem_map.2 ⟨r, hpres, rfl⟩

example : 1 ∉ (Ex.lateAccs 5).flatten.map Acc.Report.pkg :=
  C69_gone (Ex.lateRan 5 (by decide)) Ex.genesis (by decide) (by decide) (by decide) (by decide) (by unfold Spec.AnchorFixed; decide) (i := 3) (c := 0) (p := ⟨Ex.r1, 2⟩)
    (show _ = some (none, { Ex.empty 104 103 8 with parentRoot := 9 }) from rfl) ⟨_, Ex.lateRan 3 (by decide)⟩ ⟨_, Ex.lateRan 4 (by decide)⟩ (by decide +kernel) (by decide +kernel) (by decide +kernel)

/-! ## Offenders -/

/-- **C69**: an offender stays one, has no key in the pending set once an epoch has begun since, nor in the active set
after two, nor in the past set after three, whatever sets are staged. -/
theorem C69_punished {s s' : State η ρ ω} {bs : Spec.Blocks σ η π} {accs : List (List Acc.Report)} (h : run W bs s = .ok (s', accs)) {k : Nat} (hk : k ∈ s.judged.punish)
    (hz : W.C.zero.ed ≠ k) :
    k ∈ s'.judged.punish ∧ (1 ≤ Spec.openings W.S.epoch s.slot (bs.map fun b => b.2.slot) → Spec.Without k s'.saf.pending) ∧
      (2 ≤ Spec.openings W.S.epoch s.slot (bs.map fun b => b.2.slot) → Spec.Without k s'.active) ∧
      (3 ≤ Spec.openings W.S.epoch s.slot (bs.map fun b => b.2.slot) → Spec.Without k s'.past) := by
  obtain ⟨l, hl, e1, e2⟩ := run_stages.1 h
  have := punished_run hz (n := 0) hl hk (fun h => by omega) (fun h => by omega) (fun h => by omega)
  rw [Nat.zero_add] at this
  have eb : (bs.map fun b => b.2.slot) = l.map fun g => g.blk.slot := by rw [← e1, List.map_map]; rfl
  rw [eb]
  exact this

/-- **C69**: an offender is not among those who guarantee a report, from the block of the verdict on. -/
theorem C69_no_guarantee {anc : Option (Nat → Nat → Bool)} {s s' : State η ρ ω} {b : Blk σ η π} {acc : List Acc.Report} (h : block W anc s b = .ok (s', acc))
    (hm : W.P.maxGas < 2 ^ 64 - 1) (hz : W.C.zero.ed = 0) {g : Reports.Guarantee σ} (hg : g ∈ b.guarantees) {c : Reports.Cred σ} (hc : c ∈ g.creds) {v : VKey Nat}
    (hv : (Spec.guarding W s' g.slot).1[c.voter]? = some v) : v.ed ∉ s'.judged.punish ∧ W.ver v.ed (.guarantee (W.hash g.report)) c.sig = true := by
  obtain ⟨st, hok, _, e1, e2, e3, _⟩ := accepted h
  subst e1; subst e2; subst e3
  obtain ⟨v', h1, h2, h3, _⟩ := (attested hok hm hz hg).each c hc
  rw [h1] at hv
  injection hv with hv
  subst hv
  exact ⟨h2, h3⟩

example : Spec.Without 15 Ex.tail.1.past ∧ (Ex.at' 5).past.any (fun v => v.ed == 15) = true :=
  ⟨(C69_punished (k := 15) Ex.tailRan (by decide +kernel) (by decide)).2.2.2 (by decide +kernel), by decide +kernel⟩

example : ∀ v, (Spec.guarding Ex.W Ex.second.1 1).1[4]? = some v → v.ed ∉ Ex.second.1.judged.punish := fun v hv =>
  (C69_no_guarantee Ex.secondRan (by decide) rfl (g := ⟨Ex.r1, 1, [⟨0, 10⟩, ⟨4, 14⟩]⟩) (List.mem_cons_self ..) (c := ⟨4, 14⟩) (List.mem_cons_of_mem _ (List.mem_cons_self ..)) hv).1

/-! ## Outputs -/

/-- **C69**: every vote of a verdict in an accepted block is signed by a validator, of the set active before the block
if the verdict is of its epoch and of the set before that otherwise; whoever it makes an offender had a key in one of
these sets and was none before. -/
theorem C69_jury {anc : Option (Nat → Nat → Bool)} {s s' : State η ρ ω} {b : Blk σ η π} {acc : List Acc.Report} (h : block W anc s b = .ok (s', acc))
    (he : ∀ v ∈ b.disputes.verdicts, v.epoch + 1 < 2 ^ 32) :
    (∀ v ∈ b.disputes.verdicts, s.slot / W.S.epoch ≤ v.epoch + 1 ∧ ∀ j ∈ v.js, ∃ k : VKey Nat,
      (if v.epoch = s.slot / W.S.epoch then s.active else s.past)[j.voter]? = some k ∧ W.ver k.ed (Judge.Spec.statement v.report j.vote) j.sig = true) ∧
    ∀ k ∈ s'.judged.punish, k ∉ s.judged.punish → ∃ v : VKey Nat, (v ∈ s.active ∨ v ∈ s.past) ∧ v.ed = k := by
  obtain ⟨g, hok, _, e1, e2, e3, _⟩ := accepted h
  subst e1; subst e2; subst e3
  have hj := hok.pre.judged
  have hp := (Judge.C27_accept_iff (E := judgeEnv W g.before) he).1 ⟨_, hj⟩
  refine ⟨fun v hv => ⟨(hp.verdicts v hv).age, fun j hjs => ?_⟩, fun k hk hn => ?_⟩
  · obtain ⟨key, h1, h2⟩ := (hp.verdicts v hv).signed j hjs
    have h1' : (if v.epoch = g.before.slot / W.S.epoch then g.before.active.map VKey.ed else g.before.past.map VKey.ed)[j.voter]? = some key := h1
    split at h1'
    · rename_i c
      rw [List.getElem?_map] at h1'
      obtain ⟨k, hk, ek⟩ := Option.map_eq_some_iff.1 h1'
      exact ⟨k, by rw [if_pos c]; exact hk, by rw [ek]; exact h2⟩
    · rename_i c
      rw [List.getElem?_map] at h1'
      obtain ⟨k, hk, ek⟩ := Option.map_eq_some_iff.1 h1'
      exact ⟨k, by rw [if_neg c]; exact hk, by rw [ek]; exact h2⟩
  · have ej : (g.after W).judged = g.judged := by
      show g.mid.judged = g.judged
      rw [hok.mid]; rfl
    rw [ej] at hk
    rcases (Judge.C27_evidence hj hk hn).1 with c | c
    · obtain ⟨v, hv, e⟩ := List.mem_map.1 c
      exact ⟨v, .inl hv, e⟩
    · obtain ⟨v, hv, e⟩ := List.mem_map.1 c
      exact ⟨v, .inr hv, e⟩

/-- The fifth block, whose verdict makes validator 5 an offender. -/
def Ex.fifth : State Nat (List Nat) Nat × List Acc.Report := match block Ex.W none (Ex.at' 4) Ex.b5 with | .ok x => x | .error _ => (Ex.s0, [])
theorem Ex.fifthRan : block Ex.W none (Ex.at' 4) Ex.b5 = .ok Ex.fifth := by
  have h : (match block Ex.W none (Ex.at' 4) Ex.b5 with | .ok _ => true | .error _ => false) = true := by decide +kernel
  unfold Ex.fifth
  split
  · assumption
  · rename_i e; rw [e] at h; cases h
example : Ex.b5.disputes.verdicts.length = 1 ∧ ∃ v : VKey Nat, (v ∈ (Ex.at' 4).active ∨ v ∈ (Ex.at' 4).past) ∧ v.ed = 15 :=
  ⟨rfl, (C69_jury Ex.fifthRan (by decide)).2 15 (by decide +kernel) (by decide +kernel)⟩

/-- **C69**: a package guaranteed in an accepted block was not, before the block, on a core, waiting or among those
remembered as accumulated, nor in a remembered block, and each of its work items is for a service that exists then with
that code and asks for no more gas than the item has. -/
theorem C69_new_work {anc : Option (Nat → Nat → Bool)} {s s' : State η ρ ω} {b : Blk σ η π} {acc : List Acc.Report} (h : block W anc s b = .ok (s', acc))
    (hm : W.P.maxGas < 2 ^ 64 - 1) {g : Reports.Guarantee σ} (hg : g ∈ b.guarantees) :
    g.report.pkg ∉ s.done.flatten ∧ g.report.pkg ∉ Spec.waitingPkgs s ∧ g.report.pkg ∉ Spec.pendingPkgs s ∧
    (∀ e ∈ s.hist, ∀ m ∈ e.packages, m.1 ≠ g.report.pkg) ∧
    ∀ d ∈ g.report.digests, ∃ minGas, W.service s.world d.service = some (d.code, minGas) ∧ minGas ≤ d.gas := by
  obtain ⟨st, hok, _, e1, e2, e3, _⟩ := accepted h
  subst e1; subst e2; subst e3
  obtain ⟨cs, hd⟩ := Reports.step_done hok.step
  have hr := ((hd.keysOk hm).each g hg).report
  refine ⟨hr.newPipeline.1, ?_, ?_, ?_, ?_⟩
  · exact hr.newPipeline.2.1
  · intro c
    obtain ⟨o, ho, e⟩ := List.mem_filterMap.1 c
    cases o with
    | none => cases e
    | some p =>
      obtain ⟨i, hi, ei⟩ := List.mem_iff_getElem.1 ho
      injection e with e
      exact hr.newPipeline.2.2 i p (by show st.before.pending[i]? = _; rw [List.getElem?_eq_getElem hi, ei]) e
  · intro e he m hme
    refine hr.newRecent m ?_
    rw [Reports.setRoot_recent]
    exact List.mem_flatMap.2 ⟨e, he, hme⟩
  · intro d hd'
    obtain ⟨code, minGas, h1, h2, h3⟩ := hr.services d hd'
    subst h3
    exact ⟨minGas, h1, h2⟩

example : Ex.b2.guarantees.length = 2 ∧ Ex.r1.pkg ∉ (Ex.at' 1).done.flatten ∧ 1 ∈ (Ex.at' 4).done.flatten :=
  ⟨rfl, (C69_new_work Ex.secondRan (by decide) (g := ⟨Ex.r1, 1, [⟨0, 10⟩, ⟨4, 14⟩]⟩) List.mem_cons_self).1, by decide +kernel⟩

/-- **C69**: the belt holds the roots of the outputs of every block, in order, and the entry each block leaves in the
history commits to the belt as it is after the block. -/
theorem C69_belt {s s' : State η ρ ω} {bs : Spec.Blocks σ η π} {accs : List (List Acc.Report)} (h : run W bs s = .ok (s', accs)) :
    ∃ outs : List (List (Nat × Bytes)), outs.length = bs.length ∧
      (∀ (i : Nat) (t : State η ρ ω), i < bs.length → Spec.Reached W s bs (i + 1) t → outs[i]? = some t.outputs ∧
        ∃ b e, bs[i]? = some b ∧ t.hist.getLast? = some e ∧ e.header = b.2.header ∧ e.mmr = W.num (Merkle.superPeak W.keccak t.belt)) ∧
      s'.belt = (outs.map fun o => Merkle.balancedRoot W.keccak (o.map fun x => Codec.leBytes 4 x.1 ++ x.2)).foldl (Merkle.mmrAppend W.keccak) s.belt := by
  obtain ⟨l, hl, e1, e2⟩ := run_stages.1 h
  refine ⟨l.map fun g => (g.after W).outputs, by rw [← e1, List.length_map, List.length_map], ?_, ?_⟩
  · intro i t hi ht
    have hil : i < l.length := by rw [← e1, List.length_map] at hi; exact hi
    have hgi : l[i]? = some l[i] := List.getElem?_eq_getElem hil
    generalize l[i] = g at hgi
    obtain ⟨h1, hok, _⟩ := linked_at hl hgi
    obtain ⟨r1, _, ⟨_, r3⟩⟩ := reached_before hl e1 hgi
    obtain ⟨_, q⟩ := ht
    rw [r3] at q; injection q with q; injection q with q; subst q
    refine ⟨by rw [List.getElem?_map, hgi]; rfl, _, ⟨g.blk.header, W.num (Merkle.superPeak W.keccak (g.after W).belt), 0,
      Reports.sortPairs (g.blk.guarantees.map fun g => (g.report.pkg, g.report.seg))⟩, r1, ?_, rfl, rfl⟩
    rw [after_hist hok]
    unfold Reports.append Reports.shiftPush
    first
      | simp
      | (split <;> simp)
  · rw [belt_run hl, List.map_map]
    rfl

example : (Ex.final.1.hist.getLast?).all (fun e => e.header == 108 && e.mmr == Ex.W.num (Merkle.superPeak Ex.W.keccak Ex.final.1.belt)) = true ∧
    ∃ outs : List (List (Nat × Bytes)), outs.length = 8 ∧
      Ex.final.1.belt = (outs.map fun o => Merkle.balancedRoot Ex.W.keccak (o.map fun x => Codec.leBytes 4 x.1 ++ x.2)).foldl (Merkle.mmrAppend Ex.W.keccak) [] := by
  obtain ⟨outs, h1, _, h2⟩ := C69_belt Ex.ran
  exact ⟨by decide +kernel, outs, h1, h2⟩

/-! ## What depends on what -/

/-- **C69**: of two accepted blocks on two states, the header's part of the new state is the same if only these
agree: the slot follows from the block's; entropy from slots, VRF output and entropy; active and past sets from slots
and the sets; judgments from the disputes and what was judged; the rest of Safrole from slots, tickets, itself, the
staging set, the entropy and the new offenders. -/
theorem C69_depends_header {anc anc' : Option (Nat → Nat → Bool)} {s s' t t' : State η ρ ω} {b b' : Blk σ η π} {acc acc' : List Acc.Report}
    (h : block W anc s b = .ok (t, acc)) (h' : block W anc' s' b' = .ok (t', acc')) :
    (b.slot = b'.slot → t.slot = t'.slot) ∧ (b.disputes = b'.disputes → s.judged = s'.judged → t.judged = t'.judged) ∧
    (b.slot = b'.slot → s.slot = s'.slot →
      (b.vrf = b'.vrf → s.e0 = s'.e0 → t.e0 = t'.e0) ∧ (s.e0 = s'.e0 → s.e1 = s'.e1 → t.e1 = t'.e1) ∧ (s.e1 = s'.e1 → s.e2 = s'.e2 → t.e2 = t'.e2) ∧
      (s.e2 = s'.e2 → s.e3 = s'.e3 → t.e3 = t'.e3) ∧
      (s.saf.pending = s'.saf.pending → s.active = s'.active → t.active = t'.active) ∧ (s.active = s'.active → s.past = s'.past → t.past = t'.past) ∧
      (b.tickets = b'.tickets → s.saf = s'.saf → s.staging = s'.staging → s.e1 = s'.e1 → t.judged.punish = t'.judged.punish → t.saf = t'.saf)) := by
  obtain ⟨g, hok, _, e1, e2, e3, _⟩ := accepted h
  obtain ⟨g', hok', _, e1', e2', e3', _⟩ := accepted h'
  subst e1; subst e2; subst e3; subst e1'; subst e2'; subst e3'
  refine ⟨fun e => by rw [Stage.after_slot hok, Stage.after_slot hok', e], fun e f => by rw [Stage.after_judged hok, Stage.after_judged hok', dep_judged hok hok' e f], ?_⟩
  intro es ep
  obtain ⟨a0, a1, a2, a3⟩ := after_entropy hok
  obtain ⟨c0, c1, c2, c3⟩ := after_entropy hok'
  obtain ⟨a4, a5⟩ := after_active hok
  obtain ⟨c4, c5⟩ := after_active hok'
  have hf := dep_fresh (W := W) (g := g) (g' := g') ep es
  refine ⟨fun x y => by rw [a0, c0, x, y], fun x y => by rw [a1, c1, hf, x, y], fun x y => by rw [a2, c2, hf, x, y], fun x y => by rw [a3, c3, hf, x, y],
    fun x y => by rw [a4, c4, hf, x, y], fun x y => by rw [a5, c5, hf, x, y], fun x1 x2 x3 x4 x5 => ?_⟩
  rw [Stage.after_judged hok, Stage.after_judged hok'] at x5
  exact dep_saf hok hok' ep es x2 x3 x4 x5 x1

example : ∃ t t' acc acc', block Ex.W none (Ex.at' 5) Ex.b6 = .ok (t, acc) ∧ block Ex.W none { Ex.at' 5 with pools := [[], []], hist := [], past := [], world := 9 } Ex.b6 = .ok (t', acc') ∧
    t.saf = t'.saf ∧ t.active = t'.active ∧ t.past = t'.past := by
  have h : (match block Ex.W none (Ex.at' 5) Ex.b6 with | .ok _ => true | .error _ => false) = true := by decide +kernel
  have h' : (match block Ex.W none { Ex.at' 5 with pools := [[], []], hist := [], past := [], world := 9 } Ex.b6 with | .ok _ => true | .error _ => false) = true := by decide +kernel
  split at h
  · rename_i x e
    split at h'
    · rename_i x' e'
      obtain ⟨_, c2, c3⟩ := C69_depends_header e e'
      obtain ⟨_, _, _, _, d5, d6, d7⟩ := c3 rfl rfl
      refine ⟨x.1, x'.1, x.2, x'.2, e, e', d7 rfl rfl rfl rfl (by rw [c2 rfl rfl]), d5 rfl rfl, ?_⟩
      obtain ⟨g, hok, _, a1, a2, a3, _⟩ := accepted e
      obtain ⟨g', hok', _, b1, b2, b3, _⟩ := accepted e'
      rw [← a3, ← b3, (after_active hok).2, (after_active hok').2, a1, a2, b1, b2]
      rfl
    · cases h'
  · cases h

/-- **C69**: likewise the rest: pending reports follow from the pending reports, the slot, disputes, assurances and
guarantees; the reports waiting, the packages accumulated, outputs, queues, staging set and what is accumulated from the
same inputs without guarantees, the accounts and privileges, the entropy, the VRF output and those components; the
accounts from all that and the preimages; pools from pools, slot, guarantees and the new queues; belt and history from
themselves, the header, the parent's root, the guarantees and the new outputs. -/
theorem C69_depends_body {anc anc' : Option (Nat → Nat → Bool)} {s s' t t' : State η ρ ω} {b b' : Blk σ η π} {acc acc' : List Acc.Report}
    (h : block W anc s b = .ok (t, acc)) (h' : block W anc' s' b' = .ok (t', acc')) :
    (b.slot = b'.slot → s.pending = s'.pending → b.disputes = b'.disputes → b.assurances = b'.assurances →
      (b.guarantees = b'.guarantees → t.pending = t'.pending) ∧
      (s.ready = s'.ready → s.done = s'.done → s.world = s'.world → s.queues = s'.queues → s.staging = s'.staging → s.e0 = s'.e0 → b.vrf = b'.vrf →
        acc = acc' ∧ t.done = t'.done ∧ t.outputs = t'.outputs ∧ t.queues = t'.queues ∧ t.staging = t'.staging ∧ (s.slot = s'.slot → t.ready = t'.ready) ∧
        (b.preimages = b'.preimages → t.world = t'.world))) ∧
    (b.slot = b'.slot → b.guarantees = b'.guarantees → s.pools = s'.pools → t.queues = t'.queues → t.pools = t'.pools) ∧
    (s.belt = s'.belt → t.outputs = t'.outputs → t.belt = t'.belt ∧
      (b.header = b'.header → b.parentRoot = b'.parentRoot → b.guarantees = b'.guarantees → s.hist = s'.hist → t.hist = t'.hist)) := by
  obtain ⟨g, hok, _, e1, e2, e3, e4⟩ := accepted h
  obtain ⟨g', hok', _, e1', e2', e3', e4'⟩ := accepted h'
  subst e1; subst e2; subst e3; subst e4; subst e1'; subst e2'; subst e3'; subst e4'
  refine ⟨fun es ep ed ea => ?_, fun es eg ep eq => ?_, fun eb eo => ?_⟩
  · obtain ⟨f1, f2⟩ := dep_available hok hok' ep ed ea
    refine ⟨fun eg => by rw [after_pending hok, after_pending hok', f2 es, eg, es], fun x1 x2 x3 x4 x5 x6 x7 => ?_⟩
    have hs := dep_scheduled hok hok' f1 x1 x2 es
    have ho := dep_out hok hok' hs x3 x4 x5 es x6 x7
    have hc := dep_accumulated hs (by rw [ho])
    refine ⟨hc, by rw [after_done hok, after_done hok', x2, hc], ?_, ?_, by rw [after_staging hok, after_staging hok', ho, x5],
      fun ep => by rw [after_ready hok, after_ready hok', x1, hs, hc, ep, es], fun ei => dep_world hok hok' ho x3 es ei⟩
    · show g.parts.out.outputs = g'.parts.out.outputs
      rw [ho]
    · show g.parts.out.queues = g'.parts.out.queues
      rw [ho]
  · have eq' : g.parts.out.queues = g'.parts.out.queues := eq
    rw [after_pools hok, after_pools hok', es, eg, ep, eq']
  · have hb : (g.after W).belt = (g'.after W).belt := by rw [after_belt hok, after_belt hok', eb, eo]
    refine ⟨hb, fun x1 x2 x3 x4 => ?_⟩
    rw [after_hist hok, after_hist hok', hb, x1, x2, x3, x4]

namespace Ex
/-- The fourth block on a state with other pools, histories and validator sets. -/
def other : State Nat (List Nat) Nat := { at' 3 with pools := [[], []], hist := [], past := [], e2 := 77 }
end Ex

example : ∃ t t' acc acc', block Ex.W none (Ex.at' 3) Ex.b4 = .ok (t, acc) ∧ block Ex.W none Ex.other Ex.b4 = .ok (t', acc') ∧ acc = acc' ∧ t.pending = t'.pending ∧
    t.world = t'.world ∧ t.pools.length = 2 := by
  have h : (match block Ex.W none (Ex.at' 3) Ex.b4 with | .ok x => x.1.pools.length == 2 | .error _ => false) = true := by decide +kernel
  have h' : (match block Ex.W none Ex.other Ex.b4 with | .ok _ => true | .error _ => false) = true := by decide +kernel
  split at h
  · rename_i x e
    split at h'
    · rename_i x' e'
      obtain ⟨c, _⟩ := (C69_depends_body e e').1 rfl rfl rfl rfl
      obtain ⟨c1, _, _, _, _, _, c7⟩ := ((C69_depends_body e e').1 rfl rfl rfl rfl).2 rfl rfl rfl rfl rfl rfl rfl
      exact ⟨x.1, x'.1, x.2, x'.2, e, e', c1, c rfl, c7 rfl, by simpa using h⟩
    · cases h'
  · cases h

/-! ## Shape and failures -/

/-- **C69**: every component keeps its length over any chain. -/
theorem C69_shape {s s' : State η ρ ω} {bs : Spec.Blocks σ η π} {accs : List (List Acc.Report)} (hW : Spec.Sound W) (hs : Spec.Shape W s) (h0 : ∀ b ∈ bs, 0 < b.2.slot)
    (h : run W bs s = .ok (s', accs)) : Spec.Shape W s' := by
  obtain ⟨l, hl, e1, e2⟩ := run_stages.1 h
  exact shape_run hW hl (stages_pos e1 h0) hs

example : Spec.Shape Ex.W Ex.final.1 := C69_shape Ex.sound Ex.shape Ex.positive Ex.ran

/-- **C69**: a block is refused only for what is in it: never because the sealers of the epoch cannot be computed, more
is said to be accumulated than was scheduled, an index is out of bounds or an available report is missing, and by the
statistics only for an author that is no validator index. -/
theorem C69_refused {anc : Option (Nat → Nat → Bool)} {s : State η ρ ω} {b : Blk σ η π} {e : Err} (hW : Spec.Sound W) (hs : Spec.Shape W s)
    (hb : ∀ a ∈ b.assurances, a.bits.length ≤ W.P.C) (h : block W anc s b = .error e) :
    e ≠ .sealers ∧ e ≠ .count ∧ e ≠ .reports .panic ∧ e ≠ .reports .missing ∧ (e = .slot → b.slot ≤ s.slot) ∧ (e = .statistics → W.P.V ≤ b.author) ∧
      (e = .accumulate → ∃ i, W.accumulate i = none) := by
  rcases block_err hW hs hb h with ⟨c, hc⟩ | ⟨c, _⟩ | ⟨c, _⟩ | ⟨x, s1, c, h1, h2, _⟩ | ⟨c, hc⟩ | ⟨c, hc⟩ | ⟨c, _⟩
  · subst c
    exact ⟨nofun, nofun, nofun, nofun, fun _ => by unfold SlotOk at hc; omega, nofun, nofun⟩
  · subst c; exact ⟨nofun, nofun, nofun, nofun, nofun, nofun, nofun⟩
  · subst c; exact ⟨nofun, nofun, nofun, nofun, nofun, nofun, nofun⟩
  · subst c
    exact ⟨nofun, nofun, fun e => h1 (by injection e), fun e => h2 (by injection e), nofun, nofun, nofun⟩
  · subst c; exact ⟨nofun, nofun, nofun, nofun, nofun, nofun, fun _ => hc⟩
  · subst c; exact ⟨nofun, nofun, nofun, nofun, nofun, fun _ => hc, nofun⟩
  · subst c; exact ⟨nofun, nofun, nofun, nofun, nofun, nofun, nofun⟩

example : ∃ e, block Ex.W none Ex.s0 { Ex.b1 with author := 9 } = .error e ∧ e ≠ .count ∧ e ≠ .reports .panic := by
  have h : (match block Ex.W none Ex.s0 { Ex.b1 with author := 9 } with | .ok _ => true | .error _ => false) = false := by decide +kernel
  split at h
  · cases h
  · rename_i e he
    obtain ⟨_, h2, h3, _⟩ := C69_refused Ex.sound Ex.shape (by decide) he
    exact ⟨e, he, h2, h3⟩

/-- **C69**: a chain can always be continued: a block without extrinsics in a later slot, by any validator, is accepted
on every state a chain can reach, unless executing the services or the preimages fails. -/
theorem C69_progress {anc : Option (Nat → Nat → Bool)} {s : State η ρ ω} {b : Blk σ η π} (hW : Spec.Sound W) (hs : Spec.Shape W s) (hb : Spec.Empty b)
    (hslot : s.slot < b.slot) (ha : b.author < W.P.V) (hacc : ∀ i, W.accumulate i ≠ none) (hpre : ∀ w t, W.preimages s.world w t b.preimages ≠ none) :
    ∃ s' acc, block W anc s b = .ok (s', acc) := by
  cases h : block W anc s b with
  | ok x => exact ⟨x.1, x.2, rfl⟩
  | error e =>
    exfalso
    rcases block_err hW hs (fun a h => by rw [hb.assurances] at h; cases h) h with ⟨_, c⟩ | ⟨_, x, c⟩ | ⟨_, x, c⟩ | ⟨x, s1, _, _, _, _, c⟩ | ⟨_, i, c⟩ | ⟨_, c⟩ | ⟨_, w, t, c⟩
    · exact c (Or.inr hslot)
    · rw [hb.disputes] at c; cases c
    · rw [hb.tickets] at c; cases c
    · exact reports_empty hb c
    · exact hacc i c
    · omega
    · exact hpre w t c

example : ∃ s' acc, block Ex.W none Ex.final.1 (Ex.empty 109 108 19) = .ok (s', acc) :=
  C69_progress Ex.sound (C69_shape Ex.sound Ex.shape Ex.positive Ex.ran) ⟨rfl, rfl, rfl, rfl⟩ (by decide +kernel) (by decide) (fun _ => nofun) (fun _ _ => nofun)

/-- **C69**, violated at the start: the slot of every block is later than its parent's, except that the slot of the
genesis may be repeated: several blocks in slot 0 are accepted one after the other (the Gray Paper requires every slot
to be later). -/
theorem C69_slot_partial :
    (∀ {σ η ρ ω π : Type} {W : World σ η ρ ω π} {anc : Option (Nat → Nat → Bool)} {s s' : State η ρ ω} {b : Blk σ η π} {acc : List Acc.Report},
      block W anc s b = .ok (s', acc) → s'.slot = b.slot ∧ (s.slot < b.slot ∨ (s.slot = 0 ∧ b.slot = 0))) ∧
    ∃ (bs : Spec.Blocks Nat Nat Unit) (s' : State Nat (List Nat) Nat) (accs : List (List Acc.Report)), bs.length = 3 ∧ (∀ b ∈ bs, b.2.slot = 0) ∧
      run Ex.W bs Ex.s0 = .ok (s', accs) ∧ s'.hist.length = 2 := by
  refine ⟨fun {σ η ρ ω π W anc s s' b acc} h => ?_, ?_⟩
  · obtain ⟨g, hok, _, e1, e2, e3, _⟩ := accepted h
    subst e1; subst e2; subst e3
    refine ⟨Stage.after_slot hok, ?_⟩
    rcases hok.pre.slot with h | h
    · exact Or.inr h
    · exact Or.inl h
  · have h : (match run Ex.W [(none, Ex.empty 101 100 0), (none, Ex.empty 102 101 0), (none, Ex.empty 103 102 0)] Ex.s0 with
        | .ok x => x.1.hist.length == 2 | .error _ => false) = true := by decide +kernel
    split at h
    · rename_i x e
      exact ⟨_, x.1, x.2, rfl, by decide, e, by simpa using h⟩
    · cases h

end Fastroll.Stf
