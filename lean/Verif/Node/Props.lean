import Verif.Node.LemmasChain
import Verif.Node.Ex

/-!
# Properties of chains whose blocks execute services
-/
namespace Fastroll.Node
open Fastroll.Svc (Global Boxes PState Held)
open Fastroll.Safrole (VKey)

namespace Ex

theorem coherent : Coherent N where
  epoch := by decide
  validators := by decide
  same := by decide
  hist := by decide
  pool := by decide
  cores := ⟨by decide, 3, by decide, by decide⟩
  full := fun _ => rfl
  gas := by decide

theorem genesis : Stf.Spec.Genesis (world N) s0 where
  slot := rfl
  pending := by decide
  hist := rfl
  ready := rfl
  done := rfl

theorem positive : ∀ b ∈ bs, 0 < b.2.slot := by decide
theorem headers : (bs.map fun b => b.2.header).Nodup := by decide
theorem fixed : Stf.Spec.AnchorFixed bs := by unfold Stf.Spec.AnchorFixed; decide

theorem shape : Stf.Spec.Shape (world N) s0 where
  validators := by decide
  tickets := by decide
  sealers := by decide
  cores := by decide
  own := fun c p h => by
    have : ∀ o ∈ s0.pending, o = none := by decide
    have := this _ (List.mem_of_getElem? h); cases this
  hist := by decide
  pools := by decide
  rings := by decide
  stats := by decide

theorem roles : Roles N.par s0 where
  queues := by decide
  assign := by decide
  always := by decide

theorem modest (code : Bytes) (p : Pvm.Prog) (init : Option Pvm.VM) (h : N.mach.load code = some (p, init)) : Delta.Modest p := by
  have k : ∀ cs, cs ∈ [[16], [20, 25], [25]] → ∀ p, Svc.ExM.prog cs = some p → ∀ ins ∈ p.decoded, ins.op = .ecalli → ins.imm1.toNat % 256 ∉ Delta.Filling := by
    decide +kernel
  change (Svc.ExM.machine table).load code = some (p, init) at h
  unfold Svc.ExM.machine at h
  dsimp only at h
  split at h
  · rename_i n
    simp only [Option.map_eq_some_iff, Prod.mk.injEq] at h
    obtain ⟨p', h1, rfl, _⟩ := h
    refine Delta.ExA.modest_of (k _ ?_ _ h1)
    unfold table
    split <;> simp
  · cases h

/-- The states before and after the third block. -/
def at' (n : Nat) : State Nat (List Nat) := match run N (bs.take n) s0 with | .ok x => x.1 | .error _ => s0
def third : State Nat (List Nat) × List Acc.Report := match Stf.block (world N) none (at' 2) b3 with | .ok x => x | .error _ => (s0, [])
theorem thirdRan : Stf.block (world N) none (at' 2) b3 = .ok third := by
  have h : (match Stf.block (world N) none (at' 2) b3 with | .ok _ => true | .error _ => false) = true := by decide +kernel
  unfold third
  split
  · assumption
  · rename_i e; rw [e] at h; cases h

attribute [irreducible] third
def first : State Nat (List Nat) × List Acc.Report := match Stf.block (world N) none s0 b1 with | .ok x => x | .error _ => (s0, [])
theorem firstRan : Stf.block (world N) none s0 b1 = .ok first := by
  have h : (match Stf.block (world N) none s0 b1 with | .ok _ => true | .error _ => false) = true := by decide +kernel
  unfold first
  split
  · assumption
  · rename_i e; rw [e] at h; cases h
attribute [irreducible] first

/-- A block with a preimage nobody asked for. -/
def badPre : Blk Nat Nat := { b1 with preimages := [(5, [1, 2])] }

/-- A state in which it is asked for. -/
def wantPre : State Nat (List Nat) :=
  { s0 with world := { realm with accounts := { Delta.ExA.g with lookups := Svc.upd2 Delta.ExA.g.lookups 5 (N.blake [1, 2], 2) (some []) } } }

end Ex

variable {σ η ρ : Type} {N : Par σ η ρ}

/-- **C72**: what an accepted block does is the execution of services. There are rounds, from the accounts, the
privileges and the queues before the block, each of which runs exactly the services that have something to do or a
privilege, and which take exactly the reports the block accumulates, in order; privileges, queues, staged validators
and outputs after the block are what the last round leaves. -/
theorem C72_block {anc : Option (Nat → Nat → Bool)} {s s' : State η ρ} {b : Blk σ η} {acc : List Acc.Report} (hK : N.K.total < 2 ^ 64)
    (h : Stf.block (world N) anc s b = .ok (s', acc)) : ∃ Rs v, Executed N s b acc s' Rs v := by
  obtain ⟨g, hok, _, e1, e2, e3, e4⟩ := Stf.accepted h
  subst e1; subst e2; subst e3; subst e4
  obtain ⟨Rs, v, E, _⟩ := stage_executed hK hok
  exact ⟨Rs, v, E⟩

example : ∃ Rs v, Executed Ex.N (Ex.at' 2) Ex.b3 Ex.third.2 Ex.third.1 Rs v ∧ Ex.third.2.map Acc.Report.pkg = [1] ∧ Ex.third.1.outputs.map Prod.fst = [5, 6] := by
  obtain ⟨Rs, v, h⟩ := C72_block (by decide) Ex.thirdRan
  exact ⟨Rs, v, h, by decide +kernel, by decide +kernel⟩

/-- **C72**: if the accounts before an accepted block are consistent and the programs it runs are careful, all the
sandboxes are written back without an error, and the accounts after the block are those written back, with the slot of
the block at exactly the services that had work or used gas, and with the preimages of the block that are still asked
for. -/
theorem C72_accounts_block {anc : Option (Nat → Nat → Bool)} {s s' : State η ρ} {b : Blk σ η} {acc : List Acc.Report} {n0 : Nat} (hK : N.K.total < 2 ^ 64)
    (h : Stf.block (world N) anc s b = .ok (s', acc)) (hg : Delta.Healthy s.world.accounts) (h0 : Held s.world.accounts n0) (hn : n0 < 2 ^ 64) (ht : Tame N s b) :
    ∃ Rs v a, Executed N s b acc s' Rs v ∧ Accounted N s b acc s' Rs v a ∧ Delta.Healthy a ∧ ∃ n, Held a n ∧ n + (Rs.map Delta.Round.lost).sum = n0 := by
  obtain ⟨g, hok, _, e1, e2, e3, e4⟩ := Stf.accepted h
  subst e1; subst e2; subst e3; subst e4
  obtain ⟨Rs, v, a, E, A, _, H, hn, _⟩ := stage_leaves hK hok hg h0 hn ht.calm
  exact ⟨Rs, v, a, E, A, H, hn⟩

example : ∃ Rs v a, Accounted Ex.N Ex.s0 Ex.b1 Ex.first.2 Ex.first.1 Rs v a ∧ Delta.Healthy a := by
  obtain ⟨Rs, v, a, _, h2, h3, _⟩ := C72_accounts_block (by decide) Ex.firstRan Delta.ExA.healthy Delta.ExA.held (by decide)
    ((modest_calm Ex.modest Delta.ExA.healthy).tame Delta.ExA.healthy Delta.ExA.held (by decide))
  exact ⟨Rs, v, a, h2, h3⟩

/-- **C72**: over any chain of accepted blocks whose programs are careful, every account stays consistent and able to
pay its deposit, and no tokens are made: what is held at the end and what was sent to services that do not exist is
what was held at the start. -/
theorem C72_accounts {bs : Blocks σ η} {s s' : State η ρ} {accs : List (List Acc.Report)} {n0 : Nat} (hK : N.K.total < 2 ^ 64)
    (h : run N bs s = .ok (s', accs)) (hg : Delta.Healthy s.world.accounts) (h0 : Held s.world.accounts n0) (hn : n0 < 2 ^ 64)
    (ht : ∀ i t b, Stf.Spec.Reached (world N) s bs i t → bs[i]? = some b → Tame N t b.2) :
    ∃ lost, Delta.Lives s.world.accounts lost s'.world.accounts ∧ Delta.Healthy s'.world.accounts ∧ ∃ n, Held s'.world.accounts n ∧ n + lost = n0 := by
  obtain ⟨l, hl, e1, _⟩ := Stf.run_stages.1 h
  obtain ⟨lost, hL⟩ := lives_run hK hg h0 hn hl (fun g hg' _ => by
    obtain ⟨i, hi⟩ := List.mem_iff_getElem?.1 hg'
    obtain ⟨k1, k2, _⟩ := Stf.reached_before hl e1 hi
    exact (ht i _ _ k2 k1).calm) .start
  exact ⟨lost, hL, Delta.C71_history hg h0 hn hL⟩

/-- **C72**: the same of every chain, whatever its blocks, if no program the loader accepts calls `write`, `new`,
`eject`, `solicit` or `forget`. -/
theorem C72_modest {bs : Blocks σ η} {s s' : State η ρ} {accs : List (List Acc.Report)} {n0 : Nat} (hK : N.K.total < 2 ^ 64)
    (h : run N bs s = .ok (s', accs)) (hg : Delta.Healthy s.world.accounts) (h0 : Held s.world.accounts n0) (hn : n0 < 2 ^ 64)
    (hM : ∀ code p init, N.mach.load code = some (p, init) → Delta.Modest p) :
    ∃ lost, Delta.Lives s.world.accounts lost s'.world.accounts ∧ Delta.Healthy s'.world.accounts ∧ ∃ n, Held s'.world.accounts n ∧ n + lost = n0 := by
  obtain ⟨l, hl, e1, _⟩ := Stf.run_stages.1 h
  obtain ⟨lost, hL⟩ := lives_run hK hg h0 hn hl (fun g _ H => modest_calm hM H) .start
  exact ⟨lost, hL, Delta.C71_history hg h0 hn hL⟩

example : (∃ lost, Delta.Lives Ex.s0.world.accounts lost Ex.final.1.world.accounts ∧ Delta.Healthy Ex.final.1.world.accounts ∧
      ∃ n, Held Ex.final.1.world.accounts n ∧ n + lost = 30000) ∧
    [1, 5, 6].map (fun s => (Ex.final.1.world.accounts.metas s).map fun m => (m.balance, m.lastAcc)) = [some (10000, 12), some (9990, 3), some (10010, 3)] :=
  ⟨C72_modest (by decide) Ex.ran Delta.ExA.healthy Delta.ExA.held (by decide) Ex.modest, Ex.accounts⟩

example : ∃ lost, Delta.Lives Ex.s0.world.accounts lost Ex.final.1.world.accounts := by
  obtain ⟨lost, h, _⟩ := C72_accounts (by decide) Ex.ran Delta.ExA.healthy Delta.ExA.held (by decide) fun i t b ⟨accs, ht⟩ hb => by
    obtain ⟨lost, _, h1, n, h2, h3⟩ := C72_modest (N := Ex.N) (by decide) ht Delta.ExA.healthy Delta.ExA.held (by decide) Ex.modest
    exact (modest_calm Ex.modest h1).tame h1 h2 (by omega)
  exact ⟨lost, h⟩

/-- **C72**: executing services respects what the rest of the transition relies on, so the lengths of all components
of the state stay right, now also those of the queues, the assigners and the order of the always-accumulate
services, which programs choose. -/
theorem C72_shape {bs : Blocks σ η} {s s' : State η ρ} {accs : List (List Acc.Report)} (hN : Coherent N) (h : run N bs s = .ok (s', accs))
    (h0 : ∀ b ∈ bs, 0 < b.2.slot) (hs : Stf.Spec.Shape (world N) s) (hr : Roles N.par s) : Stf.Spec.Shape (world N) s' ∧ Roles N.par s' := by
  obtain ⟨l, hl, _, _⟩ := Stf.run_stages.1 h
  exact ⟨Stf.C69_shape (sound hN) hs h0 h, roles_run hN.gas hl hr⟩

example : Stf.Spec.Shape (world Ex.N) Ex.final.1 ∧ Roles Ex.N.par Ex.final.1 ∧ Ex.final.1.staging ≠ Ex.s0.staging :=
  ⟨(C72_shape Ex.coherent Ex.ran Ex.positive Ex.shape Ex.roles).1, (C72_shape Ex.coherent Ex.ran Ex.positive Ex.shape Ex.roles).2, by decide +kernel⟩

/-- **C72**: why a block is refused. The sealers, the counts and the reports never give an internal error; the
preimages are refused exactly if they are not in order, are repeated or are not asked for; the accumulation fails only
by an error of a service or of the merging of results, or because the always-accumulate services have more gas than
there is. -/
theorem C72_refused {anc : Option (Nat → Nat → Bool)} {s : State η ρ} {b : Blk σ η} {e : Stf.Err} (hN : Coherent N) (hs : Stf.Spec.Shape (world N) s)
    (hb : ∀ a ∈ b.assurances, a.bits.length ≤ N.P.C) (h : Stf.block (world N) anc s b = .error e) :
    (e ≠ .sealers ∧ e ≠ .count ∧ e ≠ .reports .panic ∧ e ≠ .reports .missing ∧ (e = .slot → b.slot ≤ s.slot) ∧ (e = .statistics → N.P.V ≤ b.author)) ∧
    (e = .preimages → ¬ (b.preimages.Pairwise Delta.OutLt ∧ ∀ x ∈ b.preimages,
      s.world.accounts.preimages x.1 (N.blake x.2) = none ∧ s.world.accounts.lookups x.1 (N.blake x.2, x.2.length % 2 ^ 32) = some [])) ∧
    (e = .accumulate → ∃ (i : Stf.AccIn η Realm) (er : Delta.Err), er ≠ .fuel ∧ (er = .gas → i.world.χ.always ≠ []) ∧
      Delta.block (N.delta i.world.accounts i.slot i.entropy) N.K i.world.χ (i.queues.map fun q => q.map N.oct) [] i.reports = .error er) := by
  obtain ⟨h1, h2, h3, h4, h5, h6, h7⟩ := Stf.C69_refused (sound hN) hs hb h
  refine ⟨⟨h1, h2, h3, h4, h5, h6⟩, fun c => ?_, fun c => ?_⟩
  · rcases Stf.block_err (sound hN) hs hb h with ⟨k, _⟩ | ⟨k, _⟩ | ⟨k, _⟩ | ⟨x, s1, k, _⟩ | ⟨k, _⟩ | ⟨k, _⟩ | ⟨_, w, t, k⟩
    · rw [c] at k; cases k
    · rw [c] at k; cases k
    · rw [c] at k; cases k
    · rw [c] at k; cases k
    · rw [c] at k; cases k
    · rw [c] at k; cases k
    · intro hp
      have := (preimages_iff (N := N) (before := s.world) (after := w) (slot := t)).2 hp
      rw [show preimages N s.world w t b.preimages = none from k] at this
      cases this
  · obtain ⟨i, hi⟩ := h7 c
    obtain ⟨er, k1, k2, k3⟩ := accumulate_err hN.gas hi
    exact ⟨i, er, k1, k2, k3⟩

example : ¬ (Ex.badPre.preimages.Pairwise Delta.OutLt ∧ ∀ x ∈ Ex.badPre.preimages,
      Ex.s0.world.accounts.preimages x.1 (Ex.N.blake x.2) = none ∧ Ex.s0.world.accounts.lookups x.1 (Ex.N.blake x.2, x.2.length % 2 ^ 32) = some []) := by
  have h : (match Stf.block (world Ex.N) none Ex.s0 Ex.badPre with | .error .preimages => true | _ => false) = true := by decide +kernel
  split at h
  · rename_i hb
    exact (C72_refused Ex.coherent Ex.shape (by decide) hb).2.1 rfl
  · cases h

/-- **C72**: the preimages of an accepted block are in order and different, each was asked for before the block and
none was there. -/
theorem C72_preimages {anc : Option (Nat → Nat → Bool)} {s s' : State η ρ} {b : Blk σ η} {acc : List Acc.Report} (h : Stf.block (world N) anc s b = .ok (s', acc)) :
    b.preimages.Pairwise Delta.OutLt ∧ ∀ x ∈ b.preimages,
      s.world.accounts.preimages x.1 (N.blake x.2) = none ∧ s.world.accounts.lookups x.1 (N.blake x.2, x.2.length % 2 ^ 32) = some [] := by
  obtain ⟨g, hok, _, e1, e2, e3, e4⟩ := Stf.accepted h
  subst e1; subst e2
  have := hok.post.preimages
  exact preimages_iff.1 (Option.isSome_iff_exists.2 ⟨_, this⟩)

example : Ex.wantPre.world.accounts.preimages 5 (Ex.N.blake [1, 2]) = none ∧
    (match Stf.block (world Ex.N) none Ex.wantPre Ex.badPre with | .ok x => x.1.world.accounts.preimages 5 (Ex.N.blake [1, 2]) | .error _ => none) = some [1, 2] := by
  have h : (match Stf.block (world Ex.N) none Ex.wantPre Ex.badPre with | .ok _ => true | .error _ => false) = true := by decide +kernel
  refine ⟨?_, by decide +kernel⟩
  split at h
  · rename_i x hb
    exact ((C72_preimages (s' := x.1) (acc := x.2) hb).2 (5, [1, 2]) (List.mem_singleton.2 rfl)).1
  · cases h

/-- **C72**: no service works on anything but what was attested and made available. In every block of a chain from an
empty start, each report a round is given was guaranteed in an earlier block by two or three validators assigned to its
core then, and made available by more than two thirds of the validators in a block no later than this one. -/
theorem C72_provenance {bs : Blocks σ η} {s s' : State η ρ} {accs : List (List Acc.Report)} (hN : Coherent N) (h : run N bs s = .ok (s', accs)) (hg : Stf.Spec.Genesis (world N) s)
    (hm : N.P.maxGas < 2 ^ 64 - 1) (hz : N.C.zero.ed = 0) (h0 : ∀ b ∈ bs, 0 < b.2.slot) {k : Nat} (hk : k < bs.length) :
    ∃ t b acc t' Rs v, At N s bs accs k t b acc t' ∧ Executed N t b acc t' Rs v ∧ ∀ R ∈ Rs, ∀ r ∈ R.reports,
      ∃ (i j : Nat) (bi bj : Option (Nat → Nat → Bool) × Blk σ η) (ti tj : State η ρ) (g : Reports.Guarantee σ), i < j ∧ j ≤ k ∧ bs[i]? = some bi ∧ bs[j]? = some bj ∧
        g ∈ bi.2.guarantees ∧ Stf.Spec.Same r g.report ∧ Stf.Spec.Reached (world N) s bs (i + 1) ti ∧ Stf.Spec.Attested (world N) ti g ∧
        Stf.Spec.Reached (world N) s bs j tj ∧ Stf.Spec.Assured (world N) tj bj.2 g.report.core := by
  obtain ⟨l, hl, e1, e2⟩ := Stf.run_stages.1 h
  have hlen : l.length = bs.length := by rw [← e1, List.length_map]
  have hgk := List.getElem?_eq_getElem (l := l) (i := k) (by omega)
  obtain ⟨k1, k2, k3⟩ := Stf.reached_before hl e1 hgk
  have hok := (Stf.linked_at hl hgk).2.1
  obtain ⟨Rs, v, E, _⟩ := stage_executed hN.gas hok
  have ha : accs[k]? = some l[k].acc := by rw [← e2, List.getElem?_map, hgk]; rfl
  refine ⟨_, _, _, _, Rs, v, ⟨by rw [k1]; rfl, ha, k2, k3⟩, E, fun R hR r hr => ?_⟩
  exact Stf.C69_provenance h hg hN.epoch hm hz h0 ha (by rw [← E.reports]; exact List.mem_flatMap.2 ⟨R, hR, hr⟩)

example : ∃ t b acc t' Rs v, At Ex.N Ex.s0 Ex.bs Ex.final.2 2 t b acc t' ∧ Executed Ex.N t b acc t' Rs v ∧ (Rs.flatMap Delta.Round.reports).map Acc.Report.pkg = [1] := by
  obtain ⟨t, b, acc, t', Rs, v, hA, hE, _⟩ := C72_provenance Ex.coherent Ex.ran Ex.genesis (by decide) (by decide) Ex.positive (k := 2) (by decide)
  refine ⟨t, b, acc, t', Rs, v, hA, hE, ?_⟩
  rw [hE.reports]
  have h : (Ex.final.2[2]?).map (fun l => l.map Acc.Report.pkg) = some [1] := by decide +kernel
  rw [hA.acc] at h
  exact Option.some.inj h

/-- **C72**: services work on a package once, and never before the packages it depends on: there are rounds of every
block of a chain from an empty start, and in all of them together no package occurs twice, and every package comes
after those it names. -/
theorem C72_once {bs : Blocks σ η} {s s' : State η ρ} {accs : List (List Acc.Report)} (hN : Coherent N) (h : run N bs s = .ok (s', accs)) (hg : Stf.Spec.Genesis (world N) s)
    (h0 : ∀ b ∈ bs, 0 < b.2.slot) (hd : (bs.map fun b => b.2.header).Nodup) (ha : Stf.Spec.AnchorFixed bs) :
    ∃ H : List (List Delta.Round), H.length = bs.length ∧
      (∀ i Rs, H[i]? = some Rs → ∃ t b acc t' v, At N s bs accs i t b acc t' ∧ Executed N t b acc t' Rs v) ∧
      ((H.flatten.flatMap Delta.Round.reports).map Acc.Report.pkg).Nodup ∧ Acc.Ordered [] (H.flatten.flatMap Delta.Round.reports) := by
  obtain ⟨l, hl, e1, e2⟩ := Stf.run_stages.1 h
  have ex : ∀ i : Nat, ∃ Rs, ∀ g : Stf.Stage σ η ρ Realm (List (Nat × Bytes)), l[i]? = some g → ∃ v, Executed N g.before g.blk g.acc (g.after (world N)) Rs v := by
    intro i
    cases hi : l[i]? with
    | none => exact ⟨[], fun g e => by cases e⟩
    | some g =>
      obtain ⟨Rs, v, E, _⟩ := stage_executed hN.gas (Stf.linked_at hl hi).2.1
      exact ⟨Rs, fun g' e => by injection e with e; exact e ▸ ⟨v, E⟩⟩
  have key : ∀ (m : List (Stf.Stage σ η ρ Realm (List (Nat × Bytes)))) (k : Nat), l.drop k = m → ∃ H : List (List Delta.Round), H.length = m.length ∧
      (∀ (i : Nat) (Rs : List Delta.Round), H[i]? = some Rs → ∀ g : Stf.Stage σ η ρ Realm (List (Nat × Bytes)), m[i]? = some g → ∃ v, Executed N g.before g.blk g.acc (g.after (world N)) Rs v) ∧
      H.flatten.flatMap Delta.Round.reports = (m.map Stf.Stage.acc).flatten := by
    intro m
    induction m with
    | nil => intro k _; exact ⟨[], rfl, fun i Rs e => by simp at e, rfl⟩
    | cons g m ih =>
      intro k hk
      obtain ⟨H, i1, i2, i3⟩ := ih (k + 1) (by rw [← List.drop_drop, hk]; rfl)
      obtain ⟨Rs, hRs⟩ := ex k
      have hg : l[k]? = some g := by
        have := congrArg (fun x => x[0]?) hk
        simpa using this
      obtain ⟨v, E⟩ := hRs g hg
      refine ⟨Rs :: H, by simp [i1], ?_, ?_⟩
      · intro i Rs' hi g' hg'
        cases i with
        | zero => simp at hi hg'; subst hi; subst hg'; exact ⟨v, E⟩
        | succ i => exact i2 i Rs' (by simpa using hi) g' (by simpa using hg')
      · rw [List.flatten_cons, List.flatMap_append, E.reports, i3]; rfl
  obtain ⟨H, i1, i2, i3⟩ := key l 0 rfl
  refine ⟨H, by rw [i1, ← e1, List.length_map], fun i Rs hi => ?_, ?_, ?_⟩
  · have hlt : i < l.length := i1 ▸ (List.getElem?_eq_some_iff.1 hi).1
    have hgi := List.getElem?_eq_getElem hlt
    obtain ⟨k1, k2, k3⟩ := Stf.reached_before hl e1 hgi
    obtain ⟨v, E⟩ := i2 i Rs hi _ hgi
    exact ⟨_, _, _, _, v, ⟨by rw [k1]; rfl, by rw [← e2, List.getElem?_map, hgi]; rfl, k2, k3⟩, E⟩
  · rw [i3, e2]
    exact (List.nodup_append.1 (Stf.C69_once h hg hN.epoch hN.hist h0 hd ha)).2.1
  · rw [i3, e2]
    exact Stf.C69_dependencies_first h hg hN.epoch h0

example : ∃ H : List (List Delta.Round), H.length = 5 ∧ ((H.flatten.flatMap Delta.Round.reports).map Acc.Report.pkg).Nodup := by
  obtain ⟨H, h1, _, h3, _⟩ := C72_once Ex.coherent Ex.ran Ex.genesis Ex.positive Ex.headers Ex.fixed
  exact ⟨H, h1, h3⟩

/-- **C72**: who can be a validator. Every key in one of the sets of validators at the end of a chain is the null key,
or was in one of the sets at the start, or was staged by the service that was the designate service in that round; a
key staged on the way is not among the pending ones before the next epoch, not active before the one after it and not
among the previous ones before the third. -/
theorem C72_validators {bs : Blocks σ η} {s s' : State η ρ} {accs : List (List Acc.Report)} (hK : N.K.total < 2 ^ 64) (h : run N bs s = .ok (s', accs)) (k : VKey Nat)
    (hz : k ≠ N.C.zero) (hk : k ∉ s.staging ∧ k ∉ s.saf.pending ∧ k ∉ s.active ∧ k ∉ s.past) :
    (k ∈ s'.staging → StagedAgo N s bs accs k 0) ∧ (k ∈ s'.saf.pending → StagedAgo N s bs accs k 1) ∧
    (k ∈ s'.active → StagedAgo N s bs accs k 2) ∧ (k ∈ s'.past → StagedAgo N s bs accs k 3) := by
  obtain ⟨l, hl, e1, e2⟩ := Stf.run_stages.1 h
  have R := sets_run hK (K := fun x => x = N.C.zero ∨ x ∈ s.staging ∨ x ∈ s.saf.pending ∨ x ∈ s.active ∨ x ∈ s.past) (.inl rfl) (s := s)
    ⟨fun k h => .inl (.inr (.inl h)), fun k h => .inl (.inr (.inr (.inl h))), fun k h => .inl (.inr (.inr (.inr (.inl h)))), fun k h => .inl (.inr (.inr (.inr (.inr h))))⟩ _ rfl hl
  have up : ∀ {n}, ((k = N.C.zero ∨ k ∈ s.staging ∨ k ∈ s.saf.pending ∨ k ∈ s.active ∨ k ∈ s.past) ∨ Since N l k n) → StagedAgo N s bs accs k n := by
    intro n c
    rcases c with c | ⟨i, g, hi, hs, hn⟩
    · rcases c with c | c | c | c | c
      · exact absurd c hz
      · exact absurd c hk.1
      · exact absurd c hk.2.1
      · exact absurd c hk.2.2.1
      · exact absurd c hk.2.2.2
    · obtain ⟨k1, k2, k3⟩ := Stf.reached_before hl e1 hi
      refine ⟨i, _, _, _, _, ⟨by rw [k1]; rfl, by rw [← e2, List.getElem?_map, hi]; rfl, k2, k3⟩, hs, ?_⟩
      rw [← e1, ← List.map_drop, List.map_map]
      exact hn
  exact ⟨fun h => up (R.staging k h), fun h => up (R.pending k h), fun h => up (R.active k h), fun h => up (R.past k h)⟩

example : ∃ k ∈ Ex.final.1.active, StagedAgo Ex.N Ex.s0 Ex.bs Ex.final.2 k 2 := by
  have h : ∃ k ∈ Ex.final.1.active, k ≠ Ex.N.C.zero ∧ k ∉ Ex.s0.staging ∧ k ∉ Ex.s0.saf.pending ∧ k ∉ Ex.s0.active ∧ k ∉ Ex.s0.past := by decide +kernel
  obtain ⟨k, h1, h2, h3⟩ := h
  exact ⟨k, h1, (C72_validators (by decide) Ex.ran k h2 h3).2.2.1 h1⟩

/-- **C72**: who can authorize work. Every authorizer in the queue or the pool of a core at the end of a chain was in
its queue or pool at the start, or was put into the queue by the service that was the core's assigner in that round. -/
theorem C72_authorizers {bs : Blocks σ η} {s s' : State η ρ} {accs : List (List Acc.Report)} (hK : N.K.total < 2 ^ 64) (h : run N bs s = .ok (s', accs))
    (hn : ∀ y, N.num (N.oct (N.num y)) = N.num y) (hs : ∀ q ∈ s.queues ++ s.pools, ∀ x ∈ q, N.num (N.oct x) = x) {c x : Nat} {q : List Nat}
    (hq : s'.queues[c]? = some q ∨ s'.pools[c]? = some q) (hx : x ∈ q) :
    (∃ p, (s.queues[c]? = some p ∨ s.pools[c]? = some p) ∧ x ∈ p) ∨ ∃ i t b acc t', At N s bs accs i t b acc t' ∧ Assigned N t b acc t' c x := by
  obtain ⟨l, hl, e1, e2⟩ := Stf.run_stages.1 h
  have R := auth_run hK hn (K := fun c x => ∃ p, (s.queues[c]? = some p ∨ s.pools[c]? = some p) ∧ x ∈ p)
    (fun c y ⟨p, hp, hy⟩ => ⟨p, hp, by
      rw [hs p (hp.elim (fun k => List.mem_append_left _ (List.mem_of_getElem? k)) (fun k => List.mem_append_right _ (List.mem_of_getElem? k))) y hy]; exact hy⟩)
    (s := s) ⟨fun c q x k1 k2 => .inl ⟨q, .inl k1, k2⟩, fun c q x k1 k2 => .inl ⟨q, .inr k1, k2⟩⟩ _ rfl hl
  have up : ((∃ p, (s.queues[c]? = some p ∨ s.pools[c]? = some p) ∧ x ∈ p) ∨ ∃ g ∈ l, QueuedIn N g c x) →
      (∃ p, (s.queues[c]? = some p ∨ s.pools[c]? = some p) ∧ x ∈ p) ∨ ∃ i t b acc t', At N s bs accs i t b acc t' ∧ Assigned N t b acc t' c x := by
    rintro (c | ⟨g, hg, k⟩)
    · exact .inl c
    · obtain ⟨i, hi⟩ := List.mem_iff_getElem?.1 hg
      obtain ⟨k1, k2, k3⟩ := Stf.reached_before hl e1 hi
      exact .inr ⟨i, _, _, _, _, ⟨by rw [k1]; rfl, by rw [← e2, List.getElem?_map, hi]; rfl, k2, k3⟩, k⟩
  exact up (hq.elim (fun k => R.queues c q x k hx) (fun k => R.pools c q x k hx))

example : ∃ i t b acc t', At Ex.NQ Ex.s0 Ex.bsQ Ex.finalQ.2 i t b acc t' ∧ Assigned Ex.NQ t b acc t' 1 0 := by
  have hp : Ex.finalQ.1.pools[1]? = some [0, 0] := by decide +kernel
  have hn : ∀ y, Ex.NQ.num (Ex.NQ.oct (Ex.NQ.num y)) = Ex.NQ.num y := fun y => by
    show (UInt8.ofNat (y.getLastD 0).toNat).toNat = (y.getLastD 0).toNat
    simp
  rcases C72_authorizers (c := 1) (x := 0) (q := [0, 0]) (by decide) Ex.ranQ hn (by decide) (.inr hp) (by decide) with ⟨p, h1, h2⟩ | h
  · exfalso
    rcases h1 with h1 | h1
    · have e : Ex.s0.queues[1]? = some [30, 30] := rfl
      rw [e] at h1; cases h1; revert h2; decide
    · have e : Ex.s0.pools[1]? = some [30, 31] := rfl
      rw [e] at h1; cases h1; revert h2; decide
  · exact h

end Fastroll.Node
