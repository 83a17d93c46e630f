import Verif.Node.Props
import Verif.Abort.LemmasLocal

/-! # Properties of what accounts keep along a chain (C74) -/
namespace Fastroll.Node
open Fastroll.Svc (Global Boxes PState Held SlotsOk Hashed Env view inFlight)
open Fastroll.Abort (Local SlotsAt HashAt slots_local hash_local)
variable {σ η ρ : Type} {N : Par σ η ρ}

theorem chain_local {E : Env → Prop} {Q : Global → Nat → Prop} (L : Local E Q) {W : Delta.World} {D : Nat → Prop} (hb : E W.base) (he : ∀ s ts rs, E (W.env s ts rs))
    (hg : Delta.Healthy W.g) (hD : ∀ s, W.g.metas s = none → D s) (hq : ∀ s, Q W.g s) : ∀ {Rs : List Delta.Round} {u v : PState Boxes} {ts : List Svc.Transfer} {n0 : Nat},
    Delta.Chain u ts Rs v → (∀ R ∈ Rs, R.Faithful W) → (∀ R ∈ Rs, R.Careful W D) → (∀ R ∈ Rs, ∀ r ∈ R.results, D r.host) →
    Delta.Fit W.g D u.boxes → Held (view W.g u.boxes) n0 → n0 + inFlight ts < Svc.U64 → (∀ s, Q (view W.g u.boxes) s) →
    Delta.Fit W.g D v.boxes ∧ ∀ s, Q (view W.g v.boxes) s
  | [], _, _, _, _, h, _, _, _, F, _, _, k => ⟨h.1 ▸ F, h.1 ▸ k⟩
  | R :: Rs, u, v, ts, n0, h, Fa, C, hr, F, H, hn, k => by
    obtain ⟨h1, h2, h3⟩ := h
    subst h1 h2
    have m := List.mem_cons_self (a := R) (l := Rs)
    obtain ⟨k1, k2⟩ := Delta.round_ok hg hD (hr R m) (Fa R m) (C R m) F H (by omega)
    obtain ⟨n1, l1, l2⟩ := k1.tokens (Fa R m) H
    have k' := L.round hb he hg hD (hr R m) (Fa R m) (C R m) F H (by omega) hq k
    exact chain_local L hb he hg hD hq h3 (fun R hR => Fa R (List.mem_cons_of_mem _ hR)) (fun R hR => C R (List.mem_cons_of_mem _ hR))
      (fun R hR => hr R (List.mem_cons_of_mem _ hR)) k2 l1 (by omega) k'

/-- What the rounds of a block write back keeps a local property. -/
theorem stage_local {E : Env → Prop} {Q : Global → Nat → Prop} (L : Local E Q) {s : State η ρ} {b : Blk σ η} {Rs : List Delta.Round} {v : PState Boxes} {a : Global} {n0 : Nat}
    (he : ∀ f, E { par := N.par, slot := b.slot, hash := N.blake, fetch := f }) (hg : Delta.Healthy s.world.accounts) (h0 : Held s.world.accounts n0) (hn : n0 < 2 ^ 64)
    (hF : ∀ R ∈ Rs, R.Faithful (World N s b)) (hc : Delta.Chain (opened N s) [] Rs v) (hC : ∀ R ∈ Rs, R.Careful (World N s b) (Delta.Busy s.world.accounts Rs))
    (hw : Delta.WrittenBack s.world.accounts v.boxes a) (hq : ∀ x, Q s.world.accounts x) : ∀ x, Q a x := by
  obtain ⟨F, k⟩ := chain_local L (W := World N s b) (D := Delta.Busy s.world.accounts Rs) (he _) (fun _ _ _ => he _) hg (fun _ => .inl) hq hc hF hC
    (fun R hR r hr => .inr ⟨R, hR, List.mem_map.2 ⟨r, hr, rfl⟩⟩) (Delta.fit_start hg) (n0 := n0) h0 (by have : inFlight [] = 0 := rfl; rw [this]; exact hn) hq
  have e : view s.world.accounts v.boxes = a := (writeBack_eq F.written).symm.trans (writeBack_eq hw)
  rw [← e]; exact k

theorem stage_kept {g : Stf.Stage σ η ρ Realm (List (Nat × Bytes))} (hK : N.K.total < 2 ^ 64) (h : g.Ok (world N)) {n0 : Nat}
    (hg : Delta.Healthy g.before.world.accounts) (h0 : Held g.before.world.accounts n0) (hn : n0 < 2 ^ 64) (hc : Calm N g.before g.blk)
    (hs : g.before.slot ≤ g.blk.slot) :
    (Hashed N.blake g.before.world.accounts → Hashed N.blake (g.after (world N)).world.accounts) ∧
    (g.before.world.accounts.SlotsOk g.before.slot → (g.after (world N)).world.accounts.SlotsOk g.blk.slot) := by
  obtain ⟨Rs, v, a, E, A, C, _, _, _⟩ := stage_leaves hK h hg h0 hn hc
  constructor
  · intro hq x k d hd
    have L := stage_local (hash_local N.blake) (fun _ => rfl) hg h0 hn E.faithful E.chain C A.written (Q := HashAt N.blake) (fun x k d hd => hq x k d hd)
    rcases A.preimages x k d hd with c | ⟨_, c, _⟩
    · exact L x k d c
    · exact c.symm
  · intro hq x k ts ht
    have L := stage_local (slots_local g.blk.slot) (fun _ => rfl) hg h0 hn E.faithful E.chain C A.written (Q := SlotsAt g.blk.slot)
      (fun x k ts ht => by obtain ⟨c1, c2, c3⟩ := hq x k ts ht; exact ⟨c1, c2, fun t h => Nat.le_trans (c3 t h) hs⟩)
    rcases A.lookups x k with c | ⟨_, c, _⟩
    · exact L x k ts (c ▸ ht)
    · rw [c] at ht; cases ht
      exact ⟨by simp, by simp, by simp⟩

theorem kept_run {n0 : Nat} (hK : N.K.total < 2 ^ 64) (hn : n0 < 2 ^ 64) :
    ∀ {l : List (Stf.Stage σ η ρ Realm (List (Nat × Bytes)))} {s s' : State η ρ} {m : Nat}, Stf.Linked (world N) s l s' →
      (∀ g ∈ l, Delta.Healthy g.before.world.accounts → Calm N g.before g.blk) → Delta.Healthy s.world.accounts → Held s.world.accounts m → m ≤ n0 →
      (Hashed N.blake s.world.accounts → Hashed N.blake s'.world.accounts) ∧ (s.world.accounts.SlotsOk s.slot → s'.world.accounts.SlotsOk s'.slot)
  | [], s, s', m, h, _, _, _, _ => by unfold Stf.Linked at h; subst h; exact ⟨id, id⟩
  | g :: l, s, s', m, h, hc, hg, h0, hm => by
    obtain ⟨e, hok, h⟩ := h
    subst e
    have hs : g.before.slot ≤ g.blk.slot := by
      rcases hok.pre.slot with k | k
      · rw [k.1]; exact Nat.zero_le _
      · exact Nat.le_of_lt k
    have C := hc g (List.mem_cons_self ..) hg
    obtain ⟨k1, k2⟩ := stage_kept hK hok hg h0 (by omega) C hs
    obtain ⟨lost, hL⟩ := lives_run hK hg h0 (by omega) (l := [g]) (s := g.before) (s' := g.after (world N)) ⟨rfl, hok, rfl⟩ (fun g' hg' _ => by rw [List.mem_singleton.1 hg']; exact C) .start
    obtain ⟨hg', m', h0', hm'⟩ := Delta.C71_history hg h0 (by omega) hL
    obtain ⟨i1, i2⟩ := kept_run hK hn h (fun g hg => hc g (List.mem_cons_of_mem _ hg)) hg' h0' (by omega)
    exact ⟨fun q => i1 (k1 q), fun q => i2 (by rw [Stf.Stage.after_slot hok]; exact k2 q)⟩

/-! ## A concrete chain -/

namespace ExK
open Fastroll.Svc Fastroll.Delta

/-- The services of `Ex`, all three of which also ask for the preimage `[9]`. -/
def g : Global where
  metas := fun s => if s = 1 ∨ s = 5 ∨ s = 6 then some { ExM.metaN s with items := 4, octets := 164 } else none
  storage := fun _ _ => none
  preimages := fun s h => if (s = 1 ∨ s = 5 ∨ s = 6) ∧ h = ExM.codeHash s then some [UInt8.ofNat s] else none
  lookups := fun s k => if s = 1 ∨ s = 5 ∨ s = 6 then (if k = (ExM.codeHash s, 1) then some [0] else if k = (ExM.codeHash 9, 1) then some [] else none) else none

theorem usage (s : Nat) (h : s = 1 ∨ s = 5 ∨ s = 6) : Usage g s 4 164 := by
  have n : ExM.codeHash s ≠ ExM.codeHash 9 := by rcases h with rfl | rfl | rfl <;> decide
  refine ⟨[], [(ExM.codeHash s, 1), (ExM.codeHash 9, 1)], ⟨by decide, fun k => by simp [g]⟩, ⟨by simp [n], fun k => ?_⟩, by simp, ?_⟩
  · by_cases c : k = (ExM.codeHash s, 1)
    · simp [g, h, c]
    · by_cases c' : k = (ExM.codeHash 9, 1)
      · rw [c']; simp [g, h, Ne.symm n]
      · simp [g, h, c, c']
  · simp [total, wt, g, h, lookWeight, Ne.symm n]

theorem sound : g.Sound := by
  refine ⟨?_, ?_, ?_⟩
  · intro s h
    have c : ¬ (s = 1 ∨ s = 5 ∨ s = 6) := fun c => by simp [g, c] at h
    exact ⟨fun k => rfl, fun k => if_neg fun e => c e.1, fun k => if_neg c⟩
  · intro s m hm
    by_cases c : s = 1 ∨ s = 5 ∨ s = 6
    · simp only [g, if_pos c, Option.some.injEq] at hm
      subst hm; exact usage s c
    · simp [g, c] at hm
  · intro s h d hd
    by_cases c : (s = 1 ∨ s = 5 ∨ s = 6) ∧ h = ExM.codeHash s
    · refine ⟨1, ?_⟩
      simp only [g]
      rw [if_pos c.1, if_pos (by rw [c.2])]; rfl
    · simp [g, c] at hd

theorem meta_of {s : Nat} {m : Meta} (h : g.metas s = some m) : (s = 1 ∨ s = 5 ∨ s = 6) ∧ m.items = 4 ∧ m.octets = 164 ∧ m.balance = 10000 := by
  by_cases c : s = 1 ∨ s = 5 ∨ s = 6
  · simp only [g, if_pos c, Option.some.injEq] at h
    subst h; exact ⟨c, rfl, rfl, rfl⟩
  · simp [g, c] at h

theorem healthy : Healthy g := by
  refine ⟨sound, Svc.Ex.inRange_of sound fun s m hm => ?_, fun s m hm => ?_⟩
  · obtain ⟨_, h1, h2, _⟩ := meta_of hm
    rw [h1, h2]; decide
  · obtain ⟨c, h1, h2, h3⟩ := meta_of hm
    exact ⟨4, 164, usage s c, by rw [h3]; exact Nat.le_trans (by decide) (Nat.le_add_right ..)⟩

theorem held : Held g 30000 := by
  refine ⟨[1, 5, 6], ⟨by decide, fun k => ?_⟩, by decide⟩
  by_cases c : k = 1 ∨ k = 5 ∨ k = 6 <;> simp [g, c]

/-- The chain of `Ex`; the hash of one octet is 32 copies of it. -/
def NK : Par Nat Nat (List Nat) := { Ex.N with blake := fun b => List.replicate 32 (if b.length = 1 then b.headD 0 else 7) }

def s0 : State Nat (List Nat) := { Ex.s0 with world := ⟨g, Ex.realm.χ⟩ }

theorem hashed : Hashed NK.blake g := by
  intro s h d hd
  by_cases c : (s = 1 ∨ s = 5 ∨ s = 6) ∧ h = ExM.codeHash s
  · simp only [g, if_pos c, Option.some.injEq] at hd
    rw [← hd, c.2]; rfl
  · simp [g, c] at hd

theorem slots : g.SlotsOk 0 := by
  intro s k ts h
  have : ts = [0] ∨ ts = [] := by
    simp only [g] at h
    split at h
    · split at h
      · cases h; exact .inl rfl
      · split at h
        · cases h; exact .inr rfl
        · cases h
    · cases h
  rcases this with rfl | rfl <;> unfold Svc.SlotsOk <;> decide

/-- The chain of `Ex`; its third block brings the preimage for service 6. -/
def bs : Blocks Nat Nat := [Ex.b1, Ex.b2, { Ex.b3 with preimages := [(6, [9])] }, Ex.b4, Ex.b5].map fun b => (none, b)

def final : State Nat (List Nat) × List (List Acc.Report) := match run NK bs s0 with | .ok x => x | .error _ => (s0, [])
theorem isOk : (match run NK bs s0 with | .ok _ => true | .error _ => false) = true := by decide +kernel
theorem ran : run NK bs s0 = .ok final := by
  have h := isOk
  unfold final
  split
  · assumption
  · rename_i e; rw [e] at h; cases h
theorem kept : [5, 6].map (fun s => (final.1.world.accounts.preimages s (ExM.codeHash 9), final.1.world.accounts.lookups s (ExM.codeHash 9, 1))) =
    [(none, some []), (some [9], some [3])] ∧ final.1.slot = 12 := by decide +kernel

attribute [irreducible] final
end ExK

/-! ## The properties -/

/-- **C74**: along any chain of accepted blocks whose programs are careful, whatever is executed and whatever
preimages the blocks bring, every stored preimage lies under its hash. -/
theorem C74_hashed {bs : Blocks σ η} {s s' : State η ρ} {accs : List (List Acc.Report)} {n0 : Nat} (hK : N.K.total < 2 ^ 64)
    (h : run N bs s = .ok (s', accs)) (hg : Delta.Healthy s.world.accounts) (h0 : Held s.world.accounts n0) (hn : n0 < 2 ^ 64)
    (ht : ∀ i t b, Stf.Spec.Reached (world N) s bs i t → bs[i]? = some b → Tame N t b.2) (hq : Hashed N.blake s.world.accounts) :
    Hashed N.blake s'.world.accounts := by
  obtain ⟨l, hl, e1, _⟩ := Stf.run_stages.1 h
  exact (kept_run hK hn hl (fun g hg' _ => by
    obtain ⟨i, hi⟩ := List.mem_iff_getElem?.1 hg'
    obtain ⟨k1, k2, _⟩ := Stf.reached_before hl e1 hi
    exact (ht i _ _ k2 k1).calm) hg h0 (Nat.le_refl _)).1 hq

/-- **C74**: along such a chain the history of every request holds at most three slots, in order, none later than the
slot of the state. -/
theorem C74_slots {bs : Blocks σ η} {s s' : State η ρ} {accs : List (List Acc.Report)} {n0 : Nat} (hK : N.K.total < 2 ^ 64)
    (h : run N bs s = .ok (s', accs)) (hg : Delta.Healthy s.world.accounts) (h0 : Held s.world.accounts n0) (hn : n0 < 2 ^ 64)
    (ht : ∀ i t b, Stf.Spec.Reached (world N) s bs i t → bs[i]? = some b → Tame N t b.2) (hq : s.world.accounts.SlotsOk s.slot) :
    s'.world.accounts.SlotsOk s'.slot := by
  obtain ⟨l, hl, e1, _⟩ := Stf.run_stages.1 h
  exact (kept_run hK hn hl (fun g hg' _ => by
    obtain ⟨i, hi⟩ := List.mem_iff_getElem?.1 hg'
    obtain ⟨k1, k2, _⟩ := Stf.reached_before hl e1 hi
    exact (ht i _ _ k2 k1).calm) hg h0 (Nat.le_refl _)).2 hq

theorem ExK.tame : ∀ i t b, Stf.Spec.Reached (world ExK.NK) ExK.s0 ExK.bs i t → ExK.bs[i]? = some b → Tame ExK.NK t b.2 := fun i t b ⟨_, ht⟩ _ => by
  obtain ⟨lost, _, h1, n, h2, h3⟩ := C72_modest (N := ExK.NK) (by decide) ht ExK.healthy ExK.held (by decide) Ex.modest
  exact (modest_calm (N := ExK.NK) Ex.modest h1).tame h1 h2 (by omega)

example : Hashed ExK.NK.blake ExK.final.1.world.accounts ∧ ExK.final.1.world.accounts.preimages 6 (Svc.ExM.codeHash 9) = some [9] :=
  ⟨C74_hashed (by decide) ExK.ran ExK.healthy ExK.held (by decide) ExK.tame ExK.hashed, by have := ExK.kept; simp at this; exact this.1.2.1⟩

example : ExK.final.1.world.accounts.SlotsOk 12 ∧ ExK.final.1.world.accounts.lookups 6 (Svc.ExM.codeHash 9, 1) = some [3] :=
  ⟨by have := C74_slots (by decide) ExK.ran ExK.healthy ExK.held (by decide) ExK.tame ExK.slots; rwa [ExK.kept.2] at this,
   by have := ExK.kept; simp at this; exact this.1.2.2⟩

/-- **C74**: if all programs are modest, both hold without watching the runs. -/
theorem C74_modest {bs : Blocks σ η} {s s' : State η ρ} {accs : List (List Acc.Report)} {n0 : Nat} (hK : N.K.total < 2 ^ 64)
    (h : run N bs s = .ok (s', accs)) (hg : Delta.Healthy s.world.accounts) (h0 : Held s.world.accounts n0) (hn : n0 < 2 ^ 64)
    (hM : ∀ code p init, N.mach.load code = some (p, init) → Delta.Modest p) (hq : Hashed N.blake s.world.accounts) (hs : s.world.accounts.SlotsOk s.slot) :
    Hashed N.blake s'.world.accounts ∧ s'.world.accounts.SlotsOk s'.slot := by
  obtain ⟨l, hl, e1, _⟩ := Stf.run_stages.1 h
  have k := kept_run hK hn hl (fun g _ H => modest_calm hM H) hg h0 (Nat.le_refl _)
  exact ⟨k.1 hq, k.2 hs⟩

example : Hashed ExK.NK.blake ExK.final.1.world.accounts ∧ ExK.final.1.world.accounts.SlotsOk ExK.final.1.slot :=
  C74_modest (by decide) ExK.ran ExK.healthy ExK.held (by decide) Ex.modest ExK.hashed ExK.slots

/-- **C74**: the work of every guarantee of an accepted block is for a service that exists, names the code hash in its
account, and comes with at least the gas the service asks for. -/
theorem C74_guaranteed {anc : Option (Nat → Nat → Bool)} {s s' : State η ρ} {b : Blk σ η} {acc : List Acc.Report} (hm : N.P.maxGas < 2 ^ 64 - 1)
    (h : Stf.block (world N) anc s b = .ok (s', acc)) {g : Reports.Guarantee σ} (hg : g ∈ b.guarantees) :
    ∀ d ∈ g.report.digests, ∃ m, s.world.accounts.metas d.service = some m ∧ N.num m.codeHash = d.code ∧ m.gasAcc ≤ d.gas := by
  intro d hd
  obtain ⟨_, _, _, _, k⟩ := Stf.C69_new_work h hm hg
  obtain ⟨mg, k1, k2⟩ := k d hd
  change service N s.world d.service = some (d.code, mg) at k1
  unfold service at k1
  obtain ⟨m, e1, e2⟩ := Option.map_eq_some_iff.1 k1
  injection e2 with e2 e3
  exact ⟨m, e1, e2, e3 ▸ k2⟩

/-- The second block of `Ex`. -/
def ExK.second : State Nat (List Nat) × List Acc.Report := match Stf.block (world Ex.N) none (Ex.at' 1) Ex.b2 with | .ok x => x | .error _ => (Ex.s0, [])
theorem ExK.secondRan : Stf.block (world Ex.N) none (Ex.at' 1) Ex.b2 = .ok ExK.second := by
  have h : (match Stf.block (world Ex.N) none (Ex.at' 1) Ex.b2 with | .ok _ => true | .error _ => false) = true := by decide +kernel
  unfold ExK.second
  split
  · assumption
  · rename_i e; rw [e] at h; cases h

theorem ExK.maxGas : Ex.N.P.maxGas < 2 ^ 64 - 1 := by decide
attribute [irreducible] ExK.second
attribute [local irreducible] Ex.at' Ex.N Svc.ExM.codeHash

example : ∃ m, (Ex.at' 1).world.accounts.metas 5 = some m ∧ Ex.N.num m.codeHash = Ex.N.num (Svc.ExM.codeHash 5) ∧ m.gasAcc ≤ 500 := by
  have hg : (⟨Ex.r1, 1, [⟨0, 10⟩, ⟨4, 14⟩]⟩ : Reports.Guarantee Nat) ∈ Ex.b2.guarantees := by unfold Ex.b2; exact List.mem_cons_self
  have k := C74_guaranteed (N := Ex.N) ExK.maxGas ExK.secondRan hg
  have hd : (⟨5, Ex.N.num (Svc.ExM.codeHash 5), 500, 10⟩ : Reports.Digest) ∈ Ex.r1.digests := by unfold Ex.r1; exact List.mem_cons_self
  exact k _ hd

end Fastroll.Node
