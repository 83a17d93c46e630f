import Verif.Node.Lemmas
import Verif.Stf.Props
import Verif.Delta.PropsAcct

/-! # Lemmas: chains whose blocks execute services -/
namespace Fastroll.Node
open Fastroll.Pvm Fastroll.Svc
open Fastroll.Safrole (VKey)
variable {β : Type} {S : Store β} {env : Env} {P : Params}

/-! ## Staged sets, whatever the privileges are -/

def Staged (P : Params) (p : PState β) : Prop := ∀ l, p.staging = some l → l.length = P.validators

theorem staged_fn (hP : env.par = P) {h : Nat} {f : HostFn β} (hf : accFn S h = some f) (vm : VM) {x : Ctx β} (hx : Staged P x.p) : Staged P (f env vm x).2.p := by
  by_cases c : h = 14
  · subst c; cases hf
    unfold hostBless
    repeat' (first | exact hx | split | (dsimp only; split))
  by_cases c' : h = 15
  · subst c'; cases hf
    unfold hostAssign
    repeat' (first | exact hx | split | (dsimp only; split))
  by_cases c'' : h = 16
  · subst c''; cases hf
    unfold hostDesignate
    repeat' (first | exact hx | split | (dsimp only; split))
    all_goals first | exact hx | skip
    intro l e
    cases e
    rw [chunks_length, hP]
  rw [only_fn hf c c' c'' vm x]; exact hx

theorem staged_calls (hP : env.par = P) {cs : List (Nat × VM)} {q q' : Pair β} (h : runCalls (accHost S env) cs q = some q')
    (hx : Staged P q.x.p) (hy : Staged P q.y.p) : Staged P q'.x.p ∧ Staged P q'.y.p := by
  refine runCalls_inv (P := fun _ => True) (I := fun q => Staged P q.x.p ∧ Staged P q.y.p) ?_ cs q ⟨hx, hy⟩ (fun _ _ _ _ => trivial) q' h
  intro c s s' r I _ _ hc
  rcases accHost_cases S env c.1 c.2 s with e | ⟨_, e⟩ | ⟨f, e1, e2⟩
  · rw [hc] at e; simp only at e; rw [e]; exact I
  · rw [hc] at e; simp only at e; rw [e]; exact ⟨I.1, I.1⟩
  · rw [hc] at e2
    injection e2 with _ e2
    rw [e2]
    exact ⟨staged_fn hP e1 c.2 I.1, I.2⟩

theorem staged_accumulate {g : Global} {mach : Machine} {p : PState Boxes} {a : AccArgs} {r : AccResult} (hP : env.par = P)
    (h : Svc.accumulate g env mach p a = .ok (some r)) (hp : Staged P p) : Staged P r.p := by
  rcases accumulate_cases h with ⟨bs, e⟩ | ⟨bs, id, prog, init, out, used, q', e1, e2⟩
  · subst e; exact hp
  · obtain ⟨cs, hcs⟩ := invoke_trace e1
    have k := staged_calls hP hcs hp hp
    subst e2
    cases out <;> first | exact k.1 | exact k.2

theorem chain_staging {W : Delta.World} : ∀ {Rs : List Delta.Round} {u : PState Boxes} {ts v}, Delta.Chain u ts Rs v → Settled u → (∀ R ∈ Rs, R.Faithful W) →
    v.staging = u.staging ∨ ∃ l, v.staging = l ∧ ∃ R ∈ Rs, ∃ r ∈ R.results, r.host = R.start.designate.confirmed ∧ r.p.staging = l
  | [], _, _, _, h, _, _ => .inl (by rw [h.1])
  | R :: Rs, u, ts, v, h, hs, F => by
    obtain ⟨h1, _, h3⟩ := h
    have F1 := F R (List.mem_cons_self ..)
    rcases chain_staging h3 F1.settles (fun R hR => F R (List.mem_cons_of_mem _ hR)) with e | ⟨l, e, R', hR', k⟩
    · rcases (F1.authorised (h1 ▸ hs)).staging with e' | ⟨r, hr, e1, e2⟩
      · left; rw [e, e', h1]
      · right; exact ⟨_, e, R, List.mem_cons_self .., r, hr, e1, e2.symm⟩
    · right; exact ⟨l, e, R', List.mem_cons_of_mem _ hR', k⟩

theorem chain_staged {W : Delta.World} (hP : ∀ s ts rs, (W.env s ts rs).par = P) : ∀ {Rs : List Delta.Round} {u : PState Boxes} {ts v}, Delta.Chain u ts Rs v → Settled u →
    (∀ R ∈ Rs, R.Faithful W) → Staged P u → Staged P v
  | [], _, _, _, h, _, _, hu => h.1 ▸ hu
  | R :: Rs, u, ts, v, h, hs, F, hu => by
    obtain ⟨h1, _, h3⟩ := h
    have F1 := F R (List.mem_cons_self ..)
    refine chain_staged hP h3 F1.settles (fun R hR => F R (List.mem_cons_of_mem _ hR)) ?_
    intro l hl
    rcases (F1.authorised (h1 ▸ hs)).staging with e' | ⟨r, hr, e1, e2⟩
    · exact hu l (by rw [← h1, ← e', hl])
    · exact staged_accumulate (hP _ _ _) (F1.run r hr).2 (h1 ▸ hu) l (by rw [← e2, hl])

theorem settled_start (χ : Delta.Chi) (q : List (List Bytes)) : Settled (Delta.start χ q) := ⟨⟨rfl, rfl⟩, ⟨rfl, rfl⟩, ⟨rfl, rfl⟩⟩

variable {σ η ρ : Type} {N : Par σ η ρ}

/-- What the execution of services has to respect, it does. -/
theorem sound (hN : Coherent N) : Stf.Spec.Sound (world N) where
  epoch := hN.epoch
  validators := hN.validators
  same := hN.same.1
  hist := hN.hist
  pool := hN.pool
  staged := fun i o l h hl => by
    obtain ⟨Rs, v, h1, h2, _, _, _, _, _, h8, _⟩ := accumulate_trace hN.gas h
    rw [h8] at hl
    obtain ⟨l', e1, e2⟩ := Option.map_eq_some_iff.1 hl
    rw [← e2, List.length_map]
    exact (chain_staged (P := N.par) (fun _ _ _ => rfl) h2 (settled_start _ _) h1 (fun l e => by cases e) l' e1).trans hN.same.2
  count := fun i o h => by
    obtain ⟨_, _, _, _, _, _, h5, _⟩ := accumulate_trace hN.gas h
    exact h5
  cores := hN.cores
  full := hN.full

/-! ## The accounts -/

/-- The block `b` on top of `s` is careful as long as its sandboxes are consistent. -/
def Calm (N : Par σ η ρ) (s : State η ρ) (b : Blk σ η) : Prop :=
  ∀ Rs v, (∀ R ∈ Rs, R.Faithful (World N s b)) → Delta.Chain (opened N s) [] Rs v →
    ∀ R ∈ Rs, Delta.Fit s.world.accounts (Delta.Busy s.world.accounts Rs) R.start.boxes → R.Careful (World N s b) (Delta.Busy s.world.accounts Rs)

theorem Tame.calm {s : State η ρ} {b : Blk σ η} (h : Tame N s b) : Calm N s b := fun Rs v F C R hR _ => h Rs v F C R hR

theorem Calm.tame {s : State η ρ} {b : Blk σ η} (h : Calm N s b) (hg : Delta.Healthy s.world.accounts) {n0 : Nat} (h0 : Held s.world.accounts n0) (hn : n0 < 2 ^ 64) : Tame N s b :=
  fun Rs v F C => (Delta.leaves (W := World N s b) hg h0 hn F C (h Rs v F C)).1

theorem modest_calm {s : State η ρ} {b : Blk σ η} (hM : ∀ code p init, N.mach.load code = some (p, init) → Delta.Modest p) (hg : Delta.Healthy s.world.accounts) : Calm N s b :=
  fun _ _ F _ R hR Ft r hr _ _ ho =>
    Delta.opening_careful hM hg.sound.orphans Ft (.inr ⟨R, hR, List.mem_map.2 ⟨r, hr, rfl⟩⟩) ((F R hR).run r hr).2 ho

theorem stage_leaves {g : Stf.Stage σ η ρ Realm (List (Nat × Bytes))} (hK : N.K.total < 2 ^ 64) (h : g.Ok (world N)) {n0 : Nat}
    (hg : Delta.Healthy g.before.world.accounts) (h0 : Held g.before.world.accounts n0) (hn : n0 < 2 ^ 64) (hc : Calm N g.before g.blk) :
    ∃ Rs v a, Executed N g.before g.blk g.acc (g.after (world N)) Rs v ∧ Accounted N g.before g.blk g.acc (g.after (world N)) Rs v a ∧
      (∀ R ∈ Rs, R.Careful (World N g.before g.blk) (Delta.Busy g.before.world.accounts Rs)) ∧ Delta.Healthy a ∧
      (∃ n, Held a n ∧ n + (Rs.map Delta.Round.lost).sum = n0) ∧
      ∃ ids, (g.after (world N)).world.accounts = Svc.integrate (N.base g.blk.slot) g.blk.preimages (Delta.stamp g.blk.slot ids a) := by
  obtain ⟨Rs, v, E, hw, ids, hi, he⟩ := stage_executed hK h
  obtain ⟨k1, a, k2, k3, k4⟩ := Delta.leaves (W := World N g.before g.blk) hg h0 hn E.faithful E.chain (hc Rs v E.faithful E.chain)
  exact ⟨Rs, v, a, E, stage_accounted hw hi he k2, k1, k3, k4, ids, by rw [he]; congr 2; exact writeBack_eq k2⟩

theorem lives_run {g0 : Global} {n0 : Nat} (hK : N.K.total < 2 ^ 64) (hg : Delta.Healthy g0) (h0 : Held g0 n0) (hn : n0 < 2 ^ 64) :
    ∀ {l : List (Stf.Stage σ η ρ Realm (List (Nat × Bytes)))} {s s' : State η ρ}, Stf.Linked (world N) s l s' →
      (∀ g ∈ l, Delta.Healthy g.before.world.accounts → Calm N g.before g.blk) → ∀ {n : Nat}, Delta.Lives g0 n s.world.accounts →
      ∃ n', Delta.Lives g0 n' s'.world.accounts
  | [], s, s', h, _, n, hL => ⟨n, by unfold Stf.Linked at h; rw [← h]; exact hL⟩
  | g :: l, s, s', h, hc, n, hL => by
    obtain ⟨e, hok, h⟩ := h
    subst e
    obtain ⟨ih, m, hm, hm2⟩ := Delta.C71_history hg h0 hn hL
    obtain ⟨Rs, v, a, E, A, C, _, _, ids, ea⟩ := stage_leaves hK hok ih hm (by omega) (hc g (List.mem_cons_self ..) ih)
    refine lives_run hK hg h0 hn h (fun g hg => hc g (List.mem_cons_of_mem _ hg)) (n := n + (Rs.map Delta.Round.lost).sum) ?_
    rw [ea]
    exact .block (W := World N g.before g.blk) hL rfl E.faithful E.chain C A.written

/-! ## Where validators come from -/

/-- In the block of the stage the designate service staged the key. -/
def StagedIn (N : Par σ η ρ) (g : Stf.Stage σ η ρ Realm (List (Nat × Bytes))) (k : VKey Nat) : Prop :=
  Designated N g.before g.blk g.acc (g.after (world N)) k

theorem stage_staging {g : Stf.Stage σ η ρ Realm (List (Nat × Bytes))} (hK : N.K.total < 2 ^ 64) (h : g.Ok (world N)) {k : VKey Nat}
    (hk : k ∈ (g.after (world N)).staging) : k ∈ g.before.staging ∨ StagedIn N g k := by
  obtain ⟨Rs, v, E, _⟩ := stage_executed hK h
  rw [E.staging] at hk
  cases hv : v.staging with
  | none => rw [hv] at hk; exact .inl hk
  | some l =>
    rw [hv] at hk
    obtain ⟨x, hx, e⟩ := List.mem_map.1 (show k ∈ l.map N.key from hk)
    rcases chain_staging E.chain (settled_start _ _) E.faithful with c | ⟨l', c, R, hR, r, hr, e1, e2⟩
    · rw [hv] at c; cases c
    · rw [hv] at c; subst c
      exact .inr ⟨Rs, v, E, R, hR, r, hr, e1, l, e2, x, hx, e.symm⟩

theorem nullify_mem {zero k : VKey Nat} {off : List Nat} {set : List (VKey Nat)} (h : k ∈ Safrole.nullify zero off set) : k = zero ∨ k ∈ set := by
  obtain ⟨v, hv, e⟩ := List.mem_map.1 h
  split at e
  · exact .inl e.symm
  · exact .inr (e ▸ hv)

theorem openings_snoc (E : Nat) (y : Nat) : ∀ (xs : List Nat) (s : Nat), Stf.Spec.openings E s (xs ++ [y]) =
    Stf.Spec.openings E s xs + if (xs.getLastD s) / E < y / E then 1 else 0
  | [], s => by simp [Stf.Spec.openings]
  | x :: xs, s => by
    rw [List.cons_append]
    unfold Stf.Spec.openings
    rw [openings_snoc E y xs x, Nat.add_assoc]
    cases xs <;> rfl

theorem linked_last {W : Stf.World σ η ρ Realm (List (Nat × Bytes))} : ∀ {l : List (Stf.Stage σ η ρ Realm (List (Nat × Bytes)))} {s s' : State η ρ}, Stf.Linked W s l s' →
    s'.slot = (l.map fun g => g.blk.slot).getLastD s.slot
  | [], s, s', h => by unfold Stf.Linked at h; rw [h]; rfl
  | g :: l, s, s', h => by
    obtain ⟨_, hok, h⟩ := h
    rw [linked_last h, Stf.Stage.after_slot hok]
    cases l <;> rfl

/-- The key was staged by the designate service in one of the blocks, followed by at least `n` openings of epochs. -/
def Since (N : Par σ η ρ) (l : List (Stf.Stage σ η ρ Realm (List (Nat × Bytes)))) (k : VKey Nat) (n : Nat) : Prop :=
  ∃ i g, l[i]? = some g ∧ StagedIn N g k ∧ n ≤ Stf.Spec.openings N.S.epoch g.blk.slot ((l.drop (i + 1)).map fun g => g.blk.slot)

theorem Since.mono {l : List (Stf.Stage σ η ρ Realm (List (Nat × Bytes)))} {g : Stf.Stage σ η ρ Realm (List (Nat × Bytes))} {s : State η ρ} (hl : Stf.Linked (world N) s l g.before)
    {k : VKey Nat} {n : Nat} (h : Since N l k n) :
    Since N (l ++ [g]) k (n + if Stf.fresh (world N) g.before g.blk then 1 else 0) := by
  obtain ⟨i, x, hi, hs, hn⟩ := h
  have hlt := (List.getElem?_eq_some_iff.1 hi).1
  refine ⟨i, x, by rw [List.getElem?_append_left hlt]; exact hi, hs, ?_⟩
  rw [List.drop_append_of_le_length (by omega), List.map_append]
  obtain ⟨_, hok, h3⟩ := Stf.linked_at hl hi
  have e := linked_last h3
  rw [Stf.Stage.after_slot hok] at e
  show _ ≤ Stf.Spec.openings N.S.epoch x.blk.slot (_ ++ [g.blk.slot])
  rw [openings_snoc, ← e]
  unfold Stf.fresh
  have e2 : (if decide (g.before.slot / (world N).S.epoch < g.blk.slot / (world N).S.epoch) = true then 1 else 0) = (if g.before.slot / N.S.epoch < g.blk.slot / N.S.epoch then 1 else 0) := by
    by_cases c : g.before.slot / N.S.epoch < g.blk.slot / N.S.epoch
    · rw [if_pos c]; exact if_pos (decide_eq_true c)
    · rw [if_neg c]; exact if_neg fun e => c (of_decide_eq_true e)
  rw [e2]
  exact Nat.add_le_add_right hn _

theorem Since.le {l : List (Stf.Stage σ η ρ Realm (List (Nat × Bytes)))} {k : VKey Nat} {n m : Nat} (h : Since N l k n) (hm : m ≤ n) : Since N l k m := by
  obtain ⟨i, x, hi, hs, hn⟩ := h
  exact ⟨i, x, hi, hs, by omega⟩

/-- The keys of a state that were not there from the start. -/
structure From (N : Par σ η ρ) (K : VKey Nat → Prop) (l : List (Stf.Stage σ η ρ Realm (List (Nat × Bytes)))) (s : State η ρ) : Prop where
  staging : ∀ k ∈ s.staging, K k ∨ Since N l k 0
  pending : ∀ k ∈ s.saf.pending, K k ∨ Since N l k 1
  active : ∀ k ∈ s.active, K k ∨ Since N l k 2
  past : ∀ k ∈ s.past, K k ∨ Since N l k 3

theorem sets_run (hK : N.K.total < 2 ^ 64) {K : VKey Nat → Prop} (hz : K N.C.zero) {s : State η ρ} (hs : From N K [] s) :
    ∀ (n : Nat) {l : List (Stf.Stage σ η ρ Realm (List (Nat × Bytes)))} {s' : State η ρ}, l.length = n → Stf.Linked (world N) s l s' → From N K l s'
  | 0, l, s', e, h => by
    rw [List.length_eq_zero_iff] at e
    subst e
    unfold Stf.Linked at h
    exact h ▸ hs
  | n + 1, l, s', e, h => by
    obtain ⟨l, g, rfl⟩ : ∃ m x, l = m ++ [x] := ⟨l.dropLast, l.getLast (by intro c; rw [c] at e; cases e), (List.dropLast_concat_getLast _).symm⟩
    obtain ⟨h1, hok, e'⟩ := Stf.linked_snoc.1 h
    subst e'
    have ih := sets_run hK hz hs n (by simpa using e) h1
    have up : ∀ {k m}, Since N l k m → Since N (l ++ [g]) k m := fun h => (h.mono h1).le (Nat.le_add_right ..)
    have st : ∀ k ∈ (g.after (world N)).staging, K k ∨ Since N (l ++ [g]) k 0 := by
      intro k hk
      rcases stage_staging hK hok hk with c | c
      · exact (ih.staging k c).imp id up
      · exact .inr ⟨l.length, g, by simp, c, Nat.zero_le _⟩
    obtain ⟨a1, a2⟩ := Stf.Stage.after_sets hok
    cases hf : Stf.fresh (world N) g.before g.blk with
    | false =>
      obtain ⟨b1, b2, b3⟩ := a2 hf
      exact ⟨st, fun k hk => (ih.pending k (b1 ▸ hk)).imp id up, fun k hk => (ih.active k (b2 ▸ hk)).imp id up, fun k hk => (ih.past k (b3 ▸ hk)).imp id up⟩
    | true =>
      obtain ⟨b1, b2, b3⟩ := a1 hf
      have up1 : ∀ {k m}, Since N l k m → Since N (l ++ [g]) k (m + 1) := fun h => by
        have := h.mono h1
        rw [hf] at this
        exact this
      refine ⟨st, fun k hk => ?_, fun k hk => (ih.pending k (b2 ▸ hk)).imp id up1, fun k hk => (ih.active k (b3 ▸ hk)).imp id up1⟩
      rw [b1] at hk
      rcases nullify_mem hk with c | c
      · exact .inl (c ▸ hz)
      · exact (ih.staging k c).imp id up1

/-! ## Where authorizers come from -/

/-- In the block of the stage the assigner of the core put the authorizer into the queue. -/
def QueuedIn (N : Par σ η ρ) (g : Stf.Stage σ η ρ Realm (List (Nat × Bytes))) (c x : Nat) : Prop :=
  Assigned N g.before g.blk g.acc (g.after (world N)) c x

theorem chain_queue {W : Delta.World} (c : Nat) : ∀ {Rs : List Delta.Round} {u : PState Boxes} {ts v}, Delta.Chain u ts Rs v → Settled u → (∀ R ∈ Rs, R.Faithful W) →
    v.authQueue[c]? = u.authQueue[c]? ∨ ∃ R ∈ Rs, ∃ r ∈ R.results, R.start.assign.confirmed[c]? = some r.host ∧ v.authQueue[c]? = r.p.authQueue[c]?
  | [], _, _, _, h, _, _ => .inl (by rw [h.1])
  | R :: Rs, u, ts, v, h, hs, F => by
    obtain ⟨h1, _, h3⟩ := h
    have F1 := F R (List.mem_cons_self ..)
    rcases chain_queue c h3 F1.settles (fun R hR => F R (List.mem_cons_of_mem _ hR)) with e | ⟨R', hR', r, hr, k1, k2⟩
    · rcases (F1.authorised (h1 ▸ hs)).queue c with e' | ⟨r, hr, e1, e2⟩
      · left; rw [e, e', h1]
      · right; exact ⟨R, List.mem_cons_self .., r, hr, e1, e.trans e2⟩
    · right; exact ⟨R', List.mem_cons_of_mem _ hR', r, hr, k1, k2⟩

/-- An authorizer in the queue of a core after the block. -/
theorem stage_queue {g : Stf.Stage σ η ρ Realm (List (Nat × Bytes))} (hK : N.K.total < 2 ^ 64) (h : g.Ok (world N)) {c x : Nat} {q : List Nat}
    (hq : (g.after (world N)).queues[c]? = some q) (hx : x ∈ q) : (∃ q' y, g.before.queues[c]? = some q' ∧ y ∈ q' ∧ x = N.num (N.oct y)) ∨ QueuedIn N g c x := by
  obtain ⟨Rs, v, E, _⟩ := stage_executed hK h
  rw [E.queues, List.getElem?_map] at hq
  obtain ⟨q1, hq1, e⟩ := Option.map_eq_some_iff.1 hq
  subst e
  obtain ⟨y, hy, e⟩ := List.mem_map.1 hx
  rcases chain_queue c E.chain (settled_start _ _) E.faithful with k | ⟨R, hR, r, hr, k1, k2⟩
  · left
    rw [hq1] at k
    have k' : (g.before.queues.map fun q => q.map N.oct)[c]? = some q1 := k.symm
    rw [List.getElem?_map] at k'
    obtain ⟨q2, hq2, e2⟩ := Option.map_eq_some_iff.1 k'
    subst e2
    obtain ⟨z, hz, e3⟩ := List.mem_map.1 hy
    exact ⟨q2, z, hq2, hz, by rw [← e, ← e3]⟩
  · right
    exact ⟨Rs, v, E, R, hR, r, hr, k1, q1, by rw [← k2]; exact hq1, y, hy, e.symm⟩

/-- An authorizer in the pool of a core after the block. -/
theorem stage_pool {g : Stf.Stage σ η ρ Realm (List (Nat × Bytes))} (h : g.Ok (world N)) {c x : Nat} {p : List Nat}
    (hp : (g.after (world N)).pools[c]? = some p) (hx : x ∈ p) :
    (∃ p', g.before.pools[c]? = some p' ∧ x ∈ p') ∨ ∃ q, (g.after (world N)).queues[c]? = some q ∧ x ∈ q := by
  rw [Stf.after_pools h, Reports.nextPools_get, Nat.zero_add] at hp
  obtain ⟨p', hp', e⟩ := Option.map_eq_some_iff.1 hp
  subst e
  unfold Reports.nextPool at hx
  have sub : ∀ {y}, y ∈ (match g.blk.guarantees.find? fun g => g.report.core == c with | none => p' | some g => p'.erase g.report.auth) → y ∈ p' := by
    intro y hy
    split at hy
    · exact hy
    · exact List.mem_of_mem_erase hy
  dsimp only at hx
  split at hx
  · exact .inl ⟨p', hp', sub hx⟩
  · rename_i a ha
    unfold Reports.shiftPush at hx
    rcases List.mem_append.1 hx with k | k
    · left
      refine ⟨p', hp', ?_⟩
      split at k <;> split at k
      · exact List.mem_of_mem_drop k
      · exact k
      · exact List.mem_of_mem_erase (List.mem_of_mem_drop k)
      · exact List.mem_of_mem_erase k
    · right
      obtain ⟨q, hq, hq2⟩ := Option.bind_eq_some_iff.1 ha
      rw [List.mem_singleton.1 k]
      exact ⟨q, hq, List.mem_of_getElem? hq2⟩

structure Auth (N : Par σ η ρ) (K : Nat → Nat → Prop) (l : List (Stf.Stage σ η ρ Realm (List (Nat × Bytes)))) (s : State η ρ) : Prop where
  queues : ∀ c q x, s.queues[c]? = some q → x ∈ q → K c x ∨ ∃ g ∈ l, QueuedIn N g c x
  pools : ∀ c p x, s.pools[c]? = some p → x ∈ p → K c x ∨ ∃ g ∈ l, QueuedIn N g c x

theorem auth_run (hK : N.K.total < 2 ^ 64) (hn : ∀ y, N.num (N.oct (N.num y)) = N.num y) {K : Nat → Nat → Prop} (hz : ∀ c y, K c y → K c (N.num (N.oct y))) {s : State η ρ} (hs : Auth N K [] s) :
    ∀ (n : Nat) {l : List (Stf.Stage σ η ρ Realm (List (Nat × Bytes)))} {s' : State η ρ}, l.length = n → Stf.Linked (world N) s l s' → Auth N K l s'
  | 0, l, s', e, h => by
    rw [List.length_eq_zero_iff] at e
    subst e
    unfold Stf.Linked at h
    exact h ▸ hs
  | n + 1, l, s', e, h => by
    obtain ⟨l, g, rfl⟩ : ∃ m x, l = m ++ [x] := ⟨l.dropLast, l.getLast (by intro c; rw [c] at e; cases e), (List.dropLast_concat_getLast _).symm⟩
    obtain ⟨h1, hok, e'⟩ := Stf.linked_snoc.1 h
    subst e'
    have ih := auth_run hK hn hz hs n (by simpa using e) h1
    have up : ∀ {c x}, (∃ g ∈ l, QueuedIn N g c x) → ∃ g' ∈ l ++ [g], QueuedIn N g' c x := fun ⟨g', h, h2⟩ => ⟨g', List.mem_append_left _ h, h2⟩
    have hq : ∀ c q x, (g.after (world N)).queues[c]? = some q → x ∈ q → K c x ∨ ∃ g' ∈ l ++ [g], QueuedIn N g' c x := by
      intro c q x hq hx
      rcases stage_queue hK hok hq hx with ⟨q', y, k1, k2, k3⟩ | k
      · subst k3
        rcases ih.queues c q' y k1 k2 with k | ⟨g', hg', k⟩
        · exact .inl (hz c y k)
        · obtain ⟨Rs, v, E, R, hR, r, hr, a1, q2, a2, w, hw, a3⟩ := k
          refine .inr ⟨g', List.mem_append_left _ hg', Rs, v, E, R, hR, r, hr, a1, q2, a2, w, hw, by rw [a3, hn]⟩
      · exact .inr ⟨g, List.mem_append_right _ (List.mem_singleton.2 rfl), k⟩
    refine ⟨hq, fun c p x hp hx => ?_⟩
    rcases stage_pool hok hp hx with ⟨p', k1, k2⟩ | ⟨q, k1, k2⟩
    · exact (ih.pools c p' x k1 k2).imp id up
    · exact hq c q x k1 k2

/-! ## The preimages of a block -/

theorem sorted_distinct : ∀ (es : List (Nat × Bytes)), (sorted es && distinct es) = true ↔ es.Pairwise Delta.OutLt
  | [] => by simp [sorted, distinct]
  | [x] => by simp [sorted, distinct]
  | x :: y :: l => by
    have ih := sorted_distinct (y :: l)
    rw [Bool.and_eq_true] at ih ⊢
    rw [List.pairwise_cons, ← ih]
    rw [show sorted (x :: y :: l) = (!Delta.pairLt y x && sorted (y :: l)) from rfl, show distinct (x :: y :: l) = (!(y :: l).contains x && distinct (y :: l)) from rfl]
    rw [Bool.and_eq_true, Bool.and_eq_true, Bool.not_eq_true', Bool.not_eq_true', List.contains_eq_mem, decide_eq_false_iff_not, Bool.eq_false_iff, Ne, Delta.pairLt_iff]
    constructor
    · rintro ⟨⟨h1, h2⟩, h3, h4⟩
      refine ⟨?_, h2, h4⟩
      have hp := (List.pairwise_cons.1 ((sorted_distinct (y :: l)).1 (by rw [Bool.and_eq_true]; exact ⟨h2, h4⟩))).1
      have hxy : Delta.OutLt x y := by
        rcases Delta.OutLt.tri x y with c | c | c
        · exact c
        · exact absurd (c ▸ List.mem_cons_self ..) h3
        · exact absurd c h1
      intro z hz
      rcases List.mem_cons.1 hz with c | c
      · exact c ▸ hxy
      · exact hxy.trans (hp z c)
    · rintro ⟨h1, h2, h4⟩
      have irr : ∀ a : Nat × Bytes, ¬ Delta.OutLt a a := by
        intro a h
        rcases h with h | h
        · omega
        · exact List.lt_irrefl _ h.2
      exact ⟨⟨fun c => irr _ ((h1 y (List.mem_cons_self ..)).trans c), h2⟩, fun c => irr _ (h1 x c), h4⟩

theorem preimages_iff {before after : Realm} {slot : Nat} {es : List (Nat × Bytes)} : (preimages N before after slot es).isSome ↔ es.Pairwise Delta.OutLt ∧
    ∀ e ∈ es, before.accounts.preimages e.1 (N.blake e.2) = none ∧ before.accounts.lookups e.1 (N.blake e.2, e.2.length % 2 ^ 32) = some [] := by
  rw [← sorted_distinct]
  have hall : es.all (wanted N.blake before.accounts) = true ↔
      ∀ e ∈ es, before.accounts.preimages e.1 (N.blake e.2) = none ∧ before.accounts.lookups e.1 (N.blake e.2, e.2.length % 2 ^ 32) = some [] := by
    rw [List.all_eq_true]
    unfold wanted
    simp only [Bool.and_eq_true, Option.isNone_iff_eq_none, beq_iff_eq]
  rw [← hall, ← Bool.and_eq_true]
  unfold preimages
  split
  · rename_i c; simp [c]
  · rename_i c; simp [c]

/-! ## Errors -/

theorem accumulate_err {i : Stf.AccIn η Realm} (hK : N.K.total < 2 ^ 64) (h : accumulate N i = none) :
    ∃ e, e ≠ .fuel ∧ (e = .gas → i.world.χ.always ≠ []) ∧
      Delta.block (N.delta i.world.accounts i.slot i.entropy) N.K i.world.χ (i.queues.map fun q => q.map N.oct) [] i.reports = .error e := by
  unfold accumulate at h
  dsimp only at h
  split at h
  · rename_i e he
    have hb : Delta.block (N.delta i.world.accounts i.slot i.entropy) N.K i.world.χ (i.queues.map fun q => q.map N.oct) [] i.reports = .error e := by
      unfold Delta.block
      rw [he]
    exact ⟨e, fun c => Delta.C70_rounds_end hK (c ▸ hb), fun c ha => Delta.C70_no_gas_error hK ha (c ▸ hb), hb⟩
  · cases h

/-! ## Roles -/

theorem stage_roles {g : Stf.Stage σ η ρ Realm (List (Nat × Bytes))} (hK : N.K.total < 2 ^ 64) (h : g.Ok (world N)) (hr : Roles N.par g.before) : Roles N.par (g.after (world N)) := by
  obtain ⟨Rs, v, E, _⟩ := stage_executed hK h
  have F : Fits N.par v := by
    refine chain_fits (P := N.par) (fun _ _ _ => rfl) E.chain E.faithful ⟨fun l e => (by cases e), ⟨?_, ?_⟩, ⟨hr.assign, fun l e => (by cases e)⟩, hr.always⟩
    · show (g.before.queues.map _).length = _
      rw [List.length_map]; exact hr.queues.1
    · intro q hq
      obtain ⟨q', hq', e⟩ := List.mem_map.1 (show q ∈ g.before.queues.map fun q => q.map N.oct from hq)
      rw [← e, List.length_map]; exact hr.queues.2 q' hq'
  refine ⟨⟨?_, ?_⟩, ?_, ?_⟩
  · rw [E.queues, List.length_map]; exact F.queues.1
  · intro q hq
    rw [E.queues] at hq
    obtain ⟨q', hq', e⟩ := List.mem_map.1 hq
    rw [← e, List.length_map]; exact F.queues.2 q' hq'
  · rw [E.privileges]; exact F.assign.1
  · rw [E.privileges]; exact F.always

theorem roles_run (hK : N.K.total < 2 ^ 64) : ∀ {l : List (Stf.Stage σ η ρ Realm (List (Nat × Bytes)))} {s s' : State η ρ}, Stf.Linked (world N) s l s' →
    Roles N.par s → Roles N.par s'
  | [], s, s', h, hr => by unfold Stf.Linked at h; exact h ▸ hr
  | g :: l, s, s', h, hr => by
    obtain ⟨e, hok, h⟩ := h
    subst e
    exact roles_run hK h (stage_roles hK hok hr)

end Fastroll.Node
