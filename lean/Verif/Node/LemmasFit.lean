import Verif.Node.Spec
import Verif.Delta.Props

/-! # Lemmas: the sizes of what privileged services may change -/
namespace Fastroll.Node
open Fastroll.Pvm Fastroll.Svc
variable {β : Type} {S : Store β} {env : Env} {P : Params}

theorem chunks_length (size : Nat) : ∀ (n : Nat) (bs : Bytes), (chunks size n bs).length = n
  | 0, _ => rfl
  | n + 1, bs => by unfold chunks; rw [List.length_cons, chunks_length size n]

theorem sortedSet_first {k v : Nat} {x : Nat} : ∀ {l : List (Nat × Nat)}, x ∈ (sortedSet l k v).map Prod.fst → x = k ∨ x ∈ l.map Prod.fst
  | [], h => by unfold sortedSet at h; simp at h; exact .inl h
  | e :: l, h => by
    unfold sortedSet at h
    split at h <;> (try split at h) <;> simp only [List.map_cons, List.mem_cons] at h ⊢
    all_goals first
      | omega
      | (rcases h with h | h
         · exact .inr (.inl h)
         · rcases sortedSet_first h with h | h
           · exact .inl h
           · exact .inr (.inr h))
      | (rcases h with h | h | h <;> simp [h])
      | (rcases h with h | h <;> simp [h])

theorem sortedSet_sorted {k v : Nat} : ∀ {l : List (Nat × Nat)}, (l.map Prod.fst).Pairwise (· < ·) → ((sortedSet l k v).map Prod.fst).Pairwise (· < ·)
  | [], _ => by simp [sortedSet]
  | e :: l, h => by
    simp only [List.map_cons, List.pairwise_cons] at h
    unfold sortedSet
    split
    · simp only [List.map_cons, List.pairwise_cons, List.mem_cons]
      refine ⟨fun x hx => ?_, h⟩
      rcases hx with rfl | hx
      · assumption
      · have := h.1 x hx; omega
    · split
      · simp only [List.map_cons, List.pairwise_cons]
        exact ⟨fun x hx => by have := h.1 x hx; omega, h.2⟩
      · simp only [List.map_cons, List.pairwise_cons]
        refine ⟨fun x hx => ?_, sortedSet_sorted h.2⟩
        rcases sortedSet_first hx with rfl | hx
        · omega
        · exact h.1 x hx

theorem readAlways_sorted : ∀ (cs : List Bytes) {acc : List (Nat × Nat)}, (acc.map Prod.fst).Pairwise (· < ·) → ((readAlways cs acc).map Prod.fst).Pairwise (· < ·)
  | [], _, h => h
  | _ :: cs, _, h => readAlways_sorted cs (sortedSet_sorted h)

theorem Fits.only {p p' : PState β} (h : Fits P p) (e : p' = { p with boxes := p'.boxes }) : Fits P p' := by
  rw [e]; exact ⟨h.staging, h.queues, h.assign, h.always⟩

theorem Fits.box {γ : Type} {p : PState β} {p' : PState γ} (h : Fits P p) (e1 : p'.staging = p.staging) (e2 : p'.authQueue = p.authQueue)
    (e3 : p'.assign = p.assign) (e4 : p'.always = p.always) : Fits P p' :=
  ⟨e1 ▸ h.staging, e2 ▸ h.queues, e3 ▸ h.assign, e4 ▸ h.always⟩

theorem fits_bless (hP : env.par = P) {vm : VM} {x : Ctx β} (h : Fits P x.p) : Fits P (hostBless env vm x).2.p := by
  unfold hostBless
  repeat' (first | exact h | split | (dsimp only; split))
  all_goals first | exact h | skip
  refine ⟨h.staging, h.queues, ⟨h.assign.1, fun l e => ?_⟩, readAlways_sorted _ .nil⟩
  cases e
  rw [List.length_map, chunks_length, hP]

theorem fits_assign (hP : env.par = P) {vm : VM} {x : Ctx β} (h : Fits P x.p) : Fits P (hostAssign env vm x).2.p := by
  unfold hostAssign
  repeat' (first | exact h | split | (dsimp only; split))
  all_goals first | exact h | skip
  refine ⟨h.staging, ⟨?_, ?_⟩, ⟨h.assign.1, fun l e => ?_⟩, h.always⟩
  · show (x.p.authQueue.set _ _).length = _
    rw [List.length_set]; exact h.queues.1
  · intro q hq
    rcases List.mem_or_eq_of_mem_set (show q ∈ x.p.authQueue.set _ _ from hq) with hq | rfl
    · exact h.queues.2 q hq
    · rw [chunks_length, hP]
  · obtain ⟨l', h1, rfl⟩ := Option.map_eq_some_iff.1 (show x.p.assign.byBless.map _ = some l from e)
    rw [List.length_set]; exact h.assign.2 l' h1

theorem fits_designate (hP : env.par = P) {vm : VM} {x : Ctx β} (h : Fits P x.p) : Fits P (hostDesignate env vm x).2.p := by
  unfold hostDesignate
  repeat' (first | exact h | split | (dsimp only; split))
  all_goals first | exact h | skip
  refine ⟨fun l e => ?_, h.queues, h.assign, h.always⟩
  cases e
  rw [chunks_length, hP]

theorem fits_fn (hP : env.par = P) {h : Nat} {f : HostFn β} (hf : accFn S h = some f) (vm : VM) {x : Ctx β} (hx : Fits P x.p) : Fits P (f env vm x).2.p := by
  by_cases c : h = 14
  · subst c; cases hf; exact fits_bless hP hx
  by_cases c' : h = 15
  · subst c'; cases hf; exact fits_assign hP hx
  by_cases c'' : h = 16
  · subst c''; cases hf; exact fits_designate hP hx
  exact hx.only (only_fn hf c c' c'' vm x)

theorem calls_fit (hP : env.par = P) {cs : List (Nat × VM)} {q q' : Pair β} (h : runCalls (accHost S env) cs q = some q')
    (hx : Fits P q.x.p) (hy : Fits P q.y.p) : Fits P q'.x.p ∧ Fits P q'.y.p := by
  refine runCalls_inv (P := fun _ => True) (I := fun q => Fits P q.x.p ∧ Fits P q.y.p) ?_ cs q ⟨hx, hy⟩ (fun _ _ _ _ => trivial) q' h
  intro c s s' r I _ _ hc
  rcases accHost_cases S env c.1 c.2 s with e | ⟨_, e⟩ | ⟨f, e1, e2⟩
  · rw [hc] at e; simp only at e; rw [e]; exact I
  · rw [hc] at e; simp only at e; rw [e]; exact ⟨I.1, I.1⟩
  · rw [hc] at e2
    injection e2 with _ e2
    rw [e2]
    exact ⟨fits_fn hP e1 c.2 I.1, I.2⟩

theorem accumulate_fits {g : Global} {mach : Machine} {p : PState Boxes} {a : AccArgs} {r : AccResult} (hP : env.par = P)
    (h : Svc.accumulate g env mach p a = .ok (some r)) (hp : Fits P p) : Fits P r.p := by
  rcases accumulate_cases h with ⟨bs, e⟩ | ⟨bs, id, prog, init, out, used, q', e1, e2⟩
  · subst e; exact hp.box rfl rfl rfl rfl
  · obtain ⟨cs, hcs⟩ := invoke_trace e1
    have k := calls_fit hP hcs (hp.box rfl rfl rfl rfl) (hp.box rfl rfl rfl rfl)
    subst e2
    cases out <;> first | exact k.1 | exact k.2

theorem merge_fits {b : Base} {host : Nat} {u r v : PState Boxes} (h : mergePrivileges b host u r = some v) (hu : Fits P u) (hr : Fits P r) : Fits P v := by
  unfold mergePrivileges at h
  dsimp only at h
  split at h
  · cases h
  rename_i as ha
  cases h
  refine ⟨fun l e => ?_, ⟨?_, fun q hq => ?_⟩, ?_, ?_⟩
  · dsimp only at e
    split at e
    · exact hr.staging l e
    · exact hu.staging l e
  · show (mergeQueues _ _ _ _).length = _
    unfold mergeQueues
    rw [List.length_map, List.length_zipIdx]; exact hu.queues.1
  · obtain ⟨i, hi⟩ := List.mem_iff_getElem?.1 hq
    rcases mergeQueues_get host r.assign.confirmed r.authQueue u.authQueue i with e | ⟨_, e⟩
    · rw [e] at hi; exact hu.queues.2 q (List.mem_of_getElem? hi)
    · rw [e] at hi; exact hr.queues.2 q (List.mem_of_getElem? hi)
  · unfold Assigns.merge filterAssigns at ha
    dsimp only at ha
    split at ha
    · rename_i l hl
      cases ha
      refine ⟨hu.assign.1, fun l' e => ?_⟩
      cases e
      split at hl
      · exact hr.assign.2 _ hl
      · cases hl
    · split at ha
      · cases ha
      · cases ha; exact hu.assign
  · dsimp only
    split
    · exact hr.always
    · exact hu.always

theorem foldSet_length : ∀ (l : List (Nat × Nat)) (conf : List Nat), (l.foldl (fun l e => l.set e.1 e.2) conf).length = conf.length
  | [], _ => rfl
  | e :: l, conf => by rw [List.foldl_cons, foldSet_length l, List.length_set]

theorem confirm_fits {u : PState Boxes} (h : Fits P u) : Fits P u.confirm := by
  refine ⟨h.staging, h.queues, ?_, h.always⟩
  show u.assign.confirm.confirmed.length = _ ∧ ∀ l, u.assign.confirm.byBless = some l → _
  unfold Assigns.confirm
  split
  · rename_i l e; exact ⟨h.assign.2 l e, nofun⟩
  · exact ⟨(foldSet_length _ _).trans h.assign.1, nofun⟩

theorem round_fits {W : Delta.World} {R : Delta.Round} (F : R.Faithful W) (hP : ∀ s ts rs, (W.env s ts rs).par = P) (h : Fits P R.start) : Fits P R.finish := by
  obtain ⟨m, h1, h2⟩ := F.merge
  rw [← h2]
  unfold mergeRound at h1
  split at h1
  · cases h1
  · rename_i m' hm
    cases h1
    refine confirm_fits (mergeResults_priv (rs := R.results) (P := Fits P) (fun v bs hv => hv.box rfl rfl rfl rfl) (fun r hr v v' e hv => ?_) _ _ _ (fun _ h => h) hm h)
    exact merge_fits e hv (accumulate_fits (hP _ _ _) (F.run r hr).2 h)

theorem chain_fits {W : Delta.World} (hP : ∀ s ts rs, (W.env s ts rs).par = P) : ∀ {Rs : List Delta.Round} {u : PState Boxes} {ts v}, Delta.Chain u ts Rs v →
    (∀ R ∈ Rs, R.Faithful W) → Fits P u → Fits P v
  | [], _, _, _, h, _, hu => h.1 ▸ hu
  | R :: Rs, u, ts, v, h, F, hu => by
    obtain ⟨h1, _, h3⟩ := h
    exact chain_fits hP h3 (fun R hR => F R (List.mem_cons_of_mem _ hR)) (round_fits (F R (List.mem_cons_self ..)) hP (h1 ▸ hu))

end Fastroll.Node
