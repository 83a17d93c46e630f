import Verif.Stf.Once
import Verif.Safrole.LemmasRun
import Verif.Safrole.Props
import Verif.Judge.Props
import Verif.Stats.Props
/-! Further lemmas on chains of blocks. -/
namespace Fastroll.Stf
open Fastroll.Safrole (VKey)
variable {σ η ρ ω π : Type}

theorem nodup_filterMap {α β : Type} {f : α → Option β} {l : List α}
    (h : ∀ (i j : Nat) (x : β), (l[i]?).bind f = some x → (l[j]?).bind f = some x → i = j) : (l.filterMap f).Nodup := by
  induction l with
  | nil => exact List.nodup_nil
  | cons a l ih =>
    have hi : (l.filterMap f).Nodup := ih fun i j x h1 h2 => by
      have := h (i + 1) (j + 1) x h1 h2
      omega
    cases e : f a with
    | none => rw [List.filterMap_cons_none e]; exact hi
    | some x =>
      rw [List.filterMap_cons_some e, List.nodup_cons]
      refine ⟨fun hx => ?_, hi⟩
      obtain ⟨b, hb, eb⟩ := List.mem_filterMap.1 hx
      obtain ⟨k, hk, ek⟩ := List.getElem_of_mem hb
      have := h 0 (k + 1) x e (by rw [List.getElem?_cons_succ, List.getElem?_eq_getElem hk, ek]; exact eb)
      omega

theorem mem_pendingPkgs {s : State η ρ ω} {k : Nat} : k ∈ Spec.pendingPkgs s ↔ ∃ c p, Reports.Spec.At s.pending c p ∧ p.report.pkg = k := by
  unfold Spec.pendingPkgs Reports.Spec.At
  rw [List.mem_filterMap]
  constructor
  · rintro ⟨o, ho, e⟩
    cases o with
    | none => cases e
    | some p =>
      obtain ⟨c, hc, ec⟩ := List.getElem_of_mem ho
      injection e with e
      exact ⟨c, p, by rw [List.getElem?_eq_getElem hc, ec], e⟩
  · rintro ⟨c, p, h, e⟩
    exact ⟨some p, List.mem_of_getElem? h, by rw [← e]; rfl⟩

theorem pendingPkgs_nodup {s : State η ρ ω}
    (h : ∀ c p c' p', Reports.Spec.At s.pending c p → Reports.Spec.At s.pending c' p' → p.report.pkg = p'.report.pkg → c = c') : (Spec.pendingPkgs s).Nodup := by
  refine nodup_filterMap fun i j x h1 h2 => ?_
  have at1 : ∀ i, (s.pending[i]?.bind fun p => p.map fun p => p.report.pkg) = some x → ∃ p, Reports.Spec.At s.pending i p ∧ p.report.pkg = x := by
    intro i hi
    cases e : s.pending[i]? with
    | none => rw [e] at hi; cases hi
    | some o =>
      rw [e] at hi
      cases o with
      | none => cases hi
      | some p =>
        injection hi with hi
        exact ⟨p, e, hi⟩
  obtain ⟨p, hp, ep⟩ := at1 i h1
  obtain ⟨q, hq, eq⟩ := at1 j h2
  exact h i p j q hp hq (by rw [ep, eq])

theorem avail_sched (l : List (Stage σ η ρ ω π)) : ((l.map accOf).flatMap (·.available)).map (·.pkg) = availPkgs l := by
  unfold availPkgs
  induction l with
  | nil => rfl
  | cons g l ih =>
    rw [List.map_cons, List.flatMap_cons, List.map_append, ih, List.flatMap_cons]
    congr 1
    show (g.parts.available.map sched).map (·.pkg) = _
    rw [List.map_map]; rfl

/-- Lists of reports counted against a list with distinct packages have distinct packages. -/
theorem nodup_of_count {L O : List Acc.Report} (hO : (O.map (·.pkg)).Nodup) (hc : ∀ r, L.count r ≤ O.count r) : (L.map (·.pkg)).Nodup ∧ ∀ p ∈ L.map (·.pkg), p ∈ O.map (·.pkg) := by
  have hOn : O.Nodup := (List.pairwise_map.1 hO).imp (fun hne he => hne (by rw [he]))
  have hsub : ∀ r ∈ L, r ∈ O := by
    intro r hr
    have h1 := List.count_pos_iff.2 hr
    exact List.count_pos_iff.1 (Nat.lt_of_lt_of_le h1 (hc r))
  have hL : L.Nodup := by
    rw [List.nodup_iff_count]
    intro r
    exact Nat.le_trans (hc r) (List.nodup_iff_count.1 hOn r)
  refine ⟨?_, ?_⟩
  · refine List.pairwise_map.2 (List.Pairwise.imp_of_mem ?_ hL)
    intro a b ha hb hne e
    exact hne (eq_of_map_nodup hO (hsub a ha) (hsub b hb) e)
  · intro p hp
    obtain ⟨r, hr, e⟩ := List.mem_map.1 hp
    exact List.mem_map.2 ⟨r, hsub r hr, e⟩

theorem genesis_acc {W : World σ η ρ ω π} {s0 : State η ρ ω} (h : Spec.Genesis W s0) : accSt s0 = Acc.genesis W.S.epoch := by
  unfold accSt Acc.genesis
  rw [h.slot, h.ready, h.done]

theorem genesis_pending {W : World σ η ρ ω π} {s0 : State η ρ ω} (h : Spec.Genesis W s0) : ∀ c p, ¬ Reports.Spec.At s0.pending c p := by
  intro c p ha
  have := h.pending _ (List.mem_of_getElem? ha)
  cases this

theorem stages_pos {l : List (Stage σ η ρ ω π)} {bs : Spec.Blocks σ η π} (e : l.map Stage.input = bs) (h : ∀ b ∈ bs, 0 < b.2.slot) : ∀ g ∈ l, 0 < g.blk.slot := by
  intro g hg
  exact h g.input (by rw [← e]; exact List.mem_map.2 ⟨g, hg, rfl⟩)

theorem linked_good {W : World σ η ρ ω π} {l : List (Stage σ η ρ ω π)} {s0 s' : State η ρ ω} (hE : 0 < W.S.epoch) (hl : Linked W s0 l s') (hg : Spec.Genesis W s0)
    (h0 : ∀ g ∈ l, 0 < g.blk.slot) : Acc.Good W.S.epoch (accSt s') (l.map Stage.acc).flatten ((l.map accOf).flatMap (·.available)) := by
  have h1 := linked_acc hl
  have h2 := linked_increasing hl h0
  rw [genesis_acc hg] at h1
  rw [hg.slot] at h2
  have := Acc.good_run hE _ _ _ [] [] _ (Acc.good_genesis _) h2 h1
  simpa using this

/-! ## Offenders -/

theorem Stage.judged_sub {W : World σ η ρ ω π} {g : Stage σ η ρ ω π} (h : g.Ok W) {k : Nat} (hk : k ∈ g.before.judged.punish) : k ∈ g.judged.punish := by
  have hj := h.pre.judged
  have : Judge.history [(judgeEnv W g.before, g.blk.disputes)] g.before.judged = .ok g.judged := by
    unfold Judge.history
    dsimp only
    rw [hj]
    rfl
  exact (Judge.history_punish this).mem_iff.2 (List.mem_append_left _ hk)

theorem without_nullify {k : Nat} {zero : VKey Nat} {p : List Nat} {set : List (VKey Nat)} (hk : k ∈ p) (hz : zero.ed ≠ k) :
    Spec.Without k (Safrole.nullify zero p set) := by
  intro v hv
  unfold Safrole.nullify at hv
  obtain ⟨u, hu, e⟩ := List.mem_map.1 hv
  by_cases c : p.contains u.ed = true
  · rw [if_pos c] at e; rw [← e]; exact hz
  · rw [if_neg c] at e
    rw [← e]
    intro he
    rw [he] at c
    exact c (by simpa [List.contains_iff_mem] using hk)

theorem Stage.after_judged {W : World σ η ρ ω π} {g : Stage σ η ρ ω π} (h : g.Ok W) : (g.after W).judged = g.judged := by
  have e : (g.after W).judged = g.mid.judged := rfl
  rw [e, h.mid]; rfl

theorem Stage.after_sets {W : World σ η ρ ω π} {g : Stage σ η ρ ω π} (h : g.Ok W) :
    (fresh W g.before g.blk = true → (g.after W).saf.pending = Safrole.nullify W.C.zero g.judged.punish g.before.staging ∧
      (g.after W).active = g.before.saf.pending ∧ (g.after W).past = g.before.active) ∧
    (fresh W g.before g.blk = false → (g.after W).saf.pending = g.before.saf.pending ∧ (g.after W).active = g.before.active ∧ (g.after W).past = g.before.past) := by
  have e1 : (g.after W).saf = g.mid.saf := rfl
  have e2 : (g.after W).active = g.mid.active := rfl
  have e3 : (g.after W).past = g.mid.past := rfl
  have he := h.pre.epoch
  unfold epochSaf at he
  rw [e1, e2, e3, h.mid]
  refine ⟨fun hf => ?_, fun hf => ?_⟩
  · rw [hf] at he
    simp only [if_true] at he
    cases hn : Safrole.nextSealers W.H W.S W.C g.before.saf g.before.slot g.blk.slot g.before.saf.pending g.before.e1 with
    | none => rw [hn] at he; cases he
    | some sl =>
      rw [hn] at he
      injection he with he
      unfold Stf.mid withTickets
      rw [hf, ← he]
      exact ⟨rfl, rfl, rfl⟩
  · rw [hf] at he
    simp only [if_false, Bool.false_eq_true] at he
    injection he with he
    unfold Stf.mid withTickets
    rw [hf, he]
    exact ⟨rfl, rfl, rfl⟩

theorem punished_run {W : World σ η ρ ω π} {k : Nat} (hz : W.C.zero.ed ≠ k) {l : List (Stage σ η ρ ω π)} {s s' : State η ρ ω} {n : Nat} (h : Linked W s l s')
    (hk : k ∈ s.judged.punish) (h1 : 1 ≤ n → Spec.Without k s.saf.pending) (h2 : 2 ≤ n → Spec.Without k s.active) (h3 : 3 ≤ n → Spec.Without k s.past) :
    k ∈ s'.judged.punish ∧ (1 ≤ n + Spec.openings W.S.epoch s.slot (l.map fun g => g.blk.slot) → Spec.Without k s'.saf.pending) ∧
      (2 ≤ n + Spec.openings W.S.epoch s.slot (l.map fun g => g.blk.slot) → Spec.Without k s'.active) ∧
      (3 ≤ n + Spec.openings W.S.epoch s.slot (l.map fun g => g.blk.slot) → Spec.Without k s'.past) := by
  induction l generalizing s n with
  | nil =>
    unfold Linked at h
    subst h
    exact ⟨hk, h1, h2, h3⟩
  | cons g l ih =>
    obtain ⟨e, hok, hl⟩ := h
    have hk' : k ∈ g.judged.punish := Stage.judged_sub hok (by rw [e]; exact hk)
    have hs := Stage.after_sets hok
    have hk2 : k ∈ (g.after W).judged.punish := by rw [Stage.after_judged hok]; exact hk'
    rw [List.map_cons]
    unfold Spec.openings
    rw [e] at hs
    have ef : fresh W s g.blk = decide (s.slot / W.S.epoch < g.blk.slot / W.S.epoch) := rfl
    by_cases hf : s.slot / W.S.epoch < g.blk.slot / W.S.epoch
    · obtain ⟨a1, a2, a3⟩ := hs.1 (by rw [ef]; exact decide_eq_true hf)
      have := ih (n := n + 1) hl hk2 (fun _ => by rw [a1]; exact without_nullify hk' hz) (fun hn => by rw [a2]; exact h1 (by omega)) (fun hn => by rw [a3]; exact h2 (by omega))
      rw [Stage.after_slot hok] at this
      rw [if_pos hf, ← Nat.add_assoc]
      exact this
    · obtain ⟨a1, a2, a3⟩ := hs.2 (by rw [ef]; exact decide_eq_false hf)
      have := ih (n := n) hl hk2 (fun hn => by rw [a1]; exact h1 hn) (fun hn => by rw [a2]; exact h2 hn) (fun hn => by rw [a3]; exact h3 hn)
      rw [Stage.after_slot hok] at this
      rw [if_neg hf, Nat.zero_add]
      exact this

/-! ## The belt -/

theorem belt_run {W : World σ η ρ ω π} {l : List (Stage σ η ρ ω π)} {s s' : State η ρ ω} (h : Linked W s l s') :
    s'.belt = (l.map fun g => outputRoot W (g.after W).outputs).foldl (Merkle.mmrAppend W.keccak) s.belt := by
  induction l generalizing s with
  | nil => unfold Linked at h; rw [h]; rfl
  | cons g l ih =>
    obtain ⟨e, hok, hl⟩ := h
    rw [ih hl, List.map_cons, List.foldl_cons]
    have e1 : (g.after W).belt = Merkle.mmrAppend W.keccak g.mid.belt (outputRoot W (g.after W).outputs) := rfl
    have e2 : g.mid.belt = s.belt := by rw [hok.mid, ← e]; rfl
    rw [e1, e2]

end Fastroll.Stf
