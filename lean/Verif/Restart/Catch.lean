import Verif.Chain.Props
/-
Lemmas on chains, for a node that misses a block.
-/
namespace Fastroll.Chain
open Fastroll.Wire Fastroll.Chain.Paper

variable {K V ρ : Type} [DecidableEq K] {W : World K V ρ} {wa : Bool}

theorem trace_head {p q : Point K V ρ} {bs : List Block} (h : Trace W wa p bs q) :
    (bs = [] → q.header = p.header ∧ q.st = p.st) ∧ ∀ b bs', bs = b :: bs' → b.header.parent = hh W p.header := by
  induction h with
  | nil => exact ⟨fun _ => ⟨rfl, rfl⟩, fun b bs' e => by cases e⟩
  | @snoc bs q q' b ht hq ih =>
    refine ⟨fun e => by simp at e, fun c bs' e => ?_⟩
    cases bs with
    | nil =>
      injection e with e1 e2
      subst e1
      rw [hq.parent, (ih.1 rfl).1]
    | cons d ds =>
      injection e with e1 e2
      exact e1 ▸ ih.2 d ds rfl
  | drift r ht ih => exact ih

theorem chain_append {p q z : Point K V ρ} {bs bs' : List Block} (h : Chain W wa p bs q) (h' : Chain W wa q bs' z) :
    Chain W wa p (bs ++ bs') z := by
  induction h' with
  | nil => rw [List.append_nil]; exact h
  | @snoc cs r r' b _ hq ih =>
    rw [← List.append_assoc]
    exact .snoc ih hq

theorem chain_nil {p q : Point K V ρ} {bs : List Block} (h : Chain W wa p bs q) (e : bs = []) : p = q := by
  cases h with
  | nil => rfl
  | snoc _ _ => simp at e

theorem chain_split {p z : Point K V ρ} {cs : List Block} (h : Chain W wa p cs z) : ∀ (bs bs' : List Block), cs = bs ++ bs' →
    ∃ q, Chain W wa p bs q ∧ Chain W wa q bs' z := by
  induction h with
  | nil =>
    intro bs bs' e
    have := List.append_eq_nil_iff.1 e.symm
    rw [this.1, this.2]
    exact ⟨p, .nil, .nil⟩
  | @snoc cs r r' b hc hq ih =>
    intro bs bs' e
    rcases List.eq_nil_or_concat bs' with rfl | ⟨ds, d, rfl⟩
    · refine ⟨r', ?_, .nil⟩
      rw [List.append_nil] at e
      rw [← e]
      exact .snoc hc hq
    · rw [List.concat_eq_append, ← List.append_assoc] at e
      have e1 := List.append_inj' e rfl
      obtain ⟨e1, e2⟩ := e1
      injection e2 with e2 _
      subst e2
      obtain ⟨q, h1, h2⟩ := ih bs ds e1
      refine ⟨q, h1, ?_⟩
      rw [List.concat_eq_append]
      exact .snoc h2 hq

theorem chain_cons {p z : Point K V ρ} {b : Block} {bs : List Block} (h : Chain W wa p (b :: bs) z) :
    ∃ q, Extends W wa (fun _ => True) p b q ∧ Chain W wa q bs z := by
  obtain ⟨q, h1, h2⟩ := chain_split h [b] bs rfl
  refine ⟨q, ?_, h2⟩
  generalize hl : [b] = l at h1
  cases h1 with
  | nil => cases hl
  | @snoc cs r _ c hc hq =>
    cases cs with
    | nil =>
      injection hl with hl _
      rw [hl, chain_nil hc rfl]
      exact hq
    | cons d ds => simp at hl

theorem accepted_mem : ∀ (l : List (Option Nat × Block)) (rs : List (Except ImpErr Bytes)) (b : Block), b ∈ accepted l rs →
    ∃ e ∈ l, e.2 = b
  | [], rs, b, h => by simp [accepted] at h
  | e :: l, [], b, h => by simp [accepted] at h
  | (t, c) :: l, .ok r :: rs, b, h => by
    rcases List.mem_cons.1 h with h | h
    · exact ⟨(t, c), List.mem_cons_self .., h.symm⟩
    · obtain ⟨e, he, hb⟩ := accepted_mem l rs b h
      exact ⟨e, List.mem_cons_of_mem _ he, hb⟩
  | (t, c) :: l, .error r :: rs, b, h => by
    obtain ⟨e, he, hb⟩ := accepted_mem l rs b h
    exact ⟨e, List.mem_cons_of_mem _ he, hb⟩

theorem chain_drift (ho : Oblivious W) {p q : Point K V ρ} {bs : List Block} (h : Chain W wa p bs q) (r : ρ) :
    ∃ r', Chain W wa { p with ring := r } bs { q with ring := r' } := by
  induction h with
  | nil => exact ⟨r, .nil⟩
  | @snoc bs q q' b _ hq ih =>
    obtain ⟨r1, ih⟩ := ih
    obtain ⟨d, r2, c, hb, e1, e2⟩ := hq.body
    obtain ⟨r', hb'⟩ := body_oblivious ho r1 hb
    exact ⟨r', .snoc ih ⟨hq.parent, hq.later, trivial, hq.root, hq.xt, ⟨d, r', c, hb', e1, rfl⟩, hq.header, hq.anc⟩⟩

theorem strings_mono {g : Header} {bs cs : List Block} (h : ∀ b ∈ bs, b ∈ cs) : ∀ y ∈ strings W g bs, y ∈ strings W g cs := by
  intro y hy
  unfold strings at hy ⊢
  rcases List.mem_cons.1 hy with h1 | h1
  · rw [h1]; exact List.mem_cons_self ..
  · obtain ⟨b, hb, hy⟩ := List.mem_flatMap.1 h1
    exact List.mem_cons_of_mem _ (List.mem_flatMap.2 ⟨b, h b hb, hy⟩)

/-- Blocks in order, each in time, are all accepted. -/
theorem follows : ∀ (l : List (Nat × Block)) (n : Node K V ρ) (p z : Point K V ρ), At W n p →
    Chain W false p (l.map Prod.snd) z → (∀ e ∈ l, Spec.BlockOk W.P e.2 ∧ e.2.header.parent ≠ List.replicate 32 0) →
    (∀ e ∈ l, OnTime e.1 e.2.header.slot) →
    accepted (l.map fun e => (some e.1, e.2)) (importAll W n (l.map fun e => (some e.1, e.2))).2 = l.map Prod.snd ∧
    At W (importAll W n (l.map fun e => (some e.1, e.2))).1 z
  | [], n, p, z, ha, hc, _, _ => ⟨rfl, by rw [← chain_nil hc rfl]; exact ha⟩
  | (t, b) :: l, n, p, z, ha, hc, hok, ht => by
    obtain ⟨q, h1, h2⟩ := chain_cons hc
    have h1' : Extends W false (OnTime t) p b q := ⟨h1.parent, h1.later, ht _ (List.mem_cons_self ..), h1.root, h1.xt, h1.body, h1.header, h1.anc⟩
    obtain ⟨e1, e2⟩ := C62_complete W t n p q b ha (hok _ (List.mem_cons_self ..)).1 (hok _ (List.mem_cons_self ..)).2 h1'
    obtain ⟨i1, i2⟩ := follows l _ q z e2 h2 (fun e he => hok e (List.mem_cons_of_mem _ he)) (fun e he => ht e (List.mem_cons_of_mem _ he))
    refine ⟨?_, i2⟩
    show accepted ((some t, b) :: l.map fun e => (some e.1, e.2)) ((importStep W (some t) n b).2 :: _) = b :: l.map Prod.snd
    rw [e1]
    show b :: _ = _
    rw [← i1]

end Fastroll.Chain
