import Verif.Chain.Lemmas

/-! Lemmas about whole runs of the importer, and about authored blocks. -/
namespace Fastroll.Chain
open Fastroll.Wire Fastroll.Chain.Paper

variable {K V ρ : Type} [DecidableEq K]

/-- Every stored header is stored under its hash. -/
def HeadersOk (W : World K V ρ) (n : Node K V ρ) : Prop := ∀ e ∈ n.headers, e.1 = hh W e.2

theorem find_mem {α : Type} {l : List (Bytes × α)} {k : Bytes} {a : α} (h : find l k = some a) : (k, a) ∈ l := by
  induction l with
  | nil => cases h
  | cons e l ih =>
    obtain ⟨x, y⟩ := e
    simp only [find] at h
    by_cases hx : k = x
    · subst hx
      simp only [if_true, Option.some.injEq] at h
      subst h
      exact List.mem_cons_self
    · rw [if_neg hx] at h
      exact List.mem_cons_of_mem _ (ih h)

theorem find_isSome {α : Type} {l : List (Bytes × α)} {k : Bytes} {a : α} (h : (k, a) ∈ l) : ∃ a', find l k = some a' := by
  induction l with
  | nil => cases h
  | cons e l ih =>
    obtain ⟨x, y⟩ := e
    simp only [find]
    by_cases hx : k = x
    · exact ⟨y, by simp [hx]⟩
    · rw [if_neg hx]
      rcases List.mem_cons.mp h with h | h
      · cases h; exact absurd rfl hx
      · exact ih h

theorem importAll_trace (W : World K V ρ) (l : List (Option Nat × Block))
    (hok : ∀ e ∈ l, Spec.BlockOk W.P e.2 ∧ e.2.header.parent ≠ zeroHash) :
    ∀ (n : Node K V ρ) (p0 p : Point K V ρ) (bs : List Block), Trace W false p0 bs p → At W n p → HeadersOk W n →
      (∀ b ∈ bs, (hh W b.header, b.header) ∈ n.headers) →
      ∃ q, Trace W false p0 (bs ++ accepted l (importAll W n l).2) q ∧ At W (importAll W n l).1 q ∧
        HeadersOk W (importAll W n l).1 ∧
        ∀ b ∈ bs ++ accepted l (importAll W n l).2, (hh W b.header, b.header) ∈ (importAll W n l).1.headers := by
  induction l with
  | nil =>
    intro n p0 p bs ht ha hh' hm
    refine ⟨p, ?_, ha, hh', ?_⟩
    · simpa [importAll, accepted] using ht
    · simpa [importAll, accepted] using hm
  | cons e l ih =>
    obtain ⟨t, b⟩ := e
    intro n p0 p bs ht ha hho hm
    have hb := hok (t, b) List.mem_cons_self
    have hl := fun e he => hok e (List.mem_cons_of_mem _ he)
    simp only [importAll]
    rcases step_cases W t n p b ha hb.1 hb.2 with ⟨q, hq, he⟩ | ⟨r, e, he, _⟩
    · rw [he]
      simp only [accepted]
      have := ih hl _ p0 q (bs ++ [b]) (.snoc ht (extends_weaken hq fun _ _ => trivial))
        (at_next ha hb.1.header hq) (by
          intro e he
          rcases List.mem_cons.mp he with h | h
          · subst h; rfl
          · exact hho e h) (by
          intro b' hb'
          rcases List.mem_append.mp hb' with h | h
          · exact List.mem_cons_of_mem _ (hm b' h)
          · rw [List.mem_singleton] at h
            subst h
            exact List.mem_cons_self)
      simpa [List.append_assoc] using this
    · rw [he]
      simp only [accepted]
      exact ih hl _ p0 _ bs (.drift r ht) (at_drift ha r) hho hm

theorem body_oblivious {W : World K V ρ} (ho : Oblivious W) {wa : Bool} {s : St K V} {ring : ρ} {anc : Anc} {b : Block}
    {d : Delta K V} {r : ρ} {c : Changes K} (ring' : ρ) (h : Body W wa s ring anc b d r c) :
    ∃ r', Body W wa s ring' anc b d r' c := by
  obtain ⟨d1, r1, m, d2, out, d3, e1, h2, h3, e2, e3, rfl⟩ := h
  have o1 := ho.1 ⟨b.header.slot, b.header.stateRoot, b.xt.disputes, b.xt.tickets⟩ s s ring ring'
  rw [e1] at o1
  obtain ⟨o1a, o1b⟩ := o1
  simp only at o1a o1b
  have e1' : W.pre ⟨b.header.slot, b.header.stateRoot, b.xt.disputes, b.xt.tickets⟩ s s ring' = (d1, (W.pre ⟨b.header.slot, b.header.stateRoot, b.xt.disputes, b.xt.tickets⟩ s s ring').2.1, some m) := by
    rw [o1a, o1b]
  have o2 := ho.2 ⟨b.xt, b.header.parent, b.header.author, b.header.vrf⟩ (if wa then some anc else none) s (over d1 s) r1 (W.pre ⟨b.header.slot, b.header.stateRoot, b.xt.disputes, b.xt.tickets⟩ s s ring').2.1
  rw [e2] at o2
  refine ⟨(W.post ⟨b.xt, b.header.parent, b.header.author, b.header.vrf⟩ (if wa then some anc else none) s (over d1 s) (W.pre ⟨b.header.slot, b.header.stateRoot, b.xt.disputes, b.xt.tickets⟩ s s ring').2.1).2.1,
    d1, _, m, d2, out, d3, e1', h2, h3, ?_, e3, rfl⟩
  have a := o2.1
  have b' := o2.2
  simp only at a b'
  rw [a, b']

/-- With a ring cache that is only a cache, the drift makes no difference. -/
theorem trace_chain {W : World K V ρ} (ho : Oblivious W) {wa : Bool} {p q : Point K V ρ} {bs : List Block}
    (h : Trace W wa p bs q) : ∃ r, Chain W wa p bs { q with ring := r } := by
  induction h with
  | nil => exact ⟨p.ring, .nil⟩
  | @snoc bs q q' b ht hq ih =>
    obtain ⟨r, ih⟩ := ih
    obtain ⟨d, r2, c, hb, e1, e2⟩ := hq.body
    obtain ⟨r', hb'⟩ := body_oblivious ho r hb
    refine ⟨r', .snoc ih ⟨hq.parent, hq.later, trivial, hq.root, hq.xt, ⟨d, r', c, hb', e1, rfl⟩, hq.header, hq.anc⟩⟩
  | drift r ht ih => exact ih

theorem chain_last {W : World K V ρ} {wa : Bool} {p q : Point K V ρ} {bs : List Block} (h : Chain W wa p bs q)
    (hp : Spec.HeaderOk W.P p.header) (hb : ∀ b ∈ bs, Spec.BlockOk W.P b) : Spec.HeaderOk W.P q.header := by
  cases h with
  | nil => exact hp
  | @snoc bs q q' b _ hq =>
    rw [hq.header]
    exact (hb b (by simp)).header

theorem chain_slot {W : World K V ρ} {wa : Bool} {p q : Point K V ρ} {bs : List Block} (h : Chain W wa p bs q) :
    p.header.slot ≤ q.header.slot := by
  induction h with
  | nil => exact Nat.le_refl _
  | snoc _ hq ih =>
    have := hq.later
    rw [hq.header]
    omega

theorem chain_increasing {W : World K V ρ} {wa : Bool} {p q : Point K V ρ} {bs : List Block} (h : Chain W wa p bs q) :
    (p.header.slot :: bs.map fun b => b.header.slot).Pairwise (· < ·) ∧
    ∀ s ∈ p.header.slot :: bs.map (fun b => b.header.slot), s ≤ q.header.slot := by
  induction h with
  | nil => simp
  | @snoc bs q q' b _ hq ih =>
    have e : (p.header.slot :: (bs ++ [b]).map fun b => b.header.slot) =
        (p.header.slot :: bs.map fun b => b.header.slot) ++ [b.header.slot] := by simp
    have hl := hq.later
    rw [e, hq.header]
    constructor
    · rw [List.pairwise_append]
      refine ⟨ih.1, by simp, ?_⟩
      intro a ha c hc
      rw [List.mem_singleton] at hc
      subst hc
      have := ih.2 a ha
      omega
    · intro s hs
      rcases List.mem_append.mp hs with h | h
      · have := ih.2 s h; omega
      · rw [List.mem_singleton] at h; omega

/-- Two strings among those hashed for two chains collide. -/
def Collide (W : World K V ρ) (g g' : Header) (bs bs' : List Block) : Prop :=
  ∃ y ∈ strings W g bs, ∃ z ∈ strings W g' bs', y ≠ z ∧ W.H y = W.H z

theorem collide_mono {W : World K V ρ} {g g' : Header} {bs bs' : List Block} {b b' : Block} (h : Collide W g g' bs bs') :
    Collide W g g' (bs ++ [b]) (bs' ++ [b']) := by
  obtain ⟨y, hy, z, hz, h⟩ := h
  refine ⟨y, ?_, z, ?_, h⟩
  · simp only [strings, List.mem_cons, List.flatMap_append, List.mem_append] at hy ⊢
    rcases hy with h | h
    · exact .inl h
    · exact .inr (.inl h)
  · simp only [strings, List.mem_cons, List.flatMap_append, List.mem_append] at hz ⊢
    rcases hz with h | h
    · exact .inl h
    · exact .inr (.inl h)

theorem header_mem (W : World K V ρ) (g : Header) (bs : List Block) (b : Block) :
    Spec.header b.header ∈ strings W g (bs ++ [b]) := by
  simp [strings, Spec.hashed]

theorem hashed_mem (W : World K V ρ) (g : Header) (bs : List Block) (b : Block) {y : Bytes}
    (h : y ∈ Spec.hashed W.P W.H b) : y ∈ strings W g (bs ++ [b]) := by
  simp only [strings, List.flatMap_append, List.flatMap_cons, List.flatMap_nil, List.append_nil]
  exact List.mem_cons_of_mem _ (List.mem_append_right _ h)

theorem header_eq {P : Params} {h h' : Header} (hok : Spec.HeaderOk P h) (hok' : Spec.HeaderOk P h')
    (e : Spec.header h = Spec.header h') : h = h' := codes_inj' (header_codes P) hok hok' e

/-- A header above the first one does not have its hash. -/
theorem above_first {W : World K V ρ} {wa : Bool} {g q q' : Point K V ρ} {bs : List Block} {b : Block}
    (hg : Spec.HeaderOk W.P g.header) (hb : Spec.HeaderOk W.P b.header) (hc : Chain W wa g bs q)
    (hq : Extends W wa (fun _ => True) q b q') (e : W.H (Spec.header g.header) = W.H (Spec.header b.header)) :
    Spec.header g.header ≠ Spec.header b.header := by
  intro h
  have := header_eq hg hb h
  have h1 := chain_slot hc
  have h2 := hq.later
  rw [this] at h1
  omega

theorem commits {W : World K V ρ} {wa : Bool} (hH : ∀ x, (W.H x).length = 32) {g p : Point K V ρ} {bs : List Block}
    (hg : Spec.HeaderOk W.P g.header) (h : Chain W wa g bs p) :
    ∀ (bs' : List Block) (p' : Point K V ρ), (∀ b ∈ bs, Spec.BlockOk W.P b) → (∀ b ∈ bs', Spec.BlockOk W.P b) →
      Chain W wa g bs' p' → hh W p.header = hh W p'.header → bs = bs' ∧ p = p' ∨ Collide W g.header g.header bs bs' := by
  induction h with
  | nil =>
    intro bs' p' _ hb' h' e
    cases h' with
    | nil => exact .inl ⟨rfl, rfl⟩
    | @snoc bs' q _ b hc hq =>
      right
      have ho := (hb' b (by simp)).header
      rw [hq.header] at e
      exact ⟨_, List.mem_cons_self, _, header_mem W g.header bs' b, above_first hg ho hc hq e, e⟩
  | @snoc bs q p b hc hq ih =>
    intro bs' p' hb hb' h' e
    have hob := hb b (by simp)
    cases h' with
    | nil =>
      right
      rw [hq.header] at e
      exact ⟨_, header_mem W g.header bs b, _, List.mem_cons_self, (above_first hg hob.header hc hq e.symm).symm, e⟩
    | @snoc bs' q' _ b' hc' hq' =>
      have hob' := hb' b' (by simp)
      rw [hq.header, hq'.header] at e
      rcases C47_block_binds W.P W.H hH b b' hob hob' (by rw [xt_hash hob.xt, hq.xt]) (by rw [xt_hash hob'.xt, hq'.xt])
        (hh W b.header) (hash_ok hob.header) (by rw [hash_ok hob'.header, e]) with hbb | ⟨y, hy, z, hz, hne, hyz⟩
      · subst hbb
        rcases ih bs' q' (fun x hx => hb x (by simp [hx])) (fun x hx => hb' x (by simp [hx])) hc'
          (by rw [← hq.parent, ← hq'.parent]) with ⟨h1, h2⟩ | hcol
        · subst h1; subst h2
          exact .inl ⟨rfl, extends_det hq hq'⟩
        · exact .inr (collide_mono hcol)
      · exact .inr ⟨y, hashed_mem W _ bs b hy, z, hashed_mem W _ bs' b' hz, hne, hyz⟩

/-! ## Authored blocks -/

/-- What a successful `authorHeader` did. -/
theorem authorHeader_some {W : World K V ρ} {sk : Bytes} {i slot : Nat} {n n' : Node K V ρ} {h : Header}
    (e : authorHeader W sk i slot n = (n', some h)) :
    ∃ xh parent d1 r1 m vrf s hash h0, Extrinsics.hash W.P W.H noXt = .ok xh ∧ Header.hash W.H n.best = .ok parent ∧
      h0 = prelude (W.root n.db) parent xh i slot ∧
      W.pre ⟨slot, W.root n.db, noXt.disputes, noXt.tickets⟩ n.db n.view n.ring = (d1, r1, some m) ∧
      signEntropy W sk (W.sealer (over (d1 ++ n.dirty) n.db) slot) (W.eta3 (over (d1 ++ n.dirty) n.db)) = some vrf ∧
      signSeal W sk (W.sealer (over (d1 ++ n.dirty) n.db) slot) (W.eta3 (over (d1 ++ n.dirty) n.db))
        (epilogue h0 vrf m) = some s ∧
      h = (withSeal (epilogue h0 vrf m) s) ∧
      Header.hash W.H h = .ok hash ∧
      n' = { n with dirty := d1 ++ n.dirty, ring := r1, best := h, headers := (hash, h) :: n.headers } := by
  unfold authorHeader at e
  split at e
  · rename_i xh parent hx hp
    have hs : (prelude (W.root n.db) parent xh i slot).slot = slot := rfl
    have hr : (prelude (W.root n.db) parent xh i slot).stateRoot = W.root n.db := rfl
    generalize hp0 : prelude (W.root n.db) parent xh i slot = h0 at e hs hr
    simp only [phase1, preIn, hs, hr] at e
    generalize h1 : W.pre ⟨slot, W.root n.db, noXt.disputes, noXt.tickets⟩ n.db n.view n.ring = r at e
    obtain ⟨d1, r1, m⟩ := r
    cases m with
    | none => simp at e
    | some m =>
      simp only [sealHeader] at e
      have hv : Node.view { n with dirty := d1 ++ n.dirty, ring := r1 } = over (d1 ++ n.dirty) n.db := rfl
      rw [hv, hs] at e
      cases h2 : signEntropy W sk (W.sealer (over (d1 ++ n.dirty) n.db) slot) (W.eta3 (over (d1 ++ n.dirty) n.db)) with
      | none => simp [h2] at e
      | some vrf =>
        simp only [h2] at e
        cases h3 : signSeal W sk (W.sealer (over (d1 ++ n.dirty) n.db) slot) (W.eta3 (over (d1 ++ n.dirty) n.db))
            (epilogue h0 vrf m) with
        | none => simp [h3] at e
        | some s =>
          simp only [h3] at e
          split at e
          · simp at e
          · rename_i hash hhash
            simp only [Prod.mk.injEq, Option.some.injEq] at e
            obtain ⟨e1, e2⟩ := e
            subst e2
            exact ⟨xh, parent, d1, r1, m, vrf, s, hash, h0, hx, hp, hp0.symm, rfl, h2, h3, rfl, hhash, e1.symm⟩
  · simp at e

/-- What a successful `authorState` did. -/
theorem authorState_some {W : World K V ρ} {n n' : Node K V ρ} {h : Header} {root : Bytes}
    (e : authorState W n h = (n', some root)) :
    ∃ d2 r2 out c d3 hash, Header.hash W.H h = .ok hash ∧
      W.post ⟨noXt, h.parent, h.author, h.vrf⟩ none n.db n.view n.ring = (d2, r2, some (out, c)) ∧
      W.fin hash out n.db (over (d2 ++ n.dirty) n.db) = (d3, some ()) ∧
      root = W.root (over (d3 ++ (d2 ++ n.dirty)) n.db) ∧
      n' = { n with db := over (d3 ++ (d2 ++ n.dirty)) n.db, dirty := [], ring := r2, roots := (hash, root) :: n.roots } := by
  unfold authorState at e
  split at e
  · rename_i n1 c hash he hh1
    simp only [execPost, phase2, postIn, finish, phase3] at he
    simp only [Bool.false_eq_true, if_false] at he
    generalize h2 : W.post ⟨noXt, h.parent, h.author, h.vrf⟩ none n.db n.view n.ring = r at he
    obtain ⟨d2, r2, o⟩ := r
    cases o with
    | none => simp at he
    | some oc =>
      obtain ⟨out, c'⟩ := oc
      have hv : Node.view { n with dirty := d2 ++ n.dirty, ring := r2 } = over (d2 ++ n.dirty) n.db := rfl
      simp only [hh1] at he
      rw [hv] at he
      generalize h3 : W.fin hash out n.db (over (d2 ++ n.dirty) n.db) = r3 at he
      obtain ⟨d3, o⟩ := r3
      cases o with
      | none => simp at he
      | some u =>
        simp only [Prod.mk.injEq, Except.ok.injEq] at he
        obtain ⟨he, _⟩ := he
        subst he
        simp only [Prod.mk.injEq, Option.some.injEq] at e
        obtain ⟨e1, e2⟩ := e
        subst e2
        exact ⟨d2, r2, out, c', d3, hash, hh1, rfl, h3, rfl, e1.symm⟩
  · simp at e

theorem withSeal_sig (h : Header) (s : Bytes) : (withSeal h s).sealSig = s := rfl

/-- The signatures of an authored header pass the checks of the importer. -/
theorem authored_signed {W : World K V ρ} {sk pk : Bytes} (hk : KeyPair W sk pk) {sl : Sealer} {eta3 vrf s : Bytes}
    {h0 : Header} {m : Markers} (h2 : signEntropy W sk sl eta3 = some vrf)
    (h3 : signSeal W sk sl eta3 (epilogue h0 vrf m) = some s) (hs : ∀ k, sl = .key k → k = pk) :
    checkSeal W (withSeal (epilogue h0 vrf m) s) sl pk eta3 = .ok () ∧
    checkVrf W (withSeal (epilogue h0 vrf m) s) pk = .ok () := by
  unfold signSeal at h3
  cases hd : Header.encData (epilogue h0 vrf m) with
  | error e => simp [hd] at h3
  | ok aux =>
    have hd' : Header.encData (withSeal (epilogue h0 vrf m) s) = .ok aux := hd
    simp only [hd] at h3
    cases sl with
    | ticket t =>
      simp only at h3
      split at h3
      · rename_i ho
        cases h3
        simp only [signEntropy, Option.some.injEq] at h2
        constructor
        · simp only [checkSeal, sealInput, withSeal_sig, ho, if_true, hd']
          exact if_pos (hk.verifies _ _)
        · simp only [checkVrf, withSeal_sig, ho]
          refine if_pos ?_
          show W.verify (X_E ++ t.id) [] vrf pk = true
          rw [← h2]
          exact hk.verifies _ _
      · cases h3
    | key k =>
      have := hs k rfl
      subst this
      simp only [Option.some.injEq] at h3
      subst h3
      simp only [signEntropy] at h2
      obtain ⟨o, ho⟩ := hk.output (X_F ++ eta3)
      rw [ho []] at h2
      simp only [Option.some.injEq] at h2
      constructor
      · simp only [checkSeal, sealInput, withSeal_sig, if_true, hd']
        exact if_pos (hk.verifies _ _)
      · simp only [checkVrf, withSeal_sig, ho aux]
        refine if_pos ?_
        show W.verify (X_E ++ o) [] vrf k = true
        rw [← h2]
        exact hk.verifies _ _

/-- An authored block is accepted by every node at the point it was authored on. -/
theorem authored_import {W : World K V ρ} {sk pk : Bytes} (hk : KeyPair W sk pk) {i slot : Nat} {clock : Option Nat}
    {n n' m : Node K V ρ} {p : Point K V ρ} {b : Block} {root : Bytes} (hn : At W n p) (hm : At W m p)
    (e : authorBlock W sk i slot n = (n', some (b, root))) (hl : p.header.slot < slot) (ht : timeOk clock slot)
    (hz : b.header.parent ≠ zeroHash)
    (hkey : ∀ d1 r1 mk, W.pre ⟨slot, W.root p.st, noXt.disputes, noXt.tickets⟩ p.st p.st p.ring = (d1, r1, some mk) →
      W.authorKey (over d1 p.st) i = some pk ∧ ∀ k, W.sealer (over d1 p.st) slot = .key k → k = pk) :
    ∃ m', importStep W clock m b = (m', .ok root) ∧ m'.db = n'.db ∧ m'.dirty = n'.dirty ∧ m'.ring = n'.ring ∧
      m'.best = n'.best ∧ (∃ x, m'.roots = (x, root) :: m.roots ∧ n'.roots = (x, root) :: n.roots ∧
        m'.anc = (slot, x) :: p.anc) ∧ n'.anc = p.anc := by
  obtain ⟨db, dirty, ring, best, anc, headers, roots⟩ := n
  obtain ⟨db', dirty', ring', best', anc', headers', roots'⟩ := m
  obtain ⟨a1, a2, a3, a4, a5, a6, a7⟩ := hn
  obtain ⟨b1, b2, b3, b4, b5, b6, b7⟩ := hm
  simp only at a1 a2 a3 a4 a5 a6 b1 b2 b3 b4 b5 b6
  subst a1 a2 a3 a4 a5 b1 b2 b3 b4 b5
  unfold authorBlock at e
  split at e
  · simp at e
  · rename_i n1 h he1
    split at e
    · simp at e
    · rename_i n2 r he2
      simp only [Prod.mk.injEq, Option.some.injEq] at e
      obtain ⟨rfl, rfl, rfl⟩ := e
      obtain ⟨xh, parent, d1, r1, mk, vrf, s, hash, h0, hx, hp, hh0, h1, h2, h3, rfl, hhash, rfl⟩ := authorHeader_some he1
      obtain ⟨d2, r2, out, c, d3, hash', hhash', h4, h5, rfl, rfl⟩ := authorState_some he2
      have : hash' = hash := by rw [hhash] at hhash'; cases hhash'; rfl
      subst this
      simp only [List.append_nil, Node.view, over] at h1 h2 h3 h4 h5 hp hkey ⊢
      obtain ⟨k1, k2⟩ := hkey _ _ _ h1
      obtain ⟨c1, c2⟩ := authored_signed hk h2 h3 k2
      have hpar : parent = hh W p.header := by rw [hash_ok a7] at hp; cases hp; rfl
      have f1 : (withSeal (epilogue h0 vrf mk) s).slot = slot := by rw [hh0]; rfl
      have f2 : (withSeal (epilogue h0 vrf mk) s).parent = parent := by rw [hh0]; rfl
      have f3 : (withSeal (epilogue h0 vrf mk) s).stateRoot = W.root p.st := by rw [hh0]; rfl
      have f4 : (withSeal (epilogue h0 vrf mk) s).xtHash = xh := by rw [hh0]; rfl
      have f5 : (withSeal (epilogue h0 vrf mk) s).author = i := by rw [hh0]; rfl
      have f6 : (withSeal (epilogue h0 vrf mk) s).epochMarker = mk.epoch := rfl
      have f7 : (withSeal (epilogue h0 vrf mk) s).winners = mk.winners := rfl
      have f8 : (withSeal (epilogue h0 vrf mk) s).offenders = mk.offenders := rfl
      generalize withSeal (epilogue h0 vrf mk) s = h' at *
      have hg : isGenesis ⟨h', noXt⟩ = false := notGenesis hz
      have hprior : checkPrior W clock ⟨p.st, [], p.ring, p.header, p.anc, headers', roots'⟩ ⟨h', noXt⟩ = .ok () := by
        simp only [checkPrior, also_ok, checkSlot_ok, checkParent_ok W a7, checkRoot_ok, checkXt, hx, f1, f2, f3, f4, hpar, b6]
        simp [hl, ht]
      have hpost : checkPost W (over d1 p.st) h' mk = .ok () := by
        simp only [checkPost, f5, k1, also_ok, checkMarkers_ok, Marked, f6, f7, f8, f1, and_self, and_true]
        exact ⟨c1, c2⟩
      have hin : preIn ⟨h', noXt⟩ = ⟨slot, W.root p.st, noXt.disputes, noXt.tickets⟩ := by simp [preIn, f1, f3]
      have hexec : exec W false ⟨p.st, [], p.ring, p.header, p.anc, headers', roots'⟩ ⟨h', noXt⟩ =
          (⟨p.st, d3 ++ (d2 ++ d1), r2, p.header, p.anc, headers', roots'⟩, .ok c) := by
        simp only [exec, hg, Bool.false_eq_true, if_false, phase1, hin, Node.view, over, h1, List.append_nil, hpost, execPost,
          phase2, postIn, h4, finish, hhash, phase3, h5]
      refine ⟨⟨over (d3 ++ (d2 ++ d1)) p.st, [], r2, h', (slot, hash') :: p.anc, (hash', h') :: headers',
        (hash', W.root (over (d3 ++ (d2 ++ d1)) p.st)) :: roots'⟩, ?_, rfl, rfl, rfl, rfl, ⟨hash', rfl, rfl, rfl⟩, trivial⟩
      simp only [importStep, hhash, importBlock, validate, hg, Bool.false_eq_true, if_false, hprior, runStf, hexec,
        conclude, setBest, insertIf, Node.commit, Node.insertHeader, Node.setRoot, Node.view, f1]

end Fastroll.Chain
