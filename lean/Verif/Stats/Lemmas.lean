import Verif.Stats.Spec

/-! # Lemmas on the statistics: counters as sums. -/
namespace Fastroll.Stats

theorem modAt_some {α : Type} (l : List α) (i : Nat) (f : α → α) :
    modAt l i f = if i < l.length then some (l.modify i f) else none := by
  induction l generalizing i with
  | nil => simp [modAt]
  | cons a l ih => cases i with
    | zero => simp [modAt]
    | succ i =>
      simp only [modAt, ih, List.length_cons]
      by_cases h : i < l.length
      · rw [if_pos h, if_pos (by omega)]; simp
      · rw [if_neg h, if_neg (by omega)]; rfl

/-! ## Words as sums -/

theorem u16_mod (n : Nat) : (UInt16.ofNat n).toNat = n % 2 ^ 16 := UInt16.toNat_ofNat
theorem u32_mod (n : Nat) : (UInt32.ofNat n).toNat = n % 2 ^ 32 := UInt32.toNat_ofNat
theorem u64_mod (n : Nat) : (UInt64.ofNat n).toNat = n % 2 ^ 64 := UInt64.toNat_ofNat

theorem sum_filter_cons {α : Type} (p : α → Bool) (f : α → Nat) (a : α) (l : List α) :
    sumIf p f (a :: l) = (if p a then f a else 0) + sumIf p f l := by
  unfold sumIf
  rw [List.filter_cons]
  split <;> simp

theorem count_cons {α : Type} (p : α → Bool) (a : α) (l : List α) :
    countIf p (a :: l) = (if p a then 1 else 0) + countIf p l := by
  unfold countIf
  rw [List.filter_cons]
  split <;> simp [Nat.add_comm]

/-! ## Validators -/

/-- One entry plus the counts of a list of blocks. -/
def valPlus {K : Type} [DecidableEq K] (v : Nat) (bs : List (Block K)) (e : ValEntry) : ValEntry :=
  { blocks := e.blocks + UInt32.ofNat (countIf (authored v) bs)
    tickets := e.tickets + UInt32.ofNat (sumIf (authored v) Block.tickets bs)
    preimages := e.preimages + UInt32.ofNat (sumIf (authored v) (fun b => b.preimages.length) bs)
    octets := e.octets + UInt32.ofNat (sumIf (authored v) (fun b => (b.preimages.map Preimage.len).sum) bs)
    guarantees := e.guarantees + UInt32.ofNat (countIf (reported v) bs)
    assurances := e.assurances + UInt32.ofNat (countIf (assured v) bs) }

theorem valPlus_nil {K : Type} [DecidableEq K] (v : Nat) (e : ValEntry) :
    valPlus v ([] : List (Block K)) e = e := by
  simp [valPlus, countIf, sumIf]

theorem valPlus_cons {K : Type} [DecidableEq K] (v : Nat) (b : Block K) (bs : List (Block K)) (e : ValEntry) :
    valPlus v (b :: bs) e = valPlus v bs (valPlus v [b] e) := by
  simp only [valPlus, count_cons, sum_filter_cons, UInt32.ofNat_add, UInt32.add_assoc]
  simp [countIf, sumIf]

theorem valPlus_right {K : Type} [DecidableEq K] (v : Nat) (bs : List (Block K)) :
    ValRight v bs (valPlus v bs {}) := by
  constructor <;> simp [valPlus]

theorem assuredBy_eq {K : Type} (b : Block K) (v : Nat) : assuredBy b.assurances v = assured v b := by
  unfold assuredBy assured
  congr 1

theorem validatorLoop_length {K : Type} [DecidableEq K] (b : Block K) (v : Nat) (es : List ValEntry)
    (keys : List K) : (validatorLoop b v es keys).length = es.length := by
  induction es generalizing v keys with
  | nil => cases keys <;> rfl
  | cons e es ih => cases keys with
    | nil => rfl
    | cons k keys => simp [validatorLoop, ih]

theorem validatorLoop_get {K : Type} [DecidableEq K] (b : Block K) (v : Nat) (es : List ValEntry)
    (keys : List K) (h : es.length ≤ keys.length) (i : Nat) :
    (validatorLoop b v es keys)[i]? =
      es[i]?.map (fun e => (keys[i]?.map (fun k => validatorEntry b (v + i) k e)).getD e) := by
  induction es generalizing v keys i with
  | nil => cases keys <;> simp [validatorLoop]
  | cons e es ih => cases keys with
    | nil => simp at h
    | cons k keys =>
      simp only [List.length_cons, Nat.add_le_add_iff_right] at h
      cases i with
      | zero => simp [validatorLoop]
      | succ i =>
        simp only [validatorLoop, List.getElem?_cons_succ, ih (v + 1) keys h i]
        have hv : v + 1 + i = v + (i + 1) := by omega
        rw [hv]

theorem entry_step {K : Type} [DecidableEq K] (b : Block K) (v : Nat) (e : ValEntry) (k : K)
    (hk : b.active[v]? = some k) :
    validatorEntry b v k (if b.author = v then authorEntry b e else e) = valPlus v [b] e := by
  have hr : reported v b = b.reporters.contains k := by
    unfold reported
    rw [hk]
    simp
  have hp : valPlus v [b] e =
      { blocks := e.blocks + UInt32.ofNat (if authored v b then 1 else 0)
        tickets := e.tickets + UInt32.ofNat (if authored v b then b.tickets else 0)
        preimages := e.preimages + UInt32.ofNat (if authored v b then b.preimages.length else 0)
        octets := e.octets + UInt32.ofNat (if authored v b then (b.preimages.map Preimage.len).sum else 0)
        guarantees := e.guarantees + UInt32.ofNat (if reported v b then 1 else 0)
        assurances := e.assurances + UInt32.ofNat (if assured v b then 1 else 0) } := by
    simp only [valPlus, count_cons, sum_filter_cons]
    simp [countIf, sumIf]
  rw [hp, hr, ← assuredBy_eq]
  unfold validatorEntry authored authorEntry
  by_cases h1 : b.author = v <;> cases h2 : b.reporters.contains k <;>
    cases h3 : assuredBy b.assurances v <;> simp [h1]

theorem transition_curr {K : Type} [DecidableEq K] (V C : Nat) (b : Block K) (s s' : Stats)
    (hs : s.curr.length = V) (ha : b.active.length = V) (h : transition V C b s = some s') :
    s'.curr.length = V ∧ b.author < V ∧
    s'.prev = (if b.newEpoch then s.curr else s.prev) ∧
    ∀ v, v < V → ∀ e, (if b.newEpoch then some {} else s.curr[v]?) = some e →
      s'.curr[v]? = some (valPlus v [b] e) := by
  unfold transition at h
  dsimp only at h
  generalize ht : (if b.newEpoch = true then newEpoch V s else s) = t at h
  have hlen : t.curr.length = V := by
    rw [← ht]; split
    · simp [newEpoch]
    · exact hs
  have hprev : t.prev = (if b.newEpoch then s.curr else s.prev) := by
    rw [← ht]; split <;> rfl
  have hget : ∀ v, v < V → t.curr[v]? = (if b.newEpoch then some {} else s.curr[v]?) := by
    intro v hv
    rw [← ht]; split
    · simp [newEpoch, hv]
    · rfl
  unfold validatorStats at h
  rw [modAt_some, hlen] at h
  by_cases hA : b.author < V
  · rw [if_pos hA] at h
    simp only [Option.map_some, Option.bind_some, perBlock, Option.map_eq_some_iff] at h
    obtain ⟨cs, _, rfl⟩ := h
    refine ⟨?_, hA, hprev, ?_⟩
    · simp [validatorLoop_length, hlen]
    · intro v hv e he
      rw [← hget v hv] at he
      dsimp only
      rw [validatorLoop_get _ _ _ _ (by simp [hlen, ha])]
      obtain ⟨k, hk⟩ : ∃ k, b.active[v]? = some k := ⟨b.active[v]'(by omega), by simp [ha, hv]⟩
      rw [List.getElem?_modify, he, hk]
      simp only [Option.map_some, Option.getD_some, Nat.zero_add]
      rw [← entry_step b v e k hk]
      by_cases h1 : b.author = v
      · simp [h1]
      · simp [h1]
  · rw [if_neg hA] at h
    simp at h

theorem chain_append {K : Type} [DecidableEq K] (V C : Nat) (as bs : List (Block K)) (s : Stats) :
    chain V C (as ++ bs) s = (chain V C as s).bind (chain V C bs) := by
  induction as generalizing s with
  | nil => rfl
  | cons a as ih =>
    simp only [List.cons_append, chain]
    cases transition V C a s with
    | none => rfl
    | some t => simp [ih]

/-- All blocks name one key per validator. -/
def Keyed {K : Type} (V : Nat) (bs : List (Block K)) : Prop := ∀ b ∈ bs, b.active.length = V

theorem chain_length {K : Type} [DecidableEq K] (V C : Nat) (bs : List (Block K)) (s s' : Stats)
    (hs : s.curr.length = V) (hk : Keyed V bs) (h : chain V C bs s = some s') : s'.curr.length = V := by
  induction bs generalizing s with
  | nil => simp only [chain, Option.some.injEq] at h; rw [← h]; exact hs
  | cons b bs ih =>
    simp only [chain, Option.bind_eq_some_iff] at h
    obtain ⟨t, h1, h2⟩ := h
    exact ih t (transition_curr V C b s t hs (hk b (by simp)) h1).1 (fun x hx => hk x (by simp [hx])) h2

theorem chain_same_epoch {K : Type} [DecidableEq K] (V C : Nat) (bs : List (Block K)) (s s' : Stats)
    (hs : s.curr.length = V) (hk : Keyed V bs) (hn : ∀ b ∈ bs, b.newEpoch = false)
    (h : chain V C bs s = some s') :
    s'.prev = s.prev ∧ ∀ v, v < V → ∀ e, s.curr[v]? = some e → s'.curr[v]? = some (valPlus v bs e) := by
  induction bs generalizing s with
  | nil =>
    simp only [chain, Option.some.injEq] at h
    subst h
    exact ⟨rfl, fun v _ e he => by rw [valPlus_nil]; exact he⟩
  | cons b bs ih =>
    simp only [chain, Option.bind_eq_some_iff] at h
    obtain ⟨t, h1, h2⟩ := h
    obtain ⟨ht, _, hp, hc⟩ := transition_curr V C b s t hs (hk b (by simp)) h1
    have hb := hn b (by simp)
    obtain ⟨ip, ic⟩ := ih t ht (fun x hx => hk x (by simp [hx])) (fun x hx => hn x (by simp [hx])) h2
    rw [hb] at hp hc
    refine ⟨by rw [ip, hp]; rfl, ?_⟩
    intro v hv e he
    rw [valPlus_cons]
    exact ic v hv _ (hc v hv e he)

theorem chain_epoch {K : Type} [DecidableEq K] (V C : Nat) (b : Block K) (bs : List (Block K)) (s s' : Stats)
    (hs : s.curr.length = V) (hk : Keyed V (b :: bs)) (hb : b.newEpoch = true)
    (hn : ∀ b ∈ bs, b.newEpoch = false) (h : chain V C (b :: bs) s = some s') :
    s'.prev = s.curr ∧ ∀ v, v < V → s'.curr[v]? = some (valPlus v (b :: bs) {}) := by
  simp only [chain, Option.bind_eq_some_iff] at h
  obtain ⟨t, h1, h2⟩ := h
  obtain ⟨ht, _, hp, hc⟩ := transition_curr V C b s t hs (hk b (by simp)) h1
  obtain ⟨ip, ic⟩ := chain_same_epoch V C bs t s' ht (fun x hx => hk x (by simp [hx])) hn h2
  rw [hb] at hp hc
  refine ⟨by rw [ip, hp]; rfl, ?_⟩
  intro v hv
  rw [valPlus_cons]
  exact ic v hv _ (hc v hv {} rfl)

end Fastroll.Stats
