import Verif.Stats.Lemmas

/-! # Lemmas on the statistics of cores. -/
namespace Fastroll.Stats

theorem foldl_digest (ds : List Digest) (e : CoreEntry) :
    ds.foldl coreDigest e =
      { e with
        imports := e.imports + UInt16.ofNat (ds.map (fun d => d.imports.toNat)).sum
        xts := e.xts + UInt16.ofNat (ds.map (fun d => d.xts.toNat)).sum
        xtOctets := e.xtOctets + UInt32.ofNat (ds.map (fun d => d.xtOctets.toNat)).sum
        exports := e.exports + UInt16.ofNat (ds.map (fun d => d.exports.toNat)).sum
        gas := e.gas + UInt64.ofNat (ds.map (fun d => d.gas.toNat)).sum } := by
  induction ds generalizing e with
  | nil => simp
  | cons d ds ih =>
    rw [List.foldl_cons, ih]
    simp only [coreDigest, List.map_cons, List.sum_cons, UInt16.ofNat_add, UInt32.ofNat_add, UInt64.ofNat_add,
      UInt16.add_assoc, UInt32.add_assoc, UInt64.add_assoc, UInt16.ofNat_toNat, UInt32.ofNat_toNat,
      UInt64.ofNat_toNat]

/-- The entry of a core after the reports of a list. -/
def foldCore (f : Report → CoreEntry → CoreEntry) (c : Nat) (rs : List Report) (e : CoreEntry) : CoreEntry :=
  (rs.filter (onCore c)).foldl (fun e r => f r e) e

theorem perCore_spec (f : Report → CoreEntry → CoreEntry) (rs : List Report) (es es' : List CoreEntry)
    (h : perCore f rs es = some es') :
    es'.length = es.length ∧ ∀ c, es'[c]? = es[c]?.map (foldCore f c rs) := by
  induction rs generalizing es with
  | nil =>
    simp only [perCore, Option.some.injEq] at h
    subst h
    refine ⟨rfl, fun c => ?_⟩
    cases es[c]? <;> rfl
  | cons r rs ih =>
    simp only [perCore, modAt_some] at h
    by_cases hr : r.core < es.length
    · rw [if_pos hr, Option.bind_some] at h
      obtain ⟨h1, h2⟩ := ih _ h
      refine ⟨by rw [h1, List.length_modify], fun c => ?_⟩
      rw [h2 c, List.getElem?_modify]
      unfold foldCore
      rw [List.filter_cons]
      by_cases hc : r.core = c
      · have : onCore c r = true := by simp [onCore, hc]
        rw [if_pos this]
        cases es[c]? <;> simp [hc]
      · have : onCore c r = false := by simp [onCore, hc]
        rw [this]
        cases es[c]? <;> simp [hc]
    · rw [if_neg hr] at h
      simp at h

theorem perCore_total (f : Report → CoreEntry → CoreEntry) (rs : List Report) (es : List CoreEntry) :
    (perCore f rs es).isSome = true ↔ ∀ r ∈ rs, r.core < es.length := by
  induction rs generalizing es with
  | nil => simp [perCore]
  | cons r rs ih =>
    simp only [perCore, modAt_some]
    by_cases hr : r.core < es.length
    · rw [if_pos hr, Option.bind_some, ih, List.length_modify]
      simp [hr]
    · rw [if_neg hr]
      simp [hr]

theorem guarantee_fold (rs : List Report) (e : CoreEntry) :
    rs.foldl (fun e r => coreGuarantee r e) e =
      (rs.flatMap Report.digests).foldl coreDigest
        { e with bundle := e.bundle + UInt32.ofNat (rs.map (fun r => r.bundleLen.toNat)).sum } := by
  induction rs generalizing e with
  | nil => simp
  | cons r rs ih =>
    rw [List.foldl_cons, ih, List.flatMap_cons, List.foldl_append]
    congr 1
    unfold coreGuarantee
    simp only [foldl_digest, List.map_cons, List.sum_cons, UInt32.ofNat_add, UInt32.add_assoc, UInt32.ofNat_toNat]

theorem available_fold (rs : List Report) (e : CoreEntry) :
    rs.foldl (fun e r => coreAvailable r e) e =
      { e with daSize := e.daSize + UInt32.ofNat (rs.map (fun r => (daLoad r).toNat)).sum } := by
  induction rs generalizing e with
  | nil => simp
  | cons r rs ih =>
    rw [List.foldl_cons, ih]
    simp only [coreAvailable, List.map_cons, List.sum_cons, UInt32.ofNat_add, UInt32.add_assoc, UInt32.ofNat_toNat]

theorem addBits_total (ns : List Nat) (bs : List Bool) :
    (addBits ns bs).isSome = true ↔ bs.length ≤ ns.length := by
  induction ns generalizing bs with
  | nil => cases bs <;> simp [addBits]
  | cons n ns ih => cases bs with
    | nil => simp [addBits]
    | cons b bs => simp [addBits, ih]

theorem addBits_get (ns ms : List Nat) (bs : List Bool) (h : addBits ns bs = some ms) :
    ms.length = ns.length ∧ ∀ c : Nat, ms[c]? = ns[c]?.map (· + (bs[c]?.getD false).toNat) := by
  induction ns generalizing bs ms with
  | nil => cases bs with
    | nil => simp only [addBits, Option.some.injEq] at h; subst h; simp
    | cons b bs => simp [addBits] at h
  | cons n ns ih => cases bs with
    | nil =>
      simp only [addBits, Option.some.injEq] at h; subst h
      refine ⟨rfl, fun c => ?_⟩
      simp
    | cons b bs =>
      simp only [addBits, Option.map_eq_some_iff] at h
      obtain ⟨ks, h1, rfl⟩ := h
      obtain ⟨i1, i2⟩ := ih _ _ h1
      refine ⟨by simp [i1], fun c => ?_⟩
      cases c with
      | zero => simp
      | succ c => simp [i2]

theorem counts_fold (as : List Assurance) (ns ms : List Nat)
    (h : as.foldl (fun ns a => ns.bind (addBits · a.bits)) (some ns) = some ms) :
    ms.length = ns.length ∧
      ∀ c : Nat, ms[c]? = ns[c]?.map (· + countIf (fun a => a.bits[c]?.getD false) as) := by
  induction as generalizing ns with
  | nil =>
    simp only [List.foldl_nil, Option.some.injEq] at h; subst h
    refine ⟨rfl, fun c => ?_⟩
    simp [countIf]
  | cons a as ih =>
    rw [List.foldl_cons, Option.bind_some] at h
    cases hb : addBits ns a.bits with
    | none =>
      rw [hb] at h
      have hnone : ∀ as : List Assurance,
          as.foldl (fun ns a => ns.bind (addBits · a.bits)) (none : Option (List Nat)) = none := by
        intro as
        induction as with
        | nil => rfl
        | cons a as ih => simpa using ih
      rw [hnone] at h
      simp at h
    | some ks =>
      rw [hb] at h
      obtain ⟨i1, i2⟩ := ih ks h
      obtain ⟨j1, j2⟩ := addBits_get _ _ _ hb
      refine ⟨by omega, fun c => ?_⟩
      rw [i2 c, j2 c]
      have hc := count_cons (fun a : Assurance => a.bits[c]?.getD false) a as
      cases ns[c]? with
      | none => rfl
      | some n =>
        simp only [Option.map_some, Option.some.injEq]
        rw [hc]
        cases a.bits[c]?.getD false <;> simp <;> omega

theorem counts_total (as : List Assurance) (ns : List Nat) :
    (as.foldl (fun ns a => ns.bind (addBits · a.bits)) (some ns)).isSome = true ↔
      ∀ a ∈ as, a.bits.length ≤ ns.length := by
  induction as generalizing ns with
  | nil => simp
  | cons a as ih =>
    rw [List.foldl_cons, Option.bind_some]
    have ht := addBits_total ns a.bits
    cases hb : addBits ns a.bits with
    | none =>
      rw [hb] at ht
      have hnone : ∀ as : List Assurance,
          as.foldl (fun ns a => ns.bind (addBits · a.bits)) (none : Option (List Nat)) = none := by
        intro as
        induction as with
        | nil => rfl
        | cons a as ih => simpa using ih
      rw [hnone]
      simp only [Option.isSome_none, Bool.false_eq_true, false_iff, Nat.not_le] at ht
      constructor
      · intro h; simp at h
      · intro h
        have := h a (by simp)
        omega
    | some ks =>
      rw [hb] at ht
      simp only [Option.isSome_some, true_iff] at ht
      rw [ih ks, (addBits_get _ _ _ hb).1]
      simp [ht]

theorem coreStats_get {K : Type} (C : Nat) (b : Block K) (cs : List CoreEntry) (h : coreStats C b = some cs) :
    cs.length = C ∧ ∀ c, c < C → ∃ e, cs[c]? = some e ∧ CoreRight c b e ∧
      e.daSize.toNat = sumIf (onCore c) (fun r => (daLoad r).toNat) b.available % 2 ^ 32 := by
  unfold coreStats at h
  simp only [Option.bind_eq_some_iff, Option.map_eq_some_iff] at h
  obtain ⟨es, h1, fs, h2, ns, h3, rfl⟩ := h
  obtain ⟨l1, g1⟩ := perCore_spec _ _ _ _ h1
  obtain ⟨l2, g2⟩ := perCore_spec _ _ _ _ h2
  obtain ⟨l3, g3⟩ := counts_fold _ _ _ h3
  rw [List.length_replicate] at l1 l3
  refine ⟨by simp [setAssurers]; omega, ?_⟩
  intro c hc
  have e1 : es[c]? = some (foldCore coreGuarantee c b.guarantees {}) := by
    rw [g1 c, List.getElem?_replicate, if_pos hc]; rfl
  have e2 : fs[c]? = some (foldCore coreAvailable c b.available (foldCore coreGuarantee c b.guarantees {})) := by
    rw [g2 c, e1]; rfl
  have e3 : ns[c]? = some (0 + countIf (fun a => a.bits[c]?.getD false) b.assurances) := by
    rw [g3 c, List.getElem?_replicate, if_pos hc]; rfl
  have hz : (setAssurers fs ns)[c]? = some
      { foldCore coreAvailable c b.available (foldCore coreGuarantee c b.guarantees {}) with
        assurers := UInt16.ofNat (0 + countIf (fun a => a.bits[c]?.getD false) b.assurances) } := by
    unfold setAssurers
    rw [List.getElem?_zipWith, e2, e3]
  refine ⟨_, hz, ?_, ?_⟩
  · constructor <;>
      simp [foldCore, guarantee_fold, available_fold, foldl_digest, coreDigests, sumIf]
  · simp [foldCore, guarantee_fold, available_fold, foldl_digest, sumIf]

theorem coreStats_total {K : Type} (C : Nat) (b : Block K) :
    (coreStats C b).isSome = true ↔ (∀ r ∈ b.guarantees, r.core < C) ∧ (∀ r ∈ b.available, r.core < C) ∧
      (∀ a ∈ b.assurances, a.bits.length ≤ C) := by
  have t1 := perCore_total coreGuarantee b.guarantees (List.replicate C {})
  have t3 := counts_total b.assurances (List.replicate C 0)
  rw [List.length_replicate] at t1 t3
  unfold coreStats
  cases h1 : perCore coreGuarantee b.guarantees (List.replicate C {}) with
  | none =>
    rw [h1] at t1
    constructor
    · intro h; simp at h
    · rintro ⟨h, -, -⟩
      have := t1.mpr h
      simp at this
  | some es =>
    rw [h1] at t1
    have l1 := (perCore_spec _ _ _ _ h1).1
    rw [List.length_replicate] at l1
    have t2 := perCore_total coreAvailable b.available es
    rw [l1] at t2
    rw [Option.bind_some]
    cases h2 : perCore coreAvailable b.available es with
    | none =>
      rw [h2] at t2
      constructor
      · intro h; simp at h
      · rintro ⟨-, h, -⟩
        have := t2.mpr h
        simp at this
    | some fs =>
      rw [h2] at t2
      rw [Option.bind_some, Option.isSome_map]
      unfold assuranceCounts
      rw [t3]
      simp only [Option.isSome_some, true_iff] at t1 t2
      exact ⟨fun h => ⟨t1, t2, h⟩, fun h => h.2.2⟩

theorem daLoad_nat (r : Report) :
    (daLoad r).toNat = (r.bundleLen.toNat + 4104 * 65 * ((r.segCount.toNat + 63) / 64)) % 2 ^ 32 := by
  have := r.segCount.toNat_lt
  unfold daLoad
  simp only [UInt32.toNat_add, UInt32.toNat_mul, UInt32.toNat_ofNat]
  simp

end Fastroll.Stats
