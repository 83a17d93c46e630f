import Verif.Wire.Lemmas2
/-! Injectivity of layouts, hashing, panics and octet strings. -/
namespace Fastroll.Wire
open Fastroll.Codec
open Spec (Codes)

theorem codes_inj {α : Type} {e : Enc α} {d : Dec α} {ok : α → Prop} {s : α → Bytes} (h : Codes e d ok s)
    {a b : α} (ha : ok a) (hb : ok b) {r t : Bytes} (heq : s a ++ r = s b ++ t) : a = b ∧ r = t := by
  have h1 := (h a ha).2 r
  rw [heq, (h b hb).2 t] at h1
  simp at h1
  exact ⟨h1.1.symm, h1.2.symm⟩

theorem codes_inj' {α : Type} {e : Enc α} {d : Dec α} {ok : α → Prop} {s : α → Bytes} (h : Codes e d ok s)
    {a b : α} (ha : ok a) (hb : ok b) (heq : s a = s b) : a = b :=
  (codes_inj h ha hb (r := []) (t := []) (by rw [heq])).1

/-! ### Guarantees with hashed reports -/

abbrev Slim := Bytes × Nat × List Credential

def slim (H : Bytes → Bytes) (g : GuaranteeXt) : Slim := (H (Spec.report g.report), g.slot, g.credentials)

def slimPaper (t : Slim) : Bytes := t.1 ++ (paperFixed 4 t.2.1 ++ Spec.var Spec.credential t.2.2)

theorem slim_codes : Codes (pairEnc arrEnc (pairEnc (fixedEncode 4) (vecEnc Credential.enc)))
    (pairDec (arrDec 32) (pairDec (fixedDecode 32 4) (vecDec 66 Credential.dec)))
    (fun t => t.1.length = 32 ∧ t.2.1 < 2 ^ (8 * 4) ∧ Spec.Fits t.2.2.length 66 ∧ ∀ c ∈ t.2.2, Spec.CredentialOk c)
    slimPaper :=
  pair_codes (arr_codes 32) (pair_codes (fixed_codes 32 4 (by decide) (by decide))
    (vec_codes 66 (by decide) credential_codes))

theorem guaranteeHashed_slim (H : Bytes → Bytes) (gs : List GuaranteeXt) :
    Spec.var (Spec.guaranteeHashed H) gs = Spec.var slimPaper (gs.map (slim H)) := by
  simp only [Spec.var, Spec.seq, List.length_map, List.flatMap_map]
  congr 1
  induction gs with
  | nil => rfl
  | cons g gs ih =>
    rw [List.flatMap_cons, List.flatMap_cons, ih]
    congr 1
    simp [Spec.guaranteeHashed, slimPaper, slim]

theorem slim_ok {P : Params} {H : Bytes → Bytes} (hH : ∀ x, (H x).length = 32) {g : GuaranteeXt}
    (h : Spec.GuaranteeOk P g) : (slim H g).1.length = 32 ∧ (slim H g).2.1 < 2 ^ (8 * 4) ∧
      Spec.Fits (slim H g).2.2.length 66 ∧ ∀ c ∈ (slim H g).2.2, Spec.CredentialOk c :=
  ⟨hH _, h.slot, h.fit, h.credentials⟩

/-- Equal reports at equal places or two different reports with one hash. -/
theorem slim_inj {P : Params} {H : Bytes → Bytes} : ∀ (gs gs' : List GuaranteeXt),
    (∀ g ∈ gs, Spec.GuaranteeOk P g) → (∀ g ∈ gs', Spec.GuaranteeOk P g) →
    gs.map (slim H) = gs'.map (slim H) → gs = gs' ∨ ∃ g ∈ gs, ∃ g' ∈ gs',
      Spec.report g.report ≠ Spec.report g'.report ∧ H (Spec.report g.report) = H (Spec.report g'.report) := by
  intro gs
  induction gs with
  | nil =>
    intro gs' _ _ h
    cases gs' with
    | nil => exact .inl rfl
    | cons g gs' => simp at h
  | cons g gs ih =>
    intro gs' h1 h2 h
    cases gs' with
    | nil => simp at h
    | cons g' gs' =>
      simp only [List.map_cons, List.cons.injEq] at h
      obtain ⟨hh, ht⟩ := h
      rcases ih gs' (fun x hx => h1 x (by simp [hx])) (fun x hx => h2 x (by simp [hx])) ht with he | ⟨x, hx, y, hy, hc⟩
      · simp only [slim, Prod.mk.injEq] at hh
        by_cases hr : Spec.report g.report = Spec.report g'.report
        · left
          have := codes_inj' (report_codes P) (h1 g (by simp)).report (h2 g' (by simp)).report hr
          obtain ⟨r, s, c⟩ := g
          obtain ⟨r', s', c'⟩ := g'
          simp only at this hh
          rw [this, hh.2.1, hh.2.2, he]
        · right
          exact ⟨g, by simp, g', by simp, hr, hh.1⟩
      · right
        exact ⟨x, by simp [hx], y, by simp [hy], hc⟩

theorem hashed_enc {P : Params} {H : Bytes → Bytes} {g : GuaranteeXt} (h : Spec.GuaranteeOk P g) :
    GuaranteeXt.encHashed H g = .ok (Spec.guaranteeHashed H g) := by
  have f0 := (report_codes P g.report h.report).1
  have f1 := (fixed_codes 32 4 (by decide) (by decide) g.slot h.slot).1
  have f2 := (vec_codes 66 (by decide) credential_codes g.credentials ⟨h.fit, h.credentials⟩).1
  simp [GuaranteeXt.encHashed, hashOf, cat, f0, f1, f2, Spec.guaranteeHashed]

theorem seqEnc_ok {α : Type} {e : Enc α} {s : α → Bytes} : ∀ as : List α, (∀ a ∈ as, e a = .ok (s a)) →
    seqEnc e as = .ok (Spec.seq s as) := by
  intro as
  induction as with
  | nil => intro _; rfl
  | cons a as ih =>
    intro h
    simp [seqEnc, h a (by simp), ih (fun x hx => h x (by simp [hx])), Spec.seq]

theorem xt_hash {P : Params} {H : Bytes → Bytes} {x : Extrinsics} (h : Spec.XtOk P x) :
    Extrinsics.hash P H x = .ok (Spec.xtHash P H x) := by
  have f0 := (vec_codes 785 (by decide) ticketXt_codes x.tickets ⟨h.ticketsFit, h.tickets⟩).1
  have f1 := (vec_codes 32 (by decide) preimageXt_codes x.preimages ⟨h.preimagesFit, h.preimages⟩).1
  have f2 : guaranteesEncHashed H x.guarantees = .ok (Spec.var (Spec.guaranteeHashed H) x.guarantees) := by
    have a := (nat_codes 64 (by decide) x.guarantees.length h.guaranteesSize).1
    have b := seqEnc_ok (e := GuaranteeXt.encHashed H) (s := Spec.guaranteeHashed H) x.guarantees
      (fun g hg => hashed_enc (h.guarantees g hg))
    simp [guaranteesEncHashed, vecEnc, a, b, Spec.var]
  have f3 := (limited_codes P.validators (assurance_codes P) x.assurances
    ⟨h.assurancesCount, h.assurancesSize, h.assurances⟩).1
  have f4 := (disputes_codes P x.disputes h.disputes).1
  simp [Extrinsics.hash, hashOf, cat, ticketsEnc, preimagesEnc, assurancesEnc, f0, f1, f2, f3, f4, Spec.xtHash]

/-- Splitting off a first part of known length. -/
theorem split32 {a b c d : Bytes} (ha : a.length = 32) (hb : b.length = 32) (h : a ++ c = b ++ d) :
    a = b ∧ c = d := List.append_inj h (by rw [ha, hb])

/-- Equal extrinsic hashes: the same extrinsics, or a collision among the strings hashed. -/
theorem xtHash_binds {P : Params} {H : Bytes → Bytes} (hH : ∀ x, (H x).length = 32) {b b' : Block}
    (h : Spec.XtOk P b.xt) (h' : Spec.XtOk P b'.xt) (he : Spec.xtHash P H b.xt = Spec.xtHash P H b'.xt) :
    b.xt = b'.xt ∨ ∃ x ∈ Spec.hashed P H b, ∃ y ∈ Spec.hashed P H b', x ≠ y ∧ H x = H y := by
  unfold Spec.xtHash at he
  by_cases c0 : H (Spec.var Spec.ticketXt b.xt.tickets) ++ H (Spec.var Spec.preimageXt b.xt.preimages) ++
      H (Spec.var (Spec.guaranteeHashed H) b.xt.guarantees) ++ H (Spec.var (Spec.assurance P) b.xt.assurances) ++
      H (Spec.disputes b.xt.disputes) =
    H (Spec.var Spec.ticketXt b'.xt.tickets) ++ H (Spec.var Spec.preimageXt b'.xt.preimages) ++
      H (Spec.var (Spec.guaranteeHashed H) b'.xt.guarantees) ++ H (Spec.var (Spec.assurance P) b'.xt.assurances) ++
      H (Spec.disputes b'.xt.disputes)
  · simp only [List.append_assoc] at c0
    obtain ⟨e1, c1⟩ := split32 (hH _) (hH _) c0
    obtain ⟨e2, c2⟩ := split32 (hH _) (hH _) c1
    obtain ⟨e3, c3⟩ := split32 (hH _) (hH _) c2
    obtain ⟨e4, e5⟩ := split32 (hH _) (hH _) c3
    by_cases d1 : Spec.var Spec.ticketXt b.xt.tickets = Spec.var Spec.ticketXt b'.xt.tickets
    · by_cases d2 : Spec.var Spec.preimageXt b.xt.preimages = Spec.var Spec.preimageXt b'.xt.preimages
      · by_cases d3 : Spec.var (Spec.guaranteeHashed H) b.xt.guarantees = Spec.var (Spec.guaranteeHashed H) b'.xt.guarantees
        · by_cases d4 : Spec.var (Spec.assurance P) b.xt.assurances = Spec.var (Spec.assurance P) b'.xt.assurances
          · by_cases d5 : Spec.disputes b.xt.disputes = Spec.disputes b'.xt.disputes
            · have g1 := codes_inj' (vec_codes 785 (by decide) ticketXt_codes) ⟨h.ticketsFit, h.tickets⟩
                ⟨h'.ticketsFit, h'.tickets⟩ d1
              have g2 := codes_inj' (vec_codes 32 (by decide) preimageXt_codes) ⟨h.preimagesFit, h.preimages⟩
                ⟨h'.preimagesFit, h'.preimages⟩ d2
              have g4 := codes_inj' (limited_codes P.validators (assurance_codes P))
                ⟨h.assurancesCount, h.assurancesSize, h.assurances⟩
                ⟨h'.assurancesCount, h'.assurancesSize, h'.assurances⟩ d4
              have g5 := codes_inj' (disputes_codes P) h.disputes h'.disputes d5
              rw [guaranteeHashed_slim, guaranteeHashed_slim] at d3
              have g3 := codes_inj' (limited_codes P.cores slim_codes)
                (a := b.xt.guarantees.map (slim H)) (b := b'.xt.guarantees.map (slim H))
                ⟨by rw [List.length_map]; exact h.guaranteesCount, by rw [List.length_map]; exact h.guaranteesSize, by
                  intro t ht
                  obtain ⟨g, hg, rfl⟩ := List.mem_map.mp ht
                  exact slim_ok hH (h.guarantees g hg)⟩
                ⟨by rw [List.length_map]; exact h'.guaranteesCount, by rw [List.length_map]; exact h'.guaranteesSize, by
                  intro t ht
                  obtain ⟨g, hg, rfl⟩ := List.mem_map.mp ht
                  exact slim_ok hH (h'.guarantees g hg)⟩ d3
              rcases slim_inj _ _ h.guarantees h'.guarantees g3 with g3e | ⟨g, hg, g', hg', hne, hc⟩
              · left
                obtain ⟨hd, t, p, g, a, d⟩ := b
                obtain ⟨hd', t', p', g', a', d'⟩ := b'
                simp only at g1 g2 g3e g4 g5 ⊢
                rw [g1, g2, g3e, g4, g5]
              · right
                exact ⟨_, List.mem_append_right _ (List.mem_map.mpr ⟨g, hg, rfl⟩), _,
                  List.mem_append_right _ (List.mem_map.mpr ⟨g', hg', rfl⟩), hne, hc⟩
            · right; exact ⟨_, by simp [Spec.hashed], _, by simp [Spec.hashed], d5, e5⟩
          · right
            refine ⟨Spec.var (Spec.assurance P) b.xt.assurances, by simp [Spec.hashed],
              Spec.var (Spec.assurance P) b'.xt.assurances, by simp [Spec.hashed], d4, e4⟩
        · right
          refine ⟨Spec.var (Spec.guaranteeHashed H) b.xt.guarantees, by simp [Spec.hashed],
            Spec.var (Spec.guaranteeHashed H) b'.xt.guarantees, by simp [Spec.hashed], d3, e3⟩
      · right
        refine ⟨Spec.var Spec.preimageXt b.xt.preimages, by simp [Spec.hashed],
          Spec.var Spec.preimageXt b'.xt.preimages, by simp [Spec.hashed], d2, e2⟩
    · right
      refine ⟨Spec.var Spec.ticketXt b.xt.tickets, by simp [Spec.hashed],
        Spec.var Spec.ticketXt b'.xt.tickets, by simp [Spec.hashed], d1, e1⟩
  · right
    exact ⟨_, List.mem_cons_of_mem _ (List.mem_cons_self ..), _,
      List.mem_cons_of_mem _ (List.mem_cons_self ..), c0, he⟩

/-! ### Octet strings through the integer codec -/

theorem byteSeq_small (b : Bytes) (h : ∀ x ∈ b, x.toNat < 128) :
    seqEnc (fun x : UInt8 => natEnc x.toNat) b = .ok b := by
  induction b with
  | nil => rfl
  | cons x b ih =>
    have hx := h x (by simp)
    have hn : natEnc x.toNat = .ok [x] := by
      have : ∀ n : Fin 128, natEnc n.val = .ok [UInt8.ofNat n.val] := by decide +kernel
      have := this ⟨x.toNat, hx⟩
      simpa using this
    simp [seqEnc, hn, ih (fun y hy => h y (by simp [hy]))]

theorem byteEnc_len : ∀ x : UInt8, ∃ bs, natEnc x.toNat = .ok bs ∧ bs.length = if x.toNat < 128 then 1 else 2 := by
  intro x
  have : ∀ n : Fin 256, (intEncode n.val).length = if n.val < 128 then 1 else 2 := by decide +kernel
  have hx := x.toNat_lt
  exact ⟨intEncode x.toNat, by simp [natEnc, show x.toNat < 2 ^ 64 by omega], this ⟨x.toNat, hx⟩⟩

theorem byteSeq_len (b : Bytes) : ∃ bs, seqEnc (fun x : UInt8 => natEnc x.toNat) b = .ok bs ∧
    bs.length = b.length + b.countP (fun x => decide (128 ≤ x.toNat)) := by
  induction b with
  | nil => exact ⟨[], rfl, rfl⟩
  | cons x b ih =>
    obtain ⟨bs, h1, h2⟩ := ih
    obtain ⟨cs, h3, h4⟩ := byteEnc_len x
    refine ⟨cs ++ bs, by simp [seqEnc, h1, h3], ?_⟩
    rw [List.length_append, h2, h4, List.countP_cons, List.length_cons]
    by_cases hx : x.toNat < 128
    · simp [hx, show ¬ 128 ≤ x.toNat by omega]; omega
    · simp [hx, show 128 ≤ x.toNat by omega]; omega

theorem vecU8Enc_iff (b : Bytes) (hb : b.length < 2 ^ 63) :
    vecU8Enc b = .ok (Spec.blob b) ↔ ∀ x ∈ b, x.toNat < 128 := by
  have hn := (nat_codes 64 (by decide) b.length (show b.length < 2 ^ 64 by omega)).1
  constructor
  · intro h
    obtain ⟨bs, h1, h2⟩ := byteSeq_len b
    have : vecU8Enc b = .ok (Spec.nat b.length ++ bs) := by simp [vecU8Enc, vecEnc, hn, h1]
    rw [this] at h
    injection h with h
    unfold Spec.blob at h
    have hl := congrArg List.length h
    simp only [List.length_append, h2] at hl
    have h0 : b.countP (fun x => decide (128 ≤ x.toNat)) = 0 := by omega
    rw [List.countP_eq_zero] at h0
    intro x hx
    have := h0 x hx
    simp at this
    exact this
  · intro h
    simp [vecU8Enc, vecEnc, hn, byteSeq_small b h, Spec.blob]

theorem byteSeqDec_small : ∀ (b rest : Bytes), (∀ x ∈ b, x.toNat < 128) →
    seqDec ((intDecode 8).bind fun n => Dec.pure (UInt8.ofNat n)) b.length (b ++ rest) = .ok (b, rest) := by
  intro b
  induction b with
  | nil => intro rest _; rfl
  | cons x b ih =>
    intro rest h
    have hx := h x (by simp)
    have h1 : intEncode x.toNat = [x] := by
      have : ∀ n : Fin 128, intEncode n.val = [UInt8.ofNat n.val] := by decide +kernel
      have := this ⟨x.toNat, hx⟩
      simpa using this
    have hd := C01_int_roundtrip 8 x.toNat (by decide) (by omega) (b ++ rest)
    rw [h1, List.cons_append, List.nil_append] at hd
    have hd2 : ((intDecode 8).bind fun n => Dec.pure (UInt8.ofNat n)) (x :: (b ++ rest)) = .ok (x, b ++ rest) := by
      rw [bind_ok hd]; simp
    rw [List.length_cons, List.cons_append, seqDec, bind_ok hd2, bind_ok (ih rest (fun y hy => h y (by simp [hy])))]
    rfl

end Fastroll.Wire
