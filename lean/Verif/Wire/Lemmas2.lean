import Verif.Wire.Lemmas
/-! Each wire type is encoded as the paper lays it out and read back. -/
namespace Fastroll.Wire
open Fastroll.Codec
open Spec (Codes)

theorem arr_step (n : Nat) {b : Bytes} (h : b.length = n) :
    arrEnc b = .ok b ∧ ∀ rest, arrDec n (b ++ rest) = .ok (b, rest) := arr_codes n b h

theorem hashPair_codes : Codes (pairEnc arrEnc arrEnc) (pairDec (arrDec 32) (arrDec 32))
    (fun p => p.1.length = 32 ∧ p.2.length = 32) (fun p => p.1 ++ p.2) :=
  pair_codes (arr_codes 32) (arr_codes 32)

theorem ctx_codes : Codes (RefineCtx.enc) (RefineCtx.dec) (Spec.CtxOk) (Spec.ctx) := by
  intro a h
  have f0 := arr_step (b := a.anchor) 32 h.anchor
  have f1 := arr_step (b := a.stateRoot) 32 h.stateRoot
  have f2 := arr_step (b := a.beefyRoot) 32 h.beefyRoot
  have f3 := arr_step (b := a.lookupAnchor) 32 h.lookupAnchor
  have f4 := fixed_codes 32 4 (by decide) (by decide) a.lookupSlot h.lookupSlot
  have f5 := set_codes bytesLt_asymm (arr_codes 32) a.prerequisites ⟨h.size, h.sorted, h.each⟩
  exact ⟨by simp [RefineCtx.enc, Spec.ctx, cat, f0.1, f1.1, f2.1, f3.1, f4.1, f5.1],
    fun rest => by simp only [RefineCtx.dec, Spec.ctx, List.append_assoc, bind_ok (f0.2 _), bind_ok (f1.2 _), bind_ok (f2.2 _), bind_ok (f3.2 _), bind_ok (f4.2 _), bind_ok (f5.2 _)]; rfl⟩

theorem specs_codes : Codes (AvailSpecs.enc) (AvailSpecs.dec) (Spec.SpecsOk) (Spec.specs) := by
  intro a h
  have f0 := arr_step (b := a.packageHash) 32 h.packageHash
  have f1 := fixed_codes 32 4 (by decide) (by decide) a.bundleLength h.bundleLength
  have f2 := arr_step (b := a.erasureRoot) 32 h.erasureRoot
  have f3 := arr_step (b := a.segmentRoot) 32 h.segmentRoot
  have f4 := fixed_codes 16 2 (by decide) (by decide) a.segmentCount h.segmentCount
  exact ⟨by simp [AvailSpecs.enc, Spec.specs, cat, f0.1, f1.1, f2.1, f3.1, f4.1],
    fun rest => by simp only [AvailSpecs.dec, Spec.specs, List.append_assoc, bind_ok (f0.2 _), bind_ok (f1.2 _), bind_ok (f2.2 _), bind_ok (f3.2 _), bind_ok (f4.2 _)]; rfl⟩

theorem result_codes : Codes WorkResult.enc WorkResult.dec Spec.ResultOk Spec.result := by
  intro a h
  cases a with
  | output b =>
    have f := octets_codes b h
    refine ⟨by simp [WorkResult.enc, Spec.result, cat, f.1, natEnc, show intEncode 0 = [0] by decide], fun rest => ?_⟩
    have := C01_int_roundtrip 8 0 (by decide) (by decide) (Spec.blob b ++ rest)
    rw [show intEncode 0 = [0] by decide, List.cons_append, List.nil_append] at this
    simp only [WorkResult.dec, Spec.result, List.cons_append]
    rw [bind_ok this, WorkResult.decTag, if_pos rfl, bind_ok (f.2 _)]
    rfl
  | error e => cases e <;> exact ⟨by decide, fun rest => rfl⟩

theorem stats_codes : Codes (RefineStats.enc) (RefineStats.dec) (Spec.StatsOk) (Spec.stats) := by
  intro a h
  have f0 := nat_codes 64 (by decide) a.gasUsed h.gasUsed
  have f1 := nat_codes 16 (by decide) a.imports h.imports
  have f2 := nat_codes 16 (by decide) a.xtCount h.xtCount
  have f3 := nat_codes 32 (by decide) a.xtOctets h.xtOctets
  have f4 := nat_codes 16 (by decide) a.exports h.exports
  exact ⟨by simp [RefineStats.enc, Spec.stats, cat, f0.1, f1.1, f2.1, f3.1, f4.1],
    fun rest => by simp only [RefineStats.dec, Spec.stats, List.append_assoc, bind_ok (f0.2 _), bind_ok (f1.2 _), bind_ok (f2.2 _), bind_ok (f3.2 _), bind_ok (f4.2 _)]; rfl⟩

theorem digest_codes : Codes (WorkDigest.enc) (WorkDigest.dec) (Spec.DigestOk) (Spec.digest) := by
  intro a h
  have f0 := fixed_codes 32 4 (by decide) (by decide) a.service h.service
  have f1 := arr_step (b := a.codeHash) 32 h.codeHash
  have f2 := arr_step (b := a.payloadHash) 32 h.payloadHash
  have f3 := fixed_codes 64 8 (by decide) (by decide) a.accGas h.accGas
  have f4 := result_codes a.result h.result
  have f5 := stats_codes a.stats h.stats
  exact ⟨by simp [WorkDigest.enc, Spec.digest, cat, f0.1, f1.1, f2.1, f3.1, f4.1, f5.1],
    fun rest => by simp only [WorkDigest.dec, Spec.digest, List.append_assoc, bind_ok (f0.2 _), bind_ok (f1.2 _), bind_ok (f2.2 _), bind_ok (f3.2 _), bind_ok (f4.2 _), bind_ok (f5.2 _)]; rfl⟩

theorem report_codes (P : Params) : Codes (WorkReport.enc) (WorkReport.dec P) (Spec.ReportOk P) (Spec.report) := by
  intro a h
  have f0 := specs_codes a.specs h.specs
  have f1 := ctx_codes a.ctx h.ctx
  have f2 := nat_codes 16 (by decide) a.core h.core
  have f3 := arr_step (b := a.authorizer) 32 h.authorizer
  have f4 := nat_codes 64 (by decide) a.authGas h.authGas
  have f5 := octets_codes a.trace h.trace
  have f6 := map_codes bytesLt_asymm hashPair_codes a.lookup ⟨h.lookupSize, List.pairwise_map.mp h.lookupSorted, h.lookup⟩
  have f7 := limited_codes P.maxItems digest_codes a.digests ⟨h.digestCount, h.digestSize, h.digests⟩
  exact ⟨by simp [WorkReport.enc, Spec.report, cat, f0.1, f1.1, f2.1, f3.1, f4.1, f5.1, f6.1, f7.1],
    fun rest => by simp only [WorkReport.dec, Spec.report, List.append_assoc, bind_ok (f0.2 _), bind_ok (f1.2 _), bind_ok (f2.2 _), bind_ok (f3.2 _), bind_ok (f4.2 _), bind_ok (f5.2 _), bind_ok (f6.2 _), bind_ok (f7.2 _)]; rfl⟩

theorem import_codes : Codes ImportInfo.enc ImportInfo.dec Spec.ImportOk Spec.importInfo := by
  intro a h
  obtain ⟨i, n⟩ := a
  have hn : n < 2 ^ 15 := h.index
  cases i with
  | segmentRoot b =>
    have f0 := arr_step (b := b) 32 h.id
    have f1 := fixed_codes 16 2 (by decide) (by decide) n (show n < 2 ^ 16 by omega)
    refine ⟨by simp [ImportInfo.enc, ImportInfo.parts, Spec.importInfo, cat, f0.1, f1.1], fun rest => ?_⟩
    simp only [ImportInfo.dec, Spec.importInfo, List.append_assoc, bind_ok (f0.2 _), bind_ok (f1.2 _)]
    rw [if_neg (by omega)]; rfl
  | packageHash b =>
    have f0 := arr_step (b := b) 32 h.id
    have f1 := fixed_codes 16 2 (by decide) (by decide) (n + 2 ^ 15) (show n + 2 ^ 15 < 2 ^ 16 by omega)
    have hm : (n + 2 ^ 15) % 2 ^ 16 = n + 2 ^ 15 := Nat.mod_eq_of_lt (by omega)
    refine ⟨?_, fun rest => ?_⟩
    · simp only [ImportInfo.enc, ImportInfo.parts, Spec.importInfo, hm, f0.1, f1.1]; rfl
    · simp only [ImportInfo.dec, Spec.importInfo, List.append_assoc, bind_ok (f0.2 _), bind_ok (f1.2 _)]
      rw [if_pos (by omega), Nat.add_sub_cancel]; rfl

theorem xtInfo_codes : Codes (XtInfo.enc) (XtInfo.dec) (Spec.XtInfoOk) (Spec.xtInfo) := by
  intro a h
  have f0 := arr_step (b := a.hash) 32 h.hash
  have f1 := fixed_codes 32 4 (by decide) (by decide) a.length h.length
  exact ⟨by simp [XtInfo.enc, Spec.xtInfo, cat, f0.1, f1.1],
    fun rest => by simp only [XtInfo.dec, Spec.xtInfo, List.append_assoc, bind_ok (f0.2 _), bind_ok (f1.2 _)]; rfl⟩

theorem item_codes : Codes (WorkItem.enc) (WorkItem.dec) (Spec.ItemOk) (Spec.item) := by
  intro a h
  have f0 := fixed_codes 32 4 (by decide) (by decide) a.service h.service
  have f1 := arr_step (b := a.codeHash) 32 h.codeHash
  have f2 := fixed_codes 64 8 (by decide) (by decide) a.refineGas h.refineGas
  have f3 := fixed_codes 64 8 (by decide) (by decide) a.accGas h.accGas
  have f4 := fixed_codes 16 2 (by decide) (by decide) a.exports h.exports
  have f5 := octets_codes a.payload h.payload
  have f6 := vec_codes 36 (by decide) import_codes a.imports ⟨h.importsFit, h.imports⟩
  have f7 := vec_codes 36 (by decide) xtInfo_codes a.xts ⟨h.xtsFit, h.xts⟩
  exact ⟨by simp [WorkItem.enc, Spec.item, cat, f0.1, f1.1, f2.1, f3.1, f4.1, f5.1, f6.1, f7.1],
    fun rest => by simp only [WorkItem.dec, Spec.item, List.append_assoc, bind_ok (f0.2 _), bind_ok (f1.2 _), bind_ok (f2.2 _), bind_ok (f3.2 _), bind_ok (f4.2 _), bind_ok (f5.2 _), bind_ok (f6.2 _), bind_ok (f7.2 _)]; rfl⟩

theorem package_codes (P : Params) : Codes (WorkPackage.enc) (WorkPackage.dec P) (Spec.PackageOk P) (Spec.package) := by
  intro a h
  have f0 := fixed_codes 32 4 (by decide) (by decide) a.authService h.authService
  have f1 := arr_step (b := a.authCode) 32 h.authCode
  have f2 := ctx_codes a.ctx h.ctx
  have f3 := octets_codes a.token h.token
  have f4 := octets_codes a.config h.config
  have f5 := limited_codes P.maxItems item_codes a.items ⟨h.itemCount, h.itemSize, h.items⟩
  exact ⟨by simp [WorkPackage.enc, Spec.package, cat, f0.1, f1.1, f2.1, f3.1, f4.1, f5.1],
    fun rest => by simp only [WorkPackage.dec, Spec.package, List.append_assoc, bind_ok (f0.2 _), bind_ok (f1.2 _), bind_ok (f2.2 _), bind_ok (f3.2 _), bind_ok (f4.2 _), bind_ok (f5.2 _)]; rfl⟩

theorem ticketXt_codes : Codes (TicketXt.enc) (TicketXt.dec) (Spec.TicketXtOk) (Spec.ticketXt) := by
  intro a h
  have f0 := nat_codes 8 (by decide) a.index h.index
  have f1 := arr_step (b := a.proof) 784 h.proof
  exact ⟨by simp [TicketXt.enc, Spec.ticketXt, cat, f0.1, f1.1],
    fun rest => by simp only [TicketXt.dec, Spec.ticketXt, List.append_assoc, bind_ok (f0.2 _), bind_ok (f1.2 _)]; rfl⟩

theorem preimageXt_codes : Codes (PreimageXt.enc) (PreimageXt.dec) (Spec.PreimageXtOk) (Spec.preimageXt) := by
  intro a h
  have f0 := fixed_codes 32 4 (by decide) (by decide) a.service h.service
  have f1 := octets_codes a.data h.data
  exact ⟨by simp [PreimageXt.enc, Spec.preimageXt, cat, f0.1, f1.1],
    fun rest => by simp only [PreimageXt.dec, Spec.preimageXt, List.append_assoc, bind_ok (f0.2 _), bind_ok (f1.2 _)]; rfl⟩

theorem credential_codes : Codes (Credential.enc) (Credential.dec) (Spec.CredentialOk) (Spec.credential) := by
  intro a h
  have f0 := fixed_codes 16 2 (by decide) (by decide) a.validator h.validator
  have f1 := arr_step (b := a.signature) 64 h.signature
  exact ⟨by simp [Credential.enc, Spec.credential, cat, f0.1, f1.1],
    fun rest => by simp only [Credential.dec, Spec.credential, List.append_assoc, bind_ok (f0.2 _), bind_ok (f1.2 _)]; rfl⟩

theorem guarantee_codes (P : Params) : Codes (GuaranteeXt.enc) (GuaranteeXt.dec P) (Spec.GuaranteeOk P) (Spec.guarantee) := by
  intro a h
  have f0 := report_codes P a.report h.report
  have f1 := fixed_codes 32 4 (by decide) (by decide) a.slot h.slot
  have f2 := vec_codes 66 (by decide) credential_codes a.credentials ⟨h.fit, h.credentials⟩
  exact ⟨by simp [GuaranteeXt.enc, Spec.guarantee, cat, f0.1, f1.1, f2.1],
    fun rest => by simp only [GuaranteeXt.dec, Spec.guarantee, List.append_assoc, bind_ok (f0.2 _), bind_ok (f1.2 _), bind_ok (f2.2 _)]; rfl⟩

theorem assurance_codes (P : Params) : Codes (AssuranceXt.enc P) (AssuranceXt.dec P) (Spec.AssuranceOk P) (Spec.assurance P) := by
  intro a h
  have f0 := arr_step (b := a.anchor) 32 h.anchor
  have f1 := bits_codes P.cores a.bits h.bits
  have f2 := fixed_codes 16 2 (by decide) (by decide) a.validator h.validator
  have f3 := arr_step (b := a.signature) 64 h.signature
  exact ⟨by simp [AssuranceXt.enc, Spec.assurance, cat, f0.1, f1.1, f2.1, f3.1],
    fun rest => by simp only [AssuranceXt.dec, Spec.assurance, List.append_assoc, bind_ok (f0.2 _), bind_ok (f1.2 _), bind_ok (f2.2 _), bind_ok (f3.2 _)]; rfl⟩

theorem judgment_codes : Codes (Judgment.enc) (Judgment.dec) (Spec.JudgmentOk) (Spec.judgment) := by
  intro a h
  have f0 := bool_codes a.valid trivial
  have f1 := fixed_codes 16 2 (by decide) (by decide) a.voter h.voter
  have f2 := arr_step (b := a.signature) 64 h.signature
  exact ⟨by simp [Judgment.enc, Spec.judgment, cat, f0.1, f1.1, f2.1],
    fun rest => by simp only [Judgment.dec, Spec.judgment, List.append_assoc, bind_ok (f0.2 _), bind_ok (f1.2 _), bind_ok (f2.2 _)]; rfl⟩

theorem verdict_codes (P : Params) : Codes (Verdict.enc) (Verdict.dec P) (Spec.VerdictOk P) (Spec.verdict) := by
  intro a h
  have f0 := arr_step (b := a.report) 32 h.report
  have f1 := fixed_codes 32 4 (by decide) (by decide) a.epoch h.epoch
  have f2 := arrOf_codes P.superMajority judgment_codes a.judgments ⟨h.count, h.judgments⟩
  exact ⟨by simp [Verdict.enc, Spec.verdict, cat, f0.1, f1.1, f2.1],
    fun rest => by simp only [Verdict.dec, Spec.verdict, List.append_assoc, bind_ok (f0.2 _), bind_ok (f1.2 _), bind_ok (f2.2 _)]; rfl⟩

theorem culprit_codes : Codes (Culprit.enc) (Culprit.dec) (Spec.CulpritOk) (Spec.culprit) := by
  intro a h
  have f0 := arr_step (b := a.report) 32 h.report
  have f1 := arr_step (b := a.key) 32 h.key
  have f2 := arr_step (b := a.signature) 64 h.signature
  exact ⟨by simp [Culprit.enc, Spec.culprit, cat, f0.1, f1.1, f2.1],
    fun rest => by simp only [Culprit.dec, Spec.culprit, List.append_assoc, bind_ok (f0.2 _), bind_ok (f1.2 _), bind_ok (f2.2 _)]; rfl⟩

theorem fault_codes : Codes (Fault.enc) (Fault.dec) (Spec.FaultOk) (Spec.fault) := by
  intro a h
  have f0 := arr_step (b := a.report) 32 h.report
  have f1 := bool_codes a.valid trivial
  have f2 := arr_step (b := a.key) 32 h.key
  have f3 := arr_step (b := a.signature) 64 h.signature
  exact ⟨by simp [Fault.enc, Spec.fault, cat, f0.1, f1.1, f2.1, f3.1],
    fun rest => by simp only [Fault.dec, Spec.fault, List.append_assoc, bind_ok (f0.2 _), bind_ok (f1.2 _), bind_ok (f2.2 _), bind_ok (f3.2 _)]; rfl⟩

theorem disputes_codes (P : Params) : Codes (DisputesXt.enc) (DisputesXt.dec P) (Spec.DisputesOk P) (Spec.disputes) := by
  intro a h
  have f0 := vec_codes 64 (by decide) (verdict_codes P) a.verdicts ⟨h.verdictsFit, h.verdicts⟩
  have f1 := vec_codes 128 (by decide) culprit_codes a.culprits ⟨h.culpritsFit, h.culprits⟩
  have f2 := vec_codes 129 (by decide) fault_codes a.faults ⟨h.faultsFit, h.faults⟩
  exact ⟨by simp [DisputesXt.enc, Spec.disputes, cat, f0.1, f1.1, f2.1],
    fun rest => by simp only [DisputesXt.dec, Spec.disputes, List.append_assoc, bind_ok (f0.2 _), bind_ok (f1.2 _), bind_ok (f2.2 _)]; rfl⟩

theorem xt_codes (P : Params) : Codes (Extrinsics.enc P) (Extrinsics.dec P) (Spec.XtOk P) (Spec.extrinsics P) := by
  intro a h
  have f0 := vec_codes 785 (by decide) ticketXt_codes a.tickets ⟨h.ticketsFit, h.tickets⟩
  have f1 := vec_codes 32 (by decide) preimageXt_codes a.preimages ⟨h.preimagesFit, h.preimages⟩
  have f2 := limited_codes P.cores (guarantee_codes P) a.guarantees ⟨h.guaranteesCount, h.guaranteesSize, h.guarantees⟩
  have f3 := limited_codes P.validators (assurance_codes P) a.assurances ⟨h.assurancesCount, h.assurancesSize, h.assurances⟩
  have f4 := disputes_codes P a.disputes h.disputes
  exact ⟨by simp [Extrinsics.enc, Spec.extrinsics, cat, ticketsEnc, preimagesEnc, guaranteesEnc, assurancesEnc, f0.1, f1.1, f2.1, f3.1, f4.1],
    fun rest => by simp only [Extrinsics.dec, Spec.extrinsics, List.append_assoc, bind_ok (f0.2 _), bind_ok (f1.2 _), bind_ok (f2.2 _), bind_ok (f3.2 _), bind_ok (f4.2 _)]; rfl⟩

theorem ticket_codes : Codes (Ticket.enc) (Ticket.dec) (Spec.TicketOk) (Spec.ticket) := by
  intro a h
  have f0 := arr_step (b := a.id) 32 h.id
  have f1 := nat_codes 8 (by decide) a.attempt h.attempt
  exact ⟨by simp [Ticket.enc, Spec.ticket, cat, f0.1, f1.1],
    fun rest => by simp only [Ticket.dec, Spec.ticket, List.append_assoc, bind_ok (f0.2 _), bind_ok (f1.2 _)]; rfl⟩

theorem epochKey_codes : Codes (EpochKey.enc) (EpochKey.dec) (Spec.EpochKeyOk) (Spec.epochKey) := by
  intro a h
  have f0 := arr_step (b := a.bandersnatch) 32 h.bandersnatch
  have f1 := arr_step (b := a.ed25519) 32 h.ed25519
  exact ⟨by simp [EpochKey.enc, Spec.epochKey, cat, f0.1, f1.1],
    fun rest => by simp only [EpochKey.dec, Spec.epochKey, List.append_assoc, bind_ok (f0.2 _), bind_ok (f1.2 _)]; rfl⟩

theorem marker_codes (P : Params) : Codes (EpochMarker.enc) (EpochMarker.dec P) (Spec.MarkerOk P) (Spec.marker) := by
  intro a h
  have f0 := arr_step (b := a.entropy) 32 h.entropy
  have f1 := arr_step (b := a.ticketsEntropy) 32 h.ticketsEntropy
  have f2 := arrOf_codes P.validators epochKey_codes a.keys ⟨h.count, h.keys⟩
  exact ⟨by simp [EpochMarker.enc, Spec.marker, cat, f0.1, f1.1, f2.1],
    fun rest => by simp only [EpochMarker.dec, Spec.marker, List.append_assoc, bind_ok (f0.2 _), bind_ok (f1.2 _), bind_ok (f2.2 _)]; rfl⟩

theorem header_codes (P : Params) : Codes (Header.enc) (Header.dec P) (Spec.HeaderOk P) (Spec.header) := by
  intro a h
  have f0 := arr_step (b := a.parent) 32 h.parent
  have f1 := arr_step (b := a.stateRoot) 32 h.stateRoot
  have f2 := arr_step (b := a.xtHash) 32 h.xtHash
  have f3 := fixed_codes 32 4 (by decide) (by decide) a.slot h.slot
  have f4 := opt_codes (marker_codes P) a.epochMarker h.epochMarker
  have f5 := opt_codes (arrOf_codes P.epoch ticket_codes) a.winners h.winners
  have f6 := fixed_codes 16 2 (by decide) (by decide) a.author h.author
  have f7 := arr_step (b := a.vrf) 96 h.vrf
  have f8 := vec_codes 32 (by decide) (arr_codes 32) a.offenders ⟨h.offendersFit, h.offenders⟩
  have f9 := arr_step (b := a.sealSig) 96 h.sealSig
  exact ⟨by simp [Header.enc, Header.encData, Spec.header, cat, Spec.unsealed, f0.1, f1.1, f2.1, f3.1, f4.1, f5.1, f6.1, f7.1, f8.1, f9.1],
    fun rest => by simp only [Header.dec, Spec.header, Spec.unsealed, List.append_assoc, bind_ok (f0.2 _), bind_ok (f1.2 _), bind_ok (f2.2 _), bind_ok (f3.2 _), bind_ok (f4.2 _), bind_ok (f5.2 _), bind_ok (f6.2 _), bind_ok (f7.2 _), bind_ok (f8.2 _), bind_ok (f9.2 _)]; rfl⟩

theorem block_codes (P : Params) : Codes (Block.enc P) (Block.dec P) (Spec.BlockOk P) (Spec.block P) := by
  intro a h
  have f0 := header_codes P a.header h.header
  have f1 := xt_codes P a.xt h.xt
  exact ⟨by simp [Block.enc, Spec.block, cat, f0.1, f1.1],
    fun rest => by simp only [Block.dec, Spec.block, List.append_assoc, bind_ok (f0.2 _), bind_ok (f1.2 _)]; rfl⟩

end Fastroll.Wire
