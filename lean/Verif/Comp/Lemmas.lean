import Verif.Comp.Spec
import Verif.Wire.Lemmas3
/-!
# Lemmas about the codecs of the state components
-/
namespace Fastroll.Comp
open Fastroll.Codec
open Fastroll.Wire
open Fastroll.Wire.Spec (Codes)

theorem codes_mono {α : Type} {e : Enc α} {d : Dec α} {P Q : α → Prop} {s : α → Bytes} (h : Codes e d P s)
    (hq : ∀ a, Q a → P a) : Codes e d Q s := fun a ha => h a (hq a ha)

theorem natLt_asymm (a b : Nat) (h : natLt a b = true) : natLt b a = false := by
  simp only [natLt, decide_eq_true_eq, decide_eq_false_iff_not] at *
  omega

theorem pool_codes (D : Dims) : Codes poolEnc (poolDec D) (Paper.PoolOk D) Paper.pool :=
  arrOf_codes D.wire.cores (limited_codes D.poolSize (arr_codes 32))

theorem queue_codes (D : Dims) : Codes queueEnc (queueDec D) (Paper.QueueOk D) Paper.queue :=
  arrOf_codes D.wire.cores (arrOf_codes D.queueSize (arr_codes 32))

theorem entry_codes : Codes Entry.enc Entry.dec Paper.EntryOk Paper.entry := by
  intro a h
  have f0 := arr_step (b := a.header) 32 h.header
  have f1 := arr_step (b := a.beefy) 32 h.beefy
  have f2 := arr_step (b := a.stateRoot) 32 h.stateRoot
  have f3 := vec_codes 64 (by decide) hashPair_codes a.packages ⟨h.fit, h.packages⟩
  exact ⟨by simp [Entry.enc, Paper.entry, cat, f0.1, f1.1, f2.1, f3.1],
    fun rest => by simp only [Entry.dec, Paper.entry, List.append_assoc, bind_ok (f0.2 _), bind_ok (f1.2 _), bind_ok (f2.2 _), bind_ok (f3.2 _)]; rfl⟩

theorem history_codes (D : Dims) : Codes History.enc (History.dec D) (Paper.HistoryOk D) Paper.history := by
  intro a h
  have f0 := limited_codes D.historyLength entry_codes a.entries ⟨h.limit, h.size, h.entries⟩
  have f1 := vec_codes 33 (by decide) (opt_codes (arr_codes 32)) a.belt ⟨h.beltFit, h.belt⟩
  exact ⟨by simp [History.enc, Paper.history, cat, f0.1, f1.1],
    fun rest => by simp only [History.dec, Paper.history, List.append_assoc, bind_ok (f0.2 _), bind_ok (f1.2 _)]; rfl⟩

theorem outputs_codes : Codes outputsEnc outputsDec Paper.OutputsOk Paper.outputs :=
  vec_codes 36 (by decide) (pair_codes (fixed_codes 32 4 (by decide) (by decide)) (arr_codes 32))

theorem key_codes : Codes VKey.enc VKey.dec Paper.KeyOk Paper.key := by
  intro a h
  have f0 := arr_step (b := a.bandersnatch) 32 h.bandersnatch
  have f1 := arr_step (b := a.ed25519) 32 h.ed25519
  have f2 := arr_step (b := a.bls) 144 h.bls
  have f3 := arr_step (b := a.metadata) 128 h.metadata
  exact ⟨by simp [VKey.enc, Paper.key, cat, f0.1, f1.1, f2.1, f3.1],
    fun rest => by simp only [VKey.dec, Paper.key, List.append_assoc, bind_ok (f0.2 _), bind_ok (f1.2 _), bind_ok (f2.2 _), bind_ok (f3.2 _)]; rfl⟩

theorem keys_codes (D : Dims) : Codes keysEnc (keysDec D) (Paper.KeysOk D) Paper.keys :=
  arrOf_codes D.wire.validators key_codes

theorem sealers_codes (D : Dims) : Codes Sealers.enc (Sealers.dec D) (Paper.SealersOk D) Paper.sealers := by
  intro a h
  cases a with
  | tickets l =>
    have f := arrOf_codes D.wire.epoch ticket_codes l h
    refine ⟨cat_ok (a := natEnc 0) (x := [0]) (by decide) f.1, fun rest => ?_⟩
    have h0 : intDecode 8 (0 :: (Wire.Spec.seq Wire.Spec.ticket l ++ rest)) = .ok (0, Wire.Spec.seq Wire.Spec.ticket l ++ rest) :=
      (nat_codes 8 (by decide) 0 (by decide)).2 _
    show (intDecode 8).bind (Sealers.decTag D.wire.epoch) (0 :: (Wire.Spec.seq Wire.Spec.ticket l ++ rest)) = _
    rw [bind_ok h0]
    unfold Sealers.decTag
    rw [if_pos rfl, bind_ok (f.2 _)]
    rfl
  | keys l =>
    have f := arrOf_codes D.wire.epoch (arr_codes 32) l h
    refine ⟨cat_ok (a := natEnc 1) (x := [1]) (by decide) f.1, fun rest => ?_⟩
    have h0 : intDecode 8 (1 :: (Wire.Spec.seq id l ++ rest)) = .ok (1, Wire.Spec.seq id l ++ rest) :=
      (nat_codes 8 (by decide) 1 (by decide)).2 _
    show (intDecode 8).bind (Sealers.decTag D.wire.epoch) (1 :: (Wire.Spec.seq id l ++ rest)) = _
    rw [bind_ok h0]
    unfold Sealers.decTag
    rw [if_neg (by decide), if_pos rfl, bind_ok (f.2 _)]
    rfl

theorem hashes_codes : Codes (vecEnc arrEnc) (vecDec 32 (arrDec 32)) Paper.HashesOk (Wire.Spec.var id) :=
  vec_codes 32 (by decide) (arr_codes 32)

theorem disputes_codes : Codes Disputes.enc Disputes.dec Paper.DisputesOk Paper.disputes := by
  intro a h
  have f0 := hashes_codes a.good h.good
  have f1 := hashes_codes a.bad h.bad
  have f2 := hashes_codes a.wonky h.wonky
  have f3 := hashes_codes a.punished h.punished
  exact ⟨by simp [Disputes.enc, Paper.disputes, cat, f0.1, f1.1, f2.1, f3.1],
    fun rest => by simp only [Disputes.dec, Paper.disputes, List.append_assoc, bind_ok (f0.2 _), bind_ok (f1.2 _), bind_ok (f2.2 _), bind_ok (f3.2 _)]; rfl⟩

theorem entropy_codes : Codes entropyEnc entropyDec Paper.EntropyOk Paper.entropy := arrOf_codes 4 (arr_codes 32)

theorem slot_codes : Codes slotEnc slotDec (fun t => t < 2 ^ 32) (paperFixed 4) :=
  fixed_codes 32 4 (by decide) (by decide)

theorem pending_codes (D : Dims) : Codes pendingEnc (pendingDec D) (Paper.PendingOk D) Paper.pending :=
  arrOf_codes D.wire.cores (opt_codes (pair_codes (report_codes D.wire) slot_codes))

theorem hashSet_codes : Codes (setEnc arrEnc) (setDec bytesLt (arrDec 32)) Paper.SetOk (Wire.Spec.var id) :=
  set_codes bytesLt_asymm (arr_codes 32)

theorem ready_codes (D : Dims) (hz : 0 < D.reportSize) : Codes readyEnc (readyDec D) (Paper.ReadyOk D) Paper.ready :=
  arrOf_codes D.wire.epoch (vec_codes D.reportSize hz (pair_codes (report_codes D.wire) hashSet_codes))

theorem done_codes (D : Dims) : Codes doneEnc (doneDec D) (Paper.DoneOk D) Paper.done :=
  arrOf_codes D.wire.epoch hashSet_codes

theorem sorted_nat {ν : Type} {l : List (Nat × ν)} (h : l.Pairwise fun a b => a.1 < b.1) :
    l.Pairwise fun a b => natLt a.1 b.1 = true := h.imp fun h => decide_eq_true h

theorem privileges_codes (D : Dims) : Codes Privileges.enc (Privileges.dec D) (Paper.PrivilegesOk D) Paper.privileges := by
  intro a h
  have f0 := fixed_codes 32 4 (by decide) (by decide) a.manager h.manager
  have f1 := arrOf_codes D.wire.cores (fixed_codes 32 4 (by decide) (by decide)) a.assign ⟨h.count, h.assign⟩
  have f2 := fixed_codes 32 4 (by decide) (by decide) a.designate h.designate
  have f3 := fixed_codes 32 4 (by decide) (by decide) a.registrar h.registrar
  have f4 := map_codes natLt_asymm (pair_codes (nat_codes 32 (by decide)) (nat_codes 64 (by decide))) a.always
    ⟨h.size, sorted_nat h.sorted, h.always⟩
  exact ⟨by simp [Privileges.enc, Paper.privileges, cat, f0.1, f1.1, f2.1, f3.1, f4.1],
    fun rest => by simp only [Privileges.dec, Paper.privileges, List.append_assoc, bind_ok (f0.2 _), bind_ok (f1.2 _), bind_ok (f2.2 _), bind_ok (f3.2 _), bind_ok (f4.2 _)]; rfl⟩

theorem valStats_codes : Codes ValStats.enc ValStats.dec Paper.ValStatsOk Paper.valStats := by
  intro a h
  have f0 := fixed_codes 32 4 (by decide) (by decide) a.blocks h.blocks
  have f1 := fixed_codes 32 4 (by decide) (by decide) a.tickets h.tickets
  have f2 := fixed_codes 32 4 (by decide) (by decide) a.preimages h.preimages
  have f3 := fixed_codes 32 4 (by decide) (by decide) a.octets h.octets
  have f4 := fixed_codes 32 4 (by decide) (by decide) a.guarantees h.guarantees
  have f5 := fixed_codes 32 4 (by decide) (by decide) a.assurances h.assurances
  exact ⟨by simp [ValStats.enc, Paper.valStats, cat, f0.1, f1.1, f2.1, f3.1, f4.1, f5.1],
    fun rest => by simp only [ValStats.dec, Paper.valStats, List.append_assoc, bind_ok (f0.2 _), bind_ok (f1.2 _), bind_ok (f2.2 _), bind_ok (f3.2 _), bind_ok (f4.2 _), bind_ok (f5.2 _)]; rfl⟩

theorem coreStats_codes : Codes CoreStats.enc CoreStats.dec Paper.CoreStatsOk Paper.coreStats := by
  intro a h
  have f0 := nat_codes 32 (by decide) a.daSize h.daSize
  have f1 := nat_codes 16 (by decide) a.assurers h.assurers
  have f2 := nat_codes 16 (by decide) a.imports h.imports
  have f3 := nat_codes 16 (by decide) a.xts h.xts
  have f4 := nat_codes 32 (by decide) a.xtOctets h.xtOctets
  have f5 := nat_codes 16 (by decide) a.exports h.exports
  have f6 := nat_codes 32 (by decide) a.bundle h.bundle
  have f7 := nat_codes 64 (by decide) a.gas h.gas
  exact ⟨by simp [CoreStats.enc, Paper.coreStats, cat, f0.1, f1.1, f2.1, f3.1, f4.1, f5.1, f6.1, f7.1],
    fun rest => by simp only [CoreStats.dec, Paper.coreStats, List.append_assoc, bind_ok (f0.2 _), bind_ok (f1.2 _), bind_ok (f2.2 _), bind_ok (f3.2 _), bind_ok (f4.2 _), bind_ok (f5.2 _), bind_ok (f6.2 _), bind_ok (f7.2 _)]; rfl⟩

theorem svcStats_codes : Codes SvcStats.enc SvcStats.dec Paper.SvcStatsOk Paper.svcStats := by
  intro a h
  have f0 := nat_codes 16 (by decide) a.preimages h.preimages
  have f1 := nat_codes 32 (by decide) a.preimageOctets h.preimageOctets
  have f2 := nat_codes 32 (by decide) a.digests h.digests
  have f3 := nat_codes 64 (by decide) a.refineGas h.refineGas
  have f4 := nat_codes 32 (by decide) a.imports h.imports
  have f5 := nat_codes 32 (by decide) a.xts h.xts
  have f6 := nat_codes 32 (by decide) a.xtOctets h.xtOctets
  have f7 := nat_codes 32 (by decide) a.exports h.exports
  have f8 := nat_codes 32 (by decide) a.accumulated h.accumulated
  have f9 := nat_codes 64 (by decide) a.accGas h.accGas
  exact ⟨by simp [SvcStats.enc, Paper.svcStats, cat, f0.1, f1.1, f2.1, f3.1, f4.1, f5.1, f6.1, f7.1, f8.1, f9.1],
    fun rest => by simp only [SvcStats.dec, Paper.svcStats, List.append_assoc, bind_ok (f0.2 _), bind_ok (f1.2 _), bind_ok (f2.2 _), bind_ok (f3.2 _), bind_ok (f4.2 _), bind_ok (f5.2 _), bind_ok (f6.2 _), bind_ok (f7.2 _), bind_ok (f8.2 _), bind_ok (f9.2 _)]; rfl⟩

theorem statistics_codes (D : Dims) : Codes Statistics.enc (Statistics.dec D) (Paper.StatisticsOk D) (Paper.statistics (paperFixed 4)) := by
  intro a h
  have f0 := arrOf_codes D.wire.validators valStats_codes a.curr ⟨h.currCount, h.curr⟩
  have f1 := arrOf_codes D.wire.validators valStats_codes a.prev ⟨h.prevCount, h.prev⟩
  have f2 := arrOf_codes D.wire.cores coreStats_codes a.cores ⟨h.coreCount, h.cores⟩
  have f3 := map_codes natLt_asymm (pair_codes (fixed_codes 32 4 (by decide) (by decide)) svcStats_codes) a.services
    ⟨h.size, sorted_nat h.sorted, h.services⟩
  exact ⟨by simp [Statistics.enc, svcStatsEnc, Paper.statistics, cat, f0.1, f1.1, f2.1, f3.1],
    fun rest => by simp only [Statistics.dec, svcStatsDec, Paper.statistics, List.append_assoc, bind_ok (f0.2 _), bind_ok (f1.2 _), bind_ok (f2.2 _), bind_ok (f3.2 _)]; rfl⟩

theorem metadata_codes : Codes Metadata.enc Metadata.dec Paper.MetadataOk Paper.metadata := by
  intro a h
  have f0 := nat_codes 8 (by decide) a.version h.version
  have f1 := arr_step (b := a.codeHash) 32 h.codeHash
  have f2 := fixed_codes 64 8 (by decide) (by decide) a.balance h.balance
  have f3 := fixed_codes 64 8 (by decide) (by decide) a.gasAcc h.gasAcc
  have f4 := fixed_codes 64 8 (by decide) (by decide) a.gasTransfer h.gasTransfer
  have f5 := fixed_codes 64 8 (by decide) (by decide) a.octets h.octets
  have f6 := fixed_codes 64 8 (by decide) (by decide) a.gratis h.gratis
  have f7 := fixed_codes 32 4 (by decide) (by decide) a.items h.items
  have f8 := fixed_codes 32 4 (by decide) (by decide) a.created h.created
  have f9 := fixed_codes 32 4 (by decide) (by decide) a.accumulated h.accumulated
  have f10 := fixed_codes 32 4 (by decide) (by decide) a.parent h.parent
  exact ⟨by simp [Metadata.enc, Paper.metadata, cat, f0.1, f1.1, f2.1, f3.1, f4.1, f5.1, f6.1, f7.1, f8.1, f9.1, f10.1],
    fun rest => by simp only [Metadata.dec, Paper.metadata, List.append_assoc, bind_ok (f0.2 _), bind_ok (f1.2 _), bind_ok (f2.2 _), bind_ok (f3.2 _), bind_ok (f4.2 _), bind_ok (f5.2 _), bind_ok (f6.2 _), bind_ok (f7.2 _), bind_ok (f8.2 _), bind_ok (f9.2 _), bind_ok (f10.2 _)]; rfl⟩

theorem lookups_codes : Codes lookupsEnc lookupsDec Paper.LookupsOk Paper.lookups := by
  intro a ⟨h3, hs⟩
  have hl : a.length < 2 ^ 64 := by omega
  refine ⟨vecEnc_ok slot_codes a hl hs, fun rest => ?_⟩
  obtain ⟨_, hd⟩ := nat_codes 64 (by omega) a.length hl
  obtain ⟨_, sd⟩ := seq_codes slot_codes a hs
  unfold Paper.lookups
  rw [Wire.Spec.var, List.append_assoc, lookupsDec, bind_ok (hd _), bind_ok (reserve_ok (by omega) _), bind_ok (sd _)]
  unfold limit3
  rw [if_pos h3]
  rfl

end Fastroll.Comp
