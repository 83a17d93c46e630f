import Verif.Net.GossipSpec
import Verif.Net.FuzzLemmas
import Verif.Codec.Lemmas3

/-!
# Lemmas for the announcements and requests between nodes
-/
namespace Fastroll.Net
open Fastroll.Codec Fastroll.Wire

/-! ## Decoders do not change their mind -/

/-- A result or a panic stays when octets follow; a result takes the octets it read and leaves the rest. -/
def Firm {α : Type} (d : Dec α) : Prop :=
  PrefixStable d ∧ ∀ inp ext, d inp = .error .panic → d (inp ++ ext) = .error .panic

theorem firm_bind {α β : Type} {d : Dec α} {f : α → Dec β} (hd : Firm d) (hf : ∀ a, Firm (f a)) : Firm (d.bind f) := by
  refine ⟨bind_stable hd.1 fun a => (hf a).1, fun inp ext h => ?_⟩
  unfold Dec.bind at h ⊢
  cases e : d inp with
  | error x =>
    rw [e] at h
    have : x = .panic := by simpa using h
    subst this
    rw [hd.2 _ ext e]
  | ok v =>
    obtain ⟨a, r⟩ := v
    rw [e] at h
    rw [(hd.1 _ _ _ e).2 ext]
    exact (hf a).2 _ ext h

theorem firm_pure {α : Type} (a : α) : Firm (Dec.pure a) := ⟨pure_stable a, fun inp ext h => by simp [Dec.pure] at h⟩

theorem firm_fail {α : Type} (e : Err) : Firm (Dec.fail e : Dec α) := ⟨fail_stable e, fun inp ext h => by simpa [Dec.fail] using h⟩

theorem firm_ite {α : Type} {c : Prop} [Decidable c] {d d' : Dec α} (h : Firm d) (h' : Firm d') : Firm (if c then d else d') := by
  split <;> assumption

theorem firm_readByte : Firm readByte := ⟨readByte_stable, fun inp ext h => by cases inp <;> simp [readByte] at h⟩

theorem firm_tryFrom (w v : Nat) : Firm (tryFrom w v) := firm_ite (firm_pure _) (firm_fail _)

theorem firm_readLE : ∀ (n i v : Nat), Firm (readLE i n v)
  | 0, i, v => firm_pure v
  | n + 1, i, v => firm_bind firm_readByte fun b => firm_readLE n _ _

theorem firm_fixed (w n : Nat) : Firm (fixedDecode w n) :=
  firm_ite (firm_fail _) (firm_bind (firm_readLE _ _ _) (fun v => firm_tryFrom w v))

theorem firm_int (w : Nat) : Firm (intDecode w) :=
  firm_bind firm_readByte fun _ => firm_ite (firm_tryFrom _ _) (firm_ite
    (firm_bind (firm_fixed _ _) (fun v => firm_tryFrom w v)) (firm_bind (firm_fixed _ _) (fun v => firm_tryFrom w _)))

theorem firm_bool : Firm boolDec :=
  firm_bind firm_readByte (fun _ => firm_ite (firm_pure _) (firm_ite (firm_pure _) (firm_fail _)))

theorem firm_opt {α : Type} {d : Dec α} (h : Firm d) : Firm (optDec d) :=
  firm_bind firm_readByte (fun _ => firm_ite (firm_pure _) (firm_ite (firm_bind h (fun _ => firm_pure _)) (firm_fail _)))

theorem firm_seq {α : Type} {d : Dec α} (h : Firm d) : ∀ n, Firm (seqDec d n)
  | 0 => firm_pure []
  | n + 1 => firm_bind h (fun _ => firm_bind (firm_seq h n) (fun _ => firm_pure _))

theorem firm_reserve (sz n : Nat) : Firm (reserve sz n) := firm_ite (firm_pure _) (firm_fail _)

theorem firm_vec {α : Type} {d : Dec α} (sz : Nat) (h : Firm d) : Firm (vecDec sz d) :=
  firm_bind (firm_int 64) (fun n => firm_bind (firm_reserve sz n) (fun _ => firm_seq h n))

theorem firm_limited {α : Type} {d : Dec α} (m : Nat) (h : Firm d) : Firm (limitedDec m d) :=
  firm_bind (firm_int 64) (fun n => firm_ite (firm_fail _) (firm_bind (firm_seq h n) (fun _ => firm_ite (firm_pure _) (firm_fail _))))

theorem firm_bytes (n : Nat) : Firm (readBytes n) := by
  refine ⟨fun inp a r h => ?_, fun inp ext h => ?_⟩
  · unfold readBytes at h
    by_cases hl : inp.length < n
    · rw [if_pos hl] at h; simp at h
    · rw [if_neg hl] at h
      injection h with h
      injection h with h1 h2
      subst h1 h2
      refine ⟨⟨inp.take n, (List.take_append_drop n inp).symm⟩, fun ext => ?_⟩
      unfold readBytes
      rw [if_neg (by rw [List.length_append]; omega), List.take_append_of_le_length (by omega), List.drop_append_of_le_length (by omega)]
  · unfold readBytes at h
    split at h <;> simp at h

theorem firm_arr (n : Nat) : Firm (arrDec n) := firm_bytes n

theorem firm_octets : Firm octetsDec := firm_bind (firm_int 64) fun n => firm_bind (firm_reserve 1 n) fun _ => firm_bytes n

theorem firm_vecU8 : Firm vecU8Dec := firm_vec 1 (firm_bind (firm_int 8) fun _ => firm_pure _)

theorem firm_pair {α β : Type} {da : Dec α} {db : Dec β} (ha : Firm da) (hb : Firm db) : Firm (pairDec da db) :=
  firm_bind ha (fun _ => firm_bind hb (fun _ => firm_pure _))

theorem firm_map {κ ν : Type} (lt : κ → κ → Bool) {dk : Dec κ} {dv : Dec ν} (hk : Firm dk) (hv : Firm dv) :
    Firm (mapDec lt dk dv) := by
  refine firm_bind (firm_int 64) fun n => ?_
  generalize ([] : List (κ × ν)) = m
  induction n generalizing m with
  | zero => exact firm_pure m
  | succ n ih => exact firm_bind (firm_pair hk hv) fun p => ih _

theorem firm_set {κ : Type} (lt : κ → κ → Bool) {d : Dec κ} (h : Firm d) : Firm (setDec lt d) := by
  refine firm_bind (firm_int 64) fun n => ?_
  generalize ([] : List κ) = m
  induction n generalizing m with
  | zero => exact firm_pure m
  | succ n ih => exact firm_bind h fun p => ih _

theorem firm_bits (n : Nat) : Firm (bitsDecFixed n) := by
  unfold bitsDecFixed
  generalize ([] : List Bool) = acc
  generalize (n + 7) / 8 = k
  induction k generalizing acc with
  | zero => exact firm_pure acc
  | succ k ih => exact firm_bind firm_readByte fun b => ih _

/-- Goes through a decoder field by field. -/
macro "firm" : tactic => `(tactic| repeat' first
  | exact firm_pure _ | exact firm_fail _ | exact firm_arr _ | exact firm_octets | exact firm_fixed _ _ | exact firm_int _
  | exact firm_bool | exact firm_bits _ | assumption | apply firm_set | apply firm_map | apply firm_vec | apply firm_limited
  | apply firm_seq | apply firm_opt | apply firm_ite | (apply firm_bind; rotate_left; intro _))

theorem firm_ctx : Firm RefineCtx.dec := by unfold RefineCtx.dec; firm
theorem firm_specs : Firm AvailSpecs.dec := by unfold AvailSpecs.dec; firm
theorem firm_result : Firm WorkResult.dec := firm_bind (firm_int 8) fun t => by unfold WorkResult.decTag; firm
theorem firm_stats : Firm RefineStats.dec := by unfold RefineStats.dec; firm
theorem firm_digest : Firm WorkDigest.dec := by
  have := firm_result; have := firm_stats
  unfold WorkDigest.dec; firm
theorem firm_report (P : Params) : Firm (WorkReport.dec P) := by
  have := firm_specs; have := firm_ctx; have := firm_digest
  unfold WorkReport.dec; firm
theorem firm_ticketXt : Firm TicketXt.dec := by unfold TicketXt.dec; firm
theorem firm_preimage : Firm PreimageXt.dec := by unfold PreimageXt.dec; firm
theorem firm_credential : Firm Credential.dec := by unfold Credential.dec; firm
theorem firm_guarantee (P : Params) : Firm (GuaranteeXt.dec P) := by
  have := firm_report P; have := firm_credential
  unfold GuaranteeXt.dec; firm
theorem firm_assurance (P : Params) : Firm (AssuranceXt.dec P) := by unfold AssuranceXt.dec; firm
theorem firm_judgment : Firm Judgment.dec := by unfold Judgment.dec; firm
theorem firm_verdict (P : Params) : Firm (Verdict.dec P) := by
  have := firm_judgment
  unfold Verdict.dec; firm
theorem firm_culprit : Firm Culprit.dec := by unfold Culprit.dec; firm
theorem firm_fault : Firm Fault.dec := by unfold Fault.dec; firm
theorem firm_disputes (P : Params) : Firm (DisputesXt.dec P) := by
  have := firm_verdict P; have := firm_culprit; have := firm_fault
  unfold DisputesXt.dec; firm
theorem firm_xts (P : Params) : Firm (Extrinsics.dec P) := by
  have := firm_ticketXt; have := firm_preimage; have := firm_guarantee P; have := firm_assurance P; have := firm_disputes P
  unfold Extrinsics.dec; firm
theorem firm_ticket : Firm Ticket.dec := by unfold Ticket.dec; firm
theorem firm_key : Firm EpochKey.dec := by unfold EpochKey.dec; firm
theorem firm_marker (P : Params) : Firm (EpochMarker.dec P) := by
  have := firm_key
  unfold EpochMarker.dec; firm
theorem firm_header (P : Params) : Firm (Header.dec P) := by
  have := firm_ticket; have := firm_marker P
  unfold Header.dec; firm
theorem firm_block (P : Params) : Firm (Block.dec P) := by
  have := firm_header P; have := firm_xts P
  unfold Block.dec; firm
theorem firm_announcement (P : Params) : Firm (announcementDec P) := by
  have := firm_header P
  unfold announcementDec; firm
theorem firm_request : Firm Request.dec := by unfold Request.dec; firm

/-- Of octets cut short a firm decoder reads nothing, without a panic. -/
theorem firm_cut {α : Type} {d : Dec α} (hd : Firm d) {p s : Bytes} {a : α} (hs : s ≠ []) (h : d (p ++ s) = .ok (a, [])) :
    ∃ e, d p = .error e ∧ e ≠ .panic := by
  cases e : d p with
  | ok v =>
    obtain ⟨b, r⟩ := v
    have := (hd.1 _ _ _ e).2 s
    rw [h] at this
    injection this with this
    injection this with _ h2
    exact absurd (List.append_eq_nil_iff.1 h2.symm).2 hs
  | error x =>
    refine ⟨x, rfl, fun hx => ?_⟩
    subst hx
    rw [hd.2 _ s e] at h
    simp at h

end Fastroll.Net
