import Verif.Wire.Lemmas3
/-! When decoders can panic. -/
namespace Fastroll.Wire
open Fastroll.Codec

/-- No byte of the input introduces an integer of 56 bits or more. -/
def Calm (inp : Bytes) : Prop := ∀ b ∈ inp, b.toNat < 254

/-- On inputs satisfying `K` the decoder does not panic, and what it leaves satisfies `K`. -/
def SafeOn (K : Bytes → Prop) {α : Type} (d : Dec α) : Prop :=
  ∀ inp, K inp → d inp ≠ .error .panic ∧ ∀ a r, d inp = .ok (a, r) → K r

/-- `K` passes to what remains of an input. -/
def Tails (K : Bytes → Prop) : Prop := ∀ p r, K (p ++ r) → K r

theorem calm_tails : Tails Calm := fun p r h b hb => h b (by simp [hb])
theorem true_tails : Tails (fun _ => True) := fun _ _ _ => trivial

variable {K : Bytes → Prop}

theorem safe_of {α : Type} {d : Dec α} (hK : Tails K) (hs : PrefixStable d)
    (hn : ∀ inp, d inp ≠ .error .panic) : SafeOn K d := by
  intro inp h
  refine ⟨hn inp, fun a r hd => ?_⟩
  obtain ⟨⟨p, rfl⟩, _⟩ := hs _ _ _ hd
  exact hK _ _ h

theorem safe_bind {α β : Type} {d : Dec α} {f : α → Dec β} (hd : SafeOn K d) (hf : ∀ a, SafeOn K (f a)) :
    SafeOn K (d.bind f) := by
  intro inp h
  obtain ⟨h1, h2⟩ := hd inp h
  cases e : d inp with
  | error x =>
    rw [bind_error e]
    exact ⟨fun hh => h1 (by rw [e]; injection hh with hh; rw [hh]), fun a r hh => by cases hh⟩
  | ok p =>
    obtain ⟨a, r⟩ := p
    rw [bind_ok e]
    exact hf a r (h2 a r e)

theorem safe_pure {α : Type} (a : α) : SafeOn K (Dec.pure a) := by
  intro inp h
  refine ⟨by simp, fun b r hh => ?_⟩
  simp at hh
  rw [← hh.2]; exact h

theorem safe_fail {α : Type} {e : Err} (he : e ≠ .panic) : SafeOn K (Dec.fail e : Dec α) := by
  intro inp h
  exact ⟨by simp [he], fun b r hh => by simp at hh⟩

theorem safe_ite {α : Type} {c : Prop} [Decidable c] {d d' : Dec α} (h : SafeOn K d) (h' : SafeOn K d') :
    SafeOn K (if c then d else d') := by
  split <;> assumption

theorem safe_readByte (hK : Tails K) : SafeOn K readByte :=
  safe_of hK readByte_stable (by intro inp; cases inp <;> simp [readByte])

theorem safe_tryFrom (w v : Nat) : SafeOn K (tryFrom w v) :=
  safe_ite (safe_pure _) (safe_fail (by decide))

theorem safe_readLE (hK : Tails K) : ∀ (n i v : Nat), SafeOn K (readLE i n v) := by
  intro n
  induction n with
  | zero => intro i v; exact safe_pure v
  | succ n ih => intro i v; exact safe_bind (safe_readByte hK) (fun b => ih _ _)

theorem safe_fixed (hK : Tails K) (w n : Nat) : SafeOn K (fixedDecode w n) :=
  safe_ite (safe_fail (by decide)) (safe_bind (safe_readLE hK _ _ _) (fun v => safe_tryFrom w v))

theorem safe_int (hK : Tails K) (w : Nat) : SafeOn K (intDecode w) :=
  safe_bind (safe_readByte hK) fun _ => safe_ite (safe_tryFrom _ _) (safe_ite
    (safe_bind (safe_fixed hK _ _) (fun v => safe_tryFrom w v))
    (safe_bind (safe_fixed hK _ _) (fun v => safe_tryFrom w _)))

theorem safe_bool (hK : Tails K) : SafeOn K boolDec :=
  safe_bind (safe_readByte hK)
    (fun _ => safe_ite (safe_pure _) (safe_ite (safe_pure _) (safe_fail (by decide))))

theorem safe_opt (hK : Tails K) {α : Type} {d : Dec α} (h : SafeOn K d) : SafeOn K (optDec d) :=
  safe_bind (safe_readByte hK)
    (fun _ => safe_ite (safe_pure _) (safe_ite
      (safe_bind h (fun _ => safe_pure _)) (safe_fail (by decide))))

theorem safe_seq {α : Type} {d : Dec α} (h : SafeOn K d) : ∀ n, SafeOn K (seqDec d n) := by
  intro n
  induction n with
  | zero => exact safe_pure []
  | succ n ih => exact safe_bind h (fun _ => safe_bind ih (fun _ => safe_pure _))

theorem safe_arr (hK : Tails K) (n : Nat) : SafeOn K (arrDec n) := by
  intro inp h
  unfold arrDec readBytes
  split
  · exact ⟨by simp, fun a r hh => by cases hh⟩
  · refine ⟨by simp, fun a r hh => ?_⟩
    simp at hh
    rw [← hh.2]
    apply hK (inp.take n)
    rw [List.take_append_drop]; exact h

theorem safe_limited (hK : Tails K) {α : Type} {d : Dec α} (m : Nat) (h : SafeOn K d) :
    SafeOn K (limitedDec m d) :=
  safe_bind (safe_int hK 64) (fun n => safe_ite (safe_fail (by decide))
    (safe_bind (safe_seq h n) (fun _ => safe_ite (safe_pure _) (safe_fail (by decide)))))

theorem safe_mapLoop {κ ν : Type} (lt : κ → κ → Bool) {dk : Dec κ} {dv : Dec ν}
    (hk : SafeOn K dk) (hv : SafeOn K dv) : ∀ n m, SafeOn K (mapDecLoop lt dk dv n m) := by
  intro n
  induction n with
  | zero => intro m; exact safe_pure m
  | succ n ih =>
    intro m
    exact safe_bind (safe_bind hk (fun _ => safe_bind hv (fun _ => safe_pure _))) (fun p => ih _)

theorem safe_map (hK : Tails K) {κ ν : Type} (lt : κ → κ → Bool) {dk : Dec κ} {dv : Dec ν}
    (hk : SafeOn K dk) (hv : SafeOn K dv) : SafeOn K (mapDec lt dk dv) :=
  safe_bind (safe_int hK 64) (fun n => safe_mapLoop lt hk hv n [])

theorem safe_setLoop {κ : Type} (lt : κ → κ → Bool) {d : Dec κ} (h : SafeOn K d) :
    ∀ n m, SafeOn K (setDecLoop lt d n m) := by
  intro n
  induction n with
  | zero => intro m; exact safe_pure m
  | succ n ih => intro m; exact safe_bind h (fun p => ih _)

theorem safe_set (hK : Tails K) {κ : Type} (lt : κ → κ → Bool) {d : Dec κ} (h : SafeOn K d) :
    SafeOn K (setDec lt d) :=
  safe_bind (safe_int hK 64) (fun n => safe_setLoop lt h n [])

theorem safe_unpack (hK : Tails K) (size : Nat) : ∀ n acc, SafeOn K (unpackLoop size n acc) := by
  intro n
  induction n with
  | zero => intro acc; exact safe_pure acc
  | succ n ih => intro acc; exact safe_bind (safe_readByte hK) (fun b => ih _)

/-- On a calm input every integer read is below `2^49`. -/
theorem calm_int {inp : Bytes} (h : Calm inp) {n : Nat} {r : Bytes} (hd : intDecode 64 inp = .ok (n, r)) :
    n < 2 ^ 49 := by
  rcases (intDecode_shape hd).2 with ⟨l, q, bs, hl, hq, hb, hx, hi⟩ | ⟨bs, hb, hx, hi⟩
  · have hf := h (UInt8.ofNat (prefixOf l) ||| UInt8.ofNat q) (by rw [hi]; simp)
    have h7 : l ≠ 7 := by
      intro h7
      subst h7
      have : q = 0 := by simp at hq; omega
      subst this
      revert hf; decide
    have hv := leVal_lt bs
    rw [hb] at hv
    have h1 : 2 ^ (8 * l) * q + 2 ^ (8 * l) ≤ 2 ^ (8 * l) * 2 ^ (7 - l) := by
      rw [← Nat.mul_succ]; exact Nat.mul_le_mul_left _ hq
    rw [← Nat.pow_add] at h1
    have h2 : 2 ^ (8 * l + (7 - l)) ≤ 2 ^ 49 := Nat.pow_le_pow_right (by omega) (by omega)
    rw [hx]; omega
  · exact absurd (h 0xFF (by rw [hi]; simp)) (by decide)

theorem safe_reserve {α : Type} (sz : Nat) (hz : sz ≤ 2 ^ 14 - 1) {f : Nat → Dec α}
    (hf : ∀ n, SafeOn Calm (f n)) :
    SafeOn Calm ((intDecode 64).bind fun n => (reserve sz n).bind fun _ => f n) := by
  intro inp h
  obtain ⟨h1, h2⟩ := safe_int calm_tails 64 inp h
  cases e : intDecode 64 inp with
  | error x =>
    rw [bind_error e]
    exact ⟨fun hh => h1 (by rw [e]; injection hh with hh; rw [hh]), fun a r hh => by cases hh⟩
  | ok p =>
    obtain ⟨n, r⟩ := p
    rw [bind_ok e]
    have hn := calm_int h e
    have hm : n * sz < 2 ^ 63 := by
      have : n * sz ≤ (2 ^ 49 - 1) * (2 ^ 14 - 1) := Nat.mul_le_mul (by omega) hz
      omega
    rw [bind_ok (reserve_ok hm r)]
    exact hf n r (h2 n r e)

theorem safe_vec {α : Type} {d : Dec α} (sz : Nat) (hz : sz ≤ 2 ^ 14 - 1) (h : SafeOn Calm d) :
    SafeOn Calm (vecDec sz d) := safe_reserve sz hz (fun n => safe_seq h n)

theorem safe_octets : SafeOn Calm octetsDec :=
  safe_reserve 1 (by decide) (fun n => safe_arr calm_tails n)

/-! ### The types without preallocation never panic -/

theorem safe_ctx (hK : Tails K) : SafeOn K RefineCtx.dec :=
  safe_bind (safe_arr hK _) fun _ => safe_bind (safe_arr hK _) fun _ => safe_bind (safe_arr hK _) fun _ =>
  safe_bind (safe_arr hK _) fun _ => safe_bind (safe_fixed hK _ _) fun _ =>
  safe_bind (safe_set hK _ (safe_arr hK _)) fun _ => safe_pure _

theorem safe_specs (hK : Tails K) : SafeOn K AvailSpecs.dec :=
  safe_bind (safe_arr hK _) fun _ => safe_bind (safe_fixed hK _ _) fun _ => safe_bind (safe_arr hK _) fun _ =>
  safe_bind (safe_arr hK _) fun _ => safe_bind (safe_fixed hK _ _) fun _ => safe_pure _

theorem safe_stats (hK : Tails K) : SafeOn K RefineStats.dec :=
  safe_bind (safe_int hK _) fun _ => safe_bind (safe_int hK _) fun _ => safe_bind (safe_int hK _) fun _ =>
  safe_bind (safe_int hK _) fun _ => safe_bind (safe_int hK _) fun _ => safe_pure _

theorem safe_ticketXt (hK : Tails K) : SafeOn K TicketXt.dec :=
  safe_bind (safe_int hK _) fun _ => safe_bind (safe_arr hK _) fun _ => safe_pure _

theorem safe_credential (hK : Tails K) : SafeOn K Credential.dec :=
  safe_bind (safe_fixed hK _ _) fun _ => safe_bind (safe_arr hK _) fun _ => safe_pure _

theorem safe_assurance (hK : Tails K) (P : Params) : SafeOn K (AssuranceXt.dec P) :=
  safe_bind (safe_arr hK _) fun _ => safe_bind (safe_unpack hK _ _ _) fun _ =>
  safe_bind (safe_fixed hK _ _) fun _ => safe_bind (safe_arr hK _) fun _ => safe_pure _

theorem safe_judgment (hK : Tails K) : SafeOn K Judgment.dec :=
  safe_bind (safe_bool hK) fun _ => safe_bind (safe_fixed hK _ _) fun _ => safe_bind (safe_arr hK _) fun _ =>
  safe_pure _

theorem safe_verdict (hK : Tails K) (P : Params) : SafeOn K (Verdict.dec P) :=
  safe_bind (safe_arr hK _) fun _ => safe_bind (safe_fixed hK _ _) fun _ =>
  safe_bind (safe_seq (safe_judgment hK) _) fun _ => safe_pure _

theorem safe_culprit (hK : Tails K) : SafeOn K Culprit.dec :=
  safe_bind (safe_arr hK _) fun _ => safe_bind (safe_arr hK _) fun _ => safe_bind (safe_arr hK _) fun _ =>
  safe_pure _

theorem safe_fault (hK : Tails K) : SafeOn K Fault.dec :=
  safe_bind (safe_arr hK _) fun _ => safe_bind (safe_bool hK) fun _ => safe_bind (safe_arr hK _) fun _ =>
  safe_bind (safe_arr hK _) fun _ => safe_pure _

theorem safe_ticket (hK : Tails K) : SafeOn K Ticket.dec :=
  safe_bind (safe_arr hK _) fun _ => safe_bind (safe_int hK _) fun _ => safe_pure _

theorem safe_marker (hK : Tails K) (P : Params) : SafeOn K (EpochMarker.dec P) :=
  safe_bind (safe_arr hK _) fun _ => safe_bind (safe_arr hK _) fun _ =>
  safe_bind (safe_seq (safe_bind (safe_arr hK _) fun _ => safe_bind (safe_arr hK _) fun _ => safe_pure _) _)
    fun _ => safe_pure _

theorem safe_xtInfo (hK : Tails K) : SafeOn K XtInfo.dec :=
  safe_bind (safe_arr hK _) fun _ => safe_bind (safe_fixed hK _ _) fun _ => safe_pure _

theorem safe_import (hK : Tails K) : SafeOn K ImportInfo.dec :=
  safe_bind (safe_arr hK _) fun _ => safe_bind (safe_fixed hK _ _) fun _ => safe_ite (safe_pure _) (safe_pure _)

/-! ### The others do not on calm inputs -/

theorem safe_result : SafeOn Calm WorkResult.dec :=
  safe_bind (safe_int calm_tails _) fun _ => safe_ite (safe_bind safe_octets fun _ => safe_pure _)
    (safe_ite (safe_pure _) (safe_ite (safe_pure _) (safe_ite (safe_pure _) (safe_ite (safe_pure _)
    (safe_ite (safe_pure _) (safe_ite (safe_pure _) (safe_fail (by decide))))))))

theorem safe_digest : SafeOn Calm WorkDigest.dec :=
  have t := calm_tails
  safe_bind (safe_fixed t _ _) fun _ => safe_bind (safe_arr t _) fun _ => safe_bind (safe_arr t _) fun _ =>
  safe_bind (safe_fixed t _ _) fun _ => safe_bind safe_result fun _ => safe_bind (safe_stats t) fun _ =>
  safe_pure _

theorem safe_report (P : Params) : SafeOn Calm (WorkReport.dec P) :=
  have t := calm_tails
  safe_bind (safe_specs t) fun _ => safe_bind (safe_ctx t) fun _ => safe_bind (safe_int t _) fun _ =>
  safe_bind (safe_arr t _) fun _ => safe_bind (safe_int t _) fun _ => safe_bind safe_octets fun _ =>
  safe_bind (safe_map t _ (safe_arr t _) (safe_arr t _)) fun _ => safe_bind (safe_limited t _ safe_digest) fun _ =>
  safe_pure _

theorem safe_item : SafeOn Calm WorkItem.dec :=
  have t := calm_tails
  safe_bind (safe_fixed t _ _) fun _ => safe_bind (safe_arr t _) fun _ => safe_bind (safe_fixed t _ _) fun _ =>
  safe_bind (safe_fixed t _ _) fun _ => safe_bind (safe_fixed t _ _) fun _ => safe_bind safe_octets fun _ =>
  safe_bind (safe_vec 36 (by decide) (safe_import t)) fun _ =>
  safe_bind (safe_vec 36 (by decide) (safe_xtInfo t)) fun _ => safe_pure _

theorem safe_package (P : Params) : SafeOn Calm (WorkPackage.dec P) :=
  have t := calm_tails
  safe_bind (safe_fixed t _ _) fun _ => safe_bind (safe_arr t _) fun _ => safe_bind (safe_ctx t) fun _ =>
  safe_bind safe_octets fun _ => safe_bind safe_octets fun _ => safe_bind (safe_limited t _ safe_item) fun _ =>
  safe_pure _

theorem safe_disputes (P : Params) : SafeOn Calm (DisputesXt.dec P) :=
  have t := calm_tails
  safe_bind (safe_vec 64 (by decide) (safe_verdict t P)) fun _ =>
  safe_bind (safe_vec 128 (by decide) (safe_culprit t)) fun _ =>
  safe_bind (safe_vec 129 (by decide) (safe_fault t)) fun _ => safe_pure _

theorem safe_guarantee (P : Params) : SafeOn Calm (GuaranteeXt.dec P) :=
  have t := calm_tails
  safe_bind (safe_report P) fun _ => safe_bind (safe_fixed t _ _) fun _ =>
  safe_bind (safe_vec 66 (by decide) (safe_credential t)) fun _ => safe_pure _

theorem safe_xt (P : Params) : SafeOn Calm (Extrinsics.dec P) :=
  have t := calm_tails
  safe_bind (safe_vec 785 (by decide) (safe_ticketXt t)) fun _ =>
  safe_bind (safe_vec 32 (by decide) (safe_bind (safe_fixed t _ _) fun _ => safe_bind safe_octets fun _ => safe_pure _)) fun _ =>
  safe_bind (safe_limited t _ (safe_guarantee P)) fun _ =>
  safe_bind (safe_limited t _ (safe_assurance t P)) fun _ =>
  safe_bind (safe_disputes P) fun _ => safe_pure _

theorem safe_header (P : Params) : SafeOn Calm (Header.dec P) :=
  have t := calm_tails
  safe_bind (safe_arr t _) fun _ => safe_bind (safe_arr t _) fun _ => safe_bind (safe_arr t _) fun _ =>
  safe_bind (safe_fixed t _ _) fun _ => safe_bind (safe_opt t (safe_marker t P)) fun _ =>
  safe_bind (safe_opt t (safe_seq (safe_ticket t) _)) fun _ => safe_bind (safe_fixed t _ _) fun _ =>
  safe_bind (safe_arr t _) fun _ => safe_bind (safe_vec 32 (by decide) (safe_arr t _)) fun _ =>
  safe_bind (safe_arr t _) fun _ => safe_pure _

theorem safe_block (P : Params) : SafeOn Calm (Block.dec P) :=
  safe_bind (safe_header P) fun _ => safe_bind (safe_xt P) fun _ => safe_pure _

end Fastroll.Wire
