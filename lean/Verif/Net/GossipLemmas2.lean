import Verif.Net.GossipLemmas

/-!
# Lemmas for the announcements and requests between nodes: the streams
-/
namespace Fastroll.Net
open Fastroll.Codec Fastroll.Wire Fastroll.Net.Spec

/-! ## Layouts -/

theorem announcement_enc (H : Bytes → Bytes) {P : Params} {h : Header} (hh : Wire.Spec.HeaderOk P h) :
    announcement H h = .ok (announced H h) := by
  have f0 := header_codes P h hh
  have f1 := nat_codes 32 (by decide) h.slot hh.slot
  simp [announcement, announced, Header.hash, hashOf, cat, f0.1, f1.1]

theorem announcement_dec (H : Bytes → Bytes) {P : Params} {h : Header} (hh : Wire.Spec.HeaderOk P h)
    (h32 : (H (Wire.Spec.header h)).length = 32) (rest : Bytes) :
    announcementDec P (announced H h ++ rest) = .ok ((h, H (Wire.Spec.header h), h.slot), rest) := by
  have f0 := header_codes P h hh
  have f1 := arr_codes 32 _ h32
  have f2 := nat_codes 32 (by decide) h.slot hh.slot
  simp only [id] at f1
  simp only [announced, announcementDec, List.append_assoc]
  rw [bind_ok (f0.2 _), bind_ok (f1.2 _), bind_ok (f2.2 _)]
  rfl

theorem request_enc {k : Bytes} (a : Bool) {n : Nat} (hk : k.length = 32) (hn : n < 2 ^ 32) :
    Request.enc ⟨k, a, n⟩ = .ok (asked k a n) := by
  have f1 := bool_codes a trivial
  have f2 := nat_codes 32 (by decide) n hn
  simp [Request.enc, asked, cat, arrEnc, f1.1, f2.1]

theorem request_dec {k : Bytes} (a : Bool) {n : Nat} (hk : k.length = 32) (hn : n < 2 ^ 32) (rest : Bytes) :
    Request.dec (asked k a n ++ rest) = .ok (⟨k, a, n⟩, rest) := by
  have f0 := arr_codes 32 _ hk
  have f1 := bool_codes a trivial
  have f2 := nat_codes 32 (by decide) n hn
  simp only [id] at f0
  simp only [asked, Request.dec, List.append_assoc]
  rw [bind_ok (f0.2 _), bind_ok (f1.2 _), bind_ok (f2.2 _)]
  rfl

/-! ## Reading pieces -/

theorem readChunk_cons {max : Nat} {c : Bytes} {cs : List Bytes} (hc : c ≠ []) (h : c.length ≤ max) :
    readChunk max (c :: cs) = some (c, cs) := by simp [readChunk, hc, h]

theorem readChunk_long {max : Nat} {c : Bytes} {cs : List Bytes} (hc : c ≠ []) (h : max < c.length) :
    readChunk max (c :: cs) = some (c.take max, c.drop max :: cs) := by
  have : ¬ c.length ≤ max := by omega
  simp [readChunk, hc, this]

theorem readChunk_empty (max : Nat) (cs : List Bytes) : readChunk max ([] :: cs) = readChunk max cs := by simp [readChunk]

/-- Every piece that is read is short, not empty, and taken from the stream. -/
theorem readChunk_some {max : Nat} (hm : 0 < max) : ∀ {cs : List Bytes} {b : Bytes} {cs' : List Bytes},
    readChunk max cs = some (b, cs') → b ≠ [] ∧ b.length ≤ max ∧ b ++ cs'.flatten = cs.flatten
  | [], b, cs', h => by simp [readChunk] at h
  | c :: cs, b, cs', h => by
    unfold readChunk at h
    by_cases hc : c = []
    · subst hc
      rw [if_pos rfl] at h
      simpa using readChunk_some hm h
    · rw [if_neg hc] at h
      by_cases hl : c.length ≤ max
      · rw [if_pos hl] at h
        injection h with h; injection h with h1 h2
        subst h1 h2
        exact ⟨hc, hl, by simp⟩
      · rw [if_neg hl] at h
        injection h with h; injection h with h1 h2
        subst h1 h2
        refine ⟨fun e => ?_, by simp; omega, by rw [List.flatten_cons, ← List.append_assoc, List.take_append_drop, List.flatten_cons]⟩
        have := congrArg List.length e
        rw [List.length_take, List.length_nil] at this
        omega

theorem readChunk_none {max : Nat} : ∀ {cs : List Bytes}, readChunk max cs = none → cs.flatten = []
  | [], _ => rfl
  | c :: cs, h => by
    unfold readChunk at h
    by_cases hc : c = []
    · subst hc
      rw [if_pos rfl] at h
      simpa using readChunk_none h
    · rw [if_neg hc] at h
      split at h <;> simp at h

/-- What is read in one piece. -/
theorem readChunk_one {max : Nat} {o : Bytes} (ho : o.length ≤ max) (hm : max = 1024) : ∀ {cs : List Bytes}, InOnePiece o cs →
    ∃ cs', readChunk max cs = some (o, cs') ∧ cs'.flatten = []
  | [], h => by have := h.2; simp at this
  | c :: cs, h => by
    by_cases hc : c = []
    · subst hc
      rw [readChunk_empty]
      exact readChunk_one ho hm ⟨h.1, by simpa using h.2⟩
    · have h2 := h.2
      rw [List.filter_cons_of_pos (by simpa using hc)] at h2
      injection h2 with h2 h3
      subst h2
      refine ⟨cs, readChunk_cons hc ho, ?_⟩
      rw [List.flatten_eq_nil_iff]
      intro x hx
      have : ¬ (fun c : Bytes => !c.isEmpty) x = true := List.filter_eq_nil_iff.1 h3 x hx
      simpa using this

/-! ## Announcements -/

theorem heard_fuel (P : Params) : ∀ (n m : Nat) (cs : List Bytes), cs.flatten.length ≤ n → cs.flatten.length ≤ m →
    heard P n cs = heard P m cs := by
  intro n
  induction n with
  | zero =>
    intro m cs hn hm
    have hf : cs.flatten = [] := List.eq_nil_of_length_eq_zero (by omega)
    cases m with
    | zero => rfl
    | succ m =>
      cases e : readChunk chunkSize cs with
      | none => simp [heard, e]
      | some v =>
        obtain ⟨b, cs'⟩ := v
        obtain ⟨h1, -, h3⟩ := readChunk_some (by decide) e
        rw [hf] at h3
        exact absurd (List.append_eq_nil_iff.1 h3).1 h1
  | succ n ih =>
    intro m cs hn hm
    cases e : readChunk chunkSize cs with
    | none =>
      cases m with
      | zero => simp [heard, e]
      | succ m => simp [heard, e]
    | some v =>
      obtain ⟨b, cs'⟩ := v
      obtain ⟨h1, -, h3⟩ := readChunk_some (by decide) e
      have hb : b.length ≠ 0 := fun h0 => h1 (List.eq_nil_of_length_eq_zero h0)
      have hl : b.length + cs'.flatten.length = cs.flatten.length := by rw [← h3, List.length_append]
      cases m with
      | zero => omega
      | succ m =>
        have := ih m cs' (by omega) (by omega)
        simp only [heard, e, this]

/-- One round of the loop. -/
theorem listen_step (P : Params) {cs cs' : List Bytes} {b : Bytes} (e : readChunk chunkSize cs = some (b, cs')) :
    listen P cs = match announcementDec P b with
      | .ok ((_, k, _), _) => ⟨k :: (listen P cs').hashes, (listen P cs').panicked⟩
      | .error .panic => ⟨[], true⟩
      | .error _ => listen P cs' := by
  obtain ⟨h1, -, h3⟩ := readChunk_some (by decide) e
  have hb : b.length ≠ 0 := fun h0 => h1 (List.eq_nil_of_length_eq_zero h0)
  have hl : b.length + cs'.flatten.length = cs.flatten.length := by rw [← h3, List.length_append]
  unfold listen
  obtain ⟨n, hn⟩ : ∃ n, cs.flatten.length = n + 1 := ⟨cs.flatten.length - 1, by omega⟩
  rw [hn, heard, e]
  simp only [heard_fuel P n cs'.flatten.length cs' (by omega) (by omega)]
  rfl

theorem listen_skip (P : Params) {cs cs' : List Bytes} {b : Bytes} {x : Err} (e : readChunk chunkSize cs = some (b, cs'))
    (h : announcementDec P b = .error x) (hx : x ≠ .panic) : listen P cs = listen P cs' := by
  rw [listen_step P e, h]
  cases x <;> first | rfl | exact absurd rfl hx

theorem listen_hear (P : Params) {cs cs' : List Bytes} {b k r : Bytes} {h : Header} {t : Nat} (e : readChunk chunkSize cs = some (b, cs'))
    (hd : announcementDec P b = .ok ((h, k, t), r)) : listen P cs = ⟨k :: (listen P cs').hashes, (listen P cs').panicked⟩ := by
  rw [listen_step P e, hd]

theorem listen_nil (P : Params) {cs : List Bytes} (e : readChunk chunkSize cs = none) : listen P cs = ⟨[], false⟩ := by
  unfold listen
  cases cs.flatten.length <;> simp [heard, e]

theorem listen_empty (P : Params) (cs : List Bytes) : listen P ([] :: cs) = listen P cs := by
  cases e : readChunk chunkSize cs with
  | none => rw [listen_nil P e, listen_nil P (by rw [readChunk_empty, e])]
  | some v =>
    obtain ⟨b, cs'⟩ := v
    rw [listen_step P e, listen_step P (by rw [readChunk_empty, e])]

/-! ## Responses -/

/-- What the first piece decodes to decides. -/
theorem decodeBlocks_ok (P : Params) {b : Block} {o rest : Bytes} (h : Block.dec P o = .ok (b, rest)) (n : Nat) :
    decodeBlocks P (n + 1) o = (decodeBlocks P n rest).map (b :: ·) := by simp [decodeBlocks, h]

theorem decodeBlocks_bad (P : Params) {o : Bytes} {e : Err} (h : Block.dec P o = .error e) (n : Nat) :
    decodeBlocks P (n + 1) o = some [] ∨ decodeBlocks P (n + 1) o = none := by
  cases e <;> simp [decodeBlocks, h]

theorem header_some {P : Params} {inp : Bytes} {v : Header × Bytes} (h : Header.dec P inp = .ok v) : inp ≠ [] := by
  intro e
  subst e
  simp [Header.dec, arrDec, readBytes, Dec.bind] at h

theorem block_nil (P : Params) : Block.dec P [] = .error .input := by
  simp [Block.dec, Header.dec, arrDec, readBytes, Dec.bind]

theorem fetched_one (P : Params) {b : Block} {o : Bytes} {cs cs' : List Bytes} (e : readChunk chunkSize cs = some (o, cs'))
    (h : Block.dec P o = .ok (b, [])) : fetched P cs = .block b := by
  unfold fetched
  simp only [e, decodeBlocks_ok P h]
  have ho : o.length ≠ 0 := by
    intro h0
    have : o = [] := List.eq_nil_of_length_eq_zero h0
    subst this
    rw [block_nil] at h
    simp at h
  obtain ⟨n, hn⟩ : ∃ n, o.length = n + 1 := ⟨o.length - 1, by omega⟩
  rw [hn]
  simp [decodeBlocks, block_nil]

theorem fetched_bad (P : Params) {o : Bytes} {x : Err} {cs cs' : List Bytes} (e : readChunk chunkSize cs = some (o, cs'))
    (h : Block.dec P o = .error x) : fetched P cs = .panic := by
  unfold fetched
  simp only [e]
  rcases decodeBlocks_bad P h o.length with h1 | h1 <;> rw [h1]

theorem blocksEnc_one {P : Params} {b : Block} (h : Wire.Spec.BlockOk P b) : blocksEnc P [b] = .ok (Wire.Spec.block P b) := by
  have := (block_codes P b h).1
  simp [blocksEnc, seqEnc, this]

end Fastroll.Net
