import Verif.Comp.Lemmas2
/-!
# C60: what is written to the state is read back, in the Gray Paper's layout

`Codes e d ok s` says: for every value `x` with `ok x` the encoder gives exactly `s x` and the decoder, given `s x`
followed by anything, gives `x` back and leaves what followed.
-/
namespace Fastroll.Comp
open Fastroll.Codec
open Fastroll.Wire
open Fastroll.Wire.Spec (Codes)

/-- **C60**, `α` and `φ`. -/
theorem C60_authorizers (D : Dims) : Codes poolEnc (poolDec D) (Paper.PoolOk D) Paper.pool ∧
    Codes queueEnc (queueDec D) (Paper.QueueOk D) Paper.queue := ⟨pool_codes D, queue_codes D⟩

/-- **C60**, `β` and `θ`. -/
theorem C60_history (D : Dims) : Codes History.enc (History.dec D) (Paper.HistoryOk D) Paper.history ∧
    Codes outputsEnc outputsDec Paper.OutputsOk Paper.outputs := ⟨history_codes D, outputs_codes⟩

/-- **C60**, `ψ`, `η`, the validator sets and `τ`. -/
theorem C60_small (D : Dims) : Codes Disputes.enc Disputes.dec Paper.DisputesOk Paper.disputes ∧
    Codes entropyEnc entropyDec Paper.EntropyOk Paper.entropy ∧
    Codes keysEnc (keysDec D) (Paper.KeysOk D) Paper.keys ∧
    Codes slotEnc slotDec (fun t => t < 2 ^ 32) (paperFixed 4) :=
  ⟨disputes_codes, entropy_codes, keys_codes D, slot_codes⟩

/-- **C60**, `γ`: the tickets of the heap are laid out and read back in increasing order. -/
theorem C60_safrole (D : Dims) (s : Safrole) (h : Paper.SafroleOk D s) :
    ∃ l, l.Perm s.tickets ∧ Wire.Spec.Increasing (l.map Ticket.id) ∧
      Safrole.enc s = .ok (Paper.safrole { s with tickets := l }) ∧
      ∀ rest, Safrole.dec D (Paper.safrole { s with tickets := l } ++ rest) = .ok ({ s with tickets := l }, rest) := by
  obtain ⟨h1, h2⟩ := safrole_codes D s h
  exact ⟨sortTickets s.tickets, sortTickets_perm _,
    List.pairwise_map.mpr (sortTickets_sorted _ h.tickets.distinct), h1, h2⟩

/-- How the heap lies in memory does not show in the state. -/
theorem C60_heap_order (s : Safrole) (l : List Ticket) (hd : (s.tickets.map Ticket.id).Nodup)
    (p : l.Perm s.tickets) : Safrole.enc { s with tickets := l } = Safrole.enc s := by
  have hd' : (l.map Ticket.id).Nodup := (p.map Ticket.id).nodup_iff.mpr hd
  have e : sortTickets l = sortTickets s.tickets :=
    sorted_unique (sortTickets_sorted _ hd') (sortTickets_sorted _ hd)
      (((sortTickets_perm l).trans p).trans (sortTickets_perm s.tickets).symm)
  unfold Safrole.enc accEnc
  simp only []
  rw [e]

/-- **C60**, `ρ`, `ω` and `ξ`. -/
theorem C60_reports (D : Dims) (hz : 0 < D.reportSize) :
    Codes pendingEnc (pendingDec D) (Paper.PendingOk D) Paper.pending ∧
    Codes readyEnc (readyDec D) (Paper.ReadyOk D) Paper.ready ∧
    Codes doneEnc (doneDec D) (Paper.DoneOk D) Paper.done :=
  ⟨pending_codes D, ready_codes D hz, done_codes D⟩

/-- **C60**, `χ`. -/
theorem C60_privileges (D : Dims) : Codes Privileges.enc (Privileges.dec D) (Paper.PrivilegesOk D) Paper.privileges :=
  privileges_codes D

/-- **C60**, `π`: read back, with identifiers of services in four octets. -/
theorem C60_statistics_partial (D : Dims) : Codes Statistics.enc (Statistics.dec D) (Paper.StatisticsOk D)
    (Paper.statistics (paperFixed 4)) := statistics_codes D

/-- **C60**, the entries of services. -/
theorem C60_accounts : Codes Metadata.enc Metadata.dec Paper.MetadataOk Paper.metadata ∧
    Codes lookupsEnc lookupsDec Paper.LookupsOk Paper.lookups ∧
    ∀ b, blobEnc b = .ok b ∧ blobDec b = .ok (b, []) := by
  refine ⟨metadata_codes, lookups_codes, fun b => ⟨rfl, ?_⟩⟩
  have h := readBytes_append b []
  rw [List.append_nil] at h
  exact h

/-! ## The whole state -/

theorem reload_codes {α : Type} {e : Enc α} {d : Dec α} {ok : α → Prop} {s : α → Bytes} (h : Codes e d ok s)
    {a : α} (ha : ok a) {b : Bytes} (hb : e a = .ok b) : reload d b = .ok a := by
  obtain ⟨h1, h2⟩ := h a ha
  rw [h1] at hb
  injection hb with hb
  subst hb
  have := h2 []
  rw [List.append_nil] at this
  unfold reload
  rw [this]

/-- **C60**: saving the sixteen components and loading them gives the same state. -/
theorem C60_reload (D : Dims) (hz : 0 < D.reportSize) (s : Sigma) (h : Paper.SigmaOk D s) (get : Nat → Bytes)
    (hg : ∀ i, 1 ≤ i → i ≤ 16 → save s i = .ok (get i)) : ∃ s', load D get = .ok s' ∧ Paper.Same s s' := by
  have h1 := reload_codes (pool_codes D) h.alpha (hg 1 (by decide) (by decide))
  have h2 := reload_codes (queue_codes D) h.phi (hg 2 (by decide) (by decide))
  have h3 := reload_codes (history_codes D) h.beta (hg 3 (by decide) (by decide))
  have h4 : reload (Safrole.dec D) (get 4) = .ok { s.gamma with tickets := sortTickets s.gamma.tickets } := by
    obtain ⟨e1, e2⟩ := safrole_codes D s.gamma h.gamma
    have hb : Safrole.enc s.gamma = .ok (get 4) := hg 4 (by decide) (by decide)
    rw [e1] at hb
    injection hb with hb
    have := e2 []
    rw [List.append_nil, hb] at this
    unfold reload
    rw [this]
  have h5 := reload_codes disputes_codes h.psi (hg 5 (by decide) (by decide))
  have h6 := reload_codes entropy_codes h.eta (hg 6 (by decide) (by decide))
  have h7 := reload_codes (keys_codes D) h.iota (hg 7 (by decide) (by decide))
  have h8 := reload_codes (keys_codes D) h.kappa (hg 8 (by decide) (by decide))
  have h9 := reload_codes (keys_codes D) h.lam (hg 9 (by decide) (by decide))
  have h10 := reload_codes (pending_codes D) h.rho (hg 10 (by decide) (by decide))
  have h11 := reload_codes slot_codes h.tau (hg 11 (by decide) (by decide))
  have h12 := reload_codes (privileges_codes D) h.chi (hg 12 (by decide) (by decide))
  have h13 := reload_codes (statistics_codes D) h.pi (hg 13 (by decide) (by decide))
  have h14 := reload_codes (ready_codes D hz) h.omega (hg 14 (by decide) (by decide))
  have h15 := reload_codes (done_codes D) h.xi (hg 15 (by decide) (by decide))
  have h16 := reload_codes outputs_codes h.theta (hg 16 (by decide) (by decide))
  refine ⟨{ s with gamma := { s.gamma with tickets := sortTickets s.gamma.tickets } }, ?_,
    ⟨sortTickets_perm _, rfl⟩⟩
  unfold load
  rw [h1, h2, h3, h4, h5, h6, h7, h8, h9, h10, h11, h12, h13, h14, h15, h16]
  rfl

/-- **C60**: states that agree in all sixteen entries are the same state. -/
theorem C60_injective (D : Dims) (hz : 0 < D.reportSize) (s t : Sigma) (hs : Paper.SigmaOk D s)
    (ht : Paper.SigmaOk D t) (h : ∀ i, 1 ≤ i → i ≤ 16 → save s i = save t i) : Paper.Same s t := by
  have r : ∀ {α : Type} {e : Enc α} {d : Dec α} {ok : α → Prop} {l : α → Bytes} (_ : Codes e d ok l) {a b : α}
      (_ : ok a) (_ : ok b) (_ : e a = e b), a = b := by
    intro α e d ok l hc a b ha hb he
    have h1 := (hc a ha).1
    have h2 := reload_codes hc ha h1
    have h3 := reload_codes hc hb (he ▸ h1)
    rw [h2] at h3
    injection h3
  have e1 := r (pool_codes D) hs.alpha ht.alpha (h 1 (by decide) (by decide))
  have e2 := r (queue_codes D) hs.phi ht.phi (h 2 (by decide) (by decide))
  have e3 := r (history_codes D) hs.beta ht.beta (h 3 (by decide) (by decide))
  have e4 : { s.gamma with tickets := sortTickets s.gamma.tickets } =
      { t.gamma with tickets := sortTickets t.gamma.tickets } := by
    obtain ⟨a1, a2⟩ := safrole_codes D s.gamma hs.gamma
    obtain ⟨b1, b2⟩ := safrole_codes D t.gamma ht.gamma
    have hb : Safrole.enc s.gamma = Safrole.enc t.gamma := h 4 (by decide) (by decide)
    rw [a1, b1] at hb
    injection hb with hb
    have := a2 []
    rw [hb, b2 []] at this
    injection this with this
    injection this with this
    exact this.symm
  have e5 := r disputes_codes hs.psi ht.psi (h 5 (by decide) (by decide))
  have e6 := r entropy_codes hs.eta ht.eta (h 6 (by decide) (by decide))
  have e7 := r (keys_codes D) hs.iota ht.iota (h 7 (by decide) (by decide))
  have e8 := r (keys_codes D) hs.kappa ht.kappa (h 8 (by decide) (by decide))
  have e9 := r (keys_codes D) hs.lam ht.lam (h 9 (by decide) (by decide))
  have e10 := r (pending_codes D) hs.rho ht.rho (h 10 (by decide) (by decide))
  have e11 := r slot_codes hs.tau ht.tau (h 11 (by decide) (by decide))
  have e12 := r (privileges_codes D) hs.chi ht.chi (h 12 (by decide) (by decide))
  have e13 := r (statistics_codes D) hs.pi ht.pi (h 13 (by decide) (by decide))
  have e14 := r (ready_codes D hz) hs.omega ht.omega (h 14 (by decide) (by decide))
  have e15 := r (done_codes D) hs.xi ht.xi (h 15 (by decide) (by decide))
  have e16 := r outputs_codes hs.theta ht.theta (h 16 (by decide) (by decide))
  have et : sortTickets s.gamma.tickets = sortTickets t.gamma.tickets := by
    have := congrArg Safrole.tickets e4
    exact this
  have ep : s.gamma.pending = t.gamma.pending := by
    have := congrArg Safrole.pending e4
    exact this
  have er : s.gamma.ringRoot = t.gamma.ringRoot := by
    have := congrArg Safrole.ringRoot e4
    exact this
  have el : s.gamma.sealers = t.gamma.sealers := by
    have := congrArg Safrole.sealers e4
    exact this
  refine ⟨((sortTickets_perm t.gamma.tickets).symm.trans (et ▸ .refl _)).trans (sortTickets_perm s.gamma.tickets), ?_⟩
  obtain ⟨_, _, _, ⟨_, _, _, _⟩, _, _, _, _, _, _, _, _, _, _, _, _⟩ := s
  obtain ⟨_, _, _, ⟨_, _, _, _⟩, _, _, _, _, _, _, _, _, _, _, _, _⟩ := t
  simp only [] at *
  subst e1 e2 e3 e5 e6 e7 e8 e9 e10 e11 e12 e13 e14 e15 e16 ep er el
  rfl

/-! ## An example -/

def exD : Dims := { wire := ⟨1, 1, 2, 3, 4⟩, poolSize := 8, queueSize := 1, historyLength := 8, reportSize := 400 }
def exH : Bytes := List.replicate 32 200
def exH' : Bytes := List.replicate 32 7
def exK : VKey := ⟨exH, exH, List.replicate 144 1, List.replicate 128 255⟩
def exT (n : UInt8) : Ticket := ⟨List.replicate 32 n, 1⟩

theorem ex_each (n : UInt8) : Wire.Spec.TicketOk (exT n) := ⟨List.length_replicate .., by show (1 : Nat) < 2 ^ 8; decide⟩

def exGamma : Safrole := ⟨[exK], List.replicate 144 9, .keys [exH, exH', exH], [exT 5, exT 3]⟩

theorem exGamma_ok : Paper.SafroleOk exD exGamma := by
  refine ⟨⟨rfl, ?_⟩, List.length_replicate .., ⟨rfl, ?_⟩, ⟨by decide, by show 2 * 33 < 2 ^ 63; decide, by decide, ?_⟩⟩
  · intro k hk
    rw [List.mem_singleton.mp hk]
    exact ⟨rfl, rfl, List.length_replicate .., List.length_replicate ..⟩
  · decide
  · intro t ht
    simp only [exGamma, List.mem_cons, List.not_mem_nil, or_false] at ht
    rcases ht with rfl | rfl <;> exact ex_each _

example : (Safrole.dec exD (Paper.safrole { exGamma with tickets := [exT 3, exT 5] } ++ [1, 2])) =
    .ok ({ exGamma with tickets := [exT 3, exT 5] }, [1, 2]) := (safrole_codes exD exGamma exGamma_ok).2 [1, 2]

def exSigma : Sigma where
  alpha := [[exH], []]
  phi := [[exH], [exH']]
  beta := ⟨[⟨exH, exH', exH, [(exH, exH')]⟩], [none, some exH]⟩
  gamma := exGamma
  psi := ⟨[exH], [], [exH'], [exH, exH']⟩
  eta := [exH, exH', exH, exH]
  iota := [exK]
  kappa := [exK]
  lam := [exK]
  rho := [none, none]
  tau := 70000
  chi := ⟨1, [2, 3], 4, 2 ^ 31, [(5, 1000), (300, 7)]⟩
  pi := ⟨[⟨1, 2, 3, 4, 5, 6⟩], [⟨0, 0, 0, 0, 0, 0⟩], [⟨1, 2, 3, 4, 5, 6, 7, 2 ^ 40⟩, ⟨0, 0, 0, 0, 0, 0, 0, 0⟩],
    [(3, ⟨1, 2, 3, 4, 5, 6, 7, 8, 9, 10⟩)]⟩
  omega := [[], [], []]
  xi := [[exH', exH], [], []]
  theta := [(77, exH)]

theorem exSigma_ok : Paper.SigmaOk exD exSigma where
  alpha := by unfold Paper.PoolOk; decide
  phi := by unfold Paper.QueueOk; decide
  beta := by
    refine ⟨by decide, by decide, ?_, by show 2 * 33 < 2 ^ 63; decide, ?_⟩
    · intro e he
      rw [List.mem_singleton.mp he]
      exact ⟨rfl, rfl, rfl, by show 1 * 64 < 2 ^ 63; decide, by decide⟩
    · intro p hp b hb
      simp only [exSigma, List.mem_cons, List.not_mem_nil, or_false] at hp
      rcases hp with rfl | rfl
      · cases hb
      · injection hb with hb; subst hb; rfl
  gamma := exGamma_ok
  psi := ⟨⟨by show 1 * 32 < 2 ^ 63; decide, by decide⟩, ⟨by show 0 * 32 < 2 ^ 63; decide, by decide⟩,
    ⟨by show 1 * 32 < 2 ^ 63; decide, by decide⟩, ⟨by show 2 * 32 < 2 ^ 63; decide, by decide⟩⟩
  eta := by unfold Paper.EntropyOk; decide
  iota := exGamma_ok.pending
  kappa := exGamma_ok.pending
  lam := exGamma_ok.pending
  rho := ⟨rfl, by
    intro o ho p hp
    simp only [exSigma, List.mem_cons, List.not_mem_nil, or_false, or_self] at ho
    rw [ho] at hp
    cases hp⟩
  tau := by decide
  chi := ⟨by decide, by decide, by decide, by decide, by decide, by decide, by decide, by decide⟩
  pi := by
    refine ⟨rfl, ?_, rfl, ?_, rfl, ?_, by decide, by decide, ?_⟩
    · intro v hv
      rw [List.mem_singleton.mp hv]
      constructor <;> decide
    · intro v hv
      rw [List.mem_singleton.mp hv]
      constructor <;> decide
    · intro v hv
      simp only [exSigma, List.mem_cons, List.not_mem_nil, or_false] at hv
      rcases hv with rfl | rfl <;> constructor <;> decide
    · intro v hv
      rw [List.mem_singleton.mp hv]
      exact ⟨by decide, by constructor <;> decide⟩
  omega := ⟨rfl, by
    intro x hx
    simp only [exSigma, List.mem_cons, List.not_mem_nil, or_false, or_self] at hx
    subst hx
    exact ⟨by show 0 * 400 < 2 ^ 63; decide, by intro p hp; cases hp⟩⟩
  xi := by
    refine ⟨rfl, fun x hx => ?_⟩
    simp only [exSigma, List.mem_cons, List.not_mem_nil, or_false] at hx
    rcases hx with rfl | rfl | rfl
    · exact ⟨by decide, by unfold Wire.Spec.Increasing; decide, by decide⟩
    · exact ⟨by decide, by unfold Wire.Spec.Increasing; decide, by decide⟩
    · exact ⟨by decide, by unfold Wire.Spec.Increasing; decide, by decide⟩
  theta := ⟨by show 1 * 36 < 2 ^ 63; decide, by decide⟩

example : ∃ s', load exD (fun i => match save exSigma i with | .ok b => b | .error _ => []) = .ok s' ∧
    Paper.Same exSigma s' := by
  refine C60_reload exD (by decide) exSigma exSigma_ok _ ?_
  intro i h1 h2
  have : i = 1 ∨ i = 2 ∨ i = 3 ∨ i = 4 ∨ i = 5 ∨ i = 6 ∨ i = 7 ∨ i = 8 ∨ i = 9 ∨ i = 10 ∨ i = 11 ∨ i = 12 ∨ i = 13 ∨
    i = 14 ∨ i = 15 ∨ i = 16 := by omega
  rcases this with rfl | rfl | rfl | rfl | rfl | rfl | rfl | rfl | rfl | rfl | rfl | rfl | rfl | rfl | rfl | rfl <;>
    decide +kernel

/-! ## Departures -/

theorem nat_short (x : Nat) (h : x < 2 ^ 21) : (Wire.Spec.nat x).length ≤ 3 := by
  have hl : ∀ n x, (paperFixed n x).length = n := by
    intro n
    induction n with
    | zero => intro x; rfl
    | succ n ih => intro x; simp only [paperFixed, List.length_cons]; rw [ih]
  have hc : Wire.Spec.natClass x ≤ 2 := by
    unfold Wire.Spec.natClass
    by_cases c1 : x < 2 ^ 7
    · rw [if_pos c1]; omega
    · rw [if_neg c1]
      by_cases c2 : x < 2 ^ 14
      · rw [if_pos c2]; omega
      · rw [if_neg c2, if_pos h]; omega
  unfold Wire.Spec.nat
  rw [if_neg (by omega), List.length_cons, hl]
  omega

theorem fixed4_len (x : Nat) : (paperFixed 4 x).length = 4 := rfl

theorem services_longer : ∀ l : List (Nat × SvcStats), (∀ z ∈ l, z.1 < 2 ^ 21) →
    (Wire.Spec.seq (fun z : Nat × SvcStats => Wire.Spec.nat z.1 ++ Paper.svcStats z.2) l).length + l.length ≤
    (Wire.Spec.seq (fun z : Nat × SvcStats => paperFixed 4 z.1 ++ Paper.svcStats z.2) l).length := by
  intro l
  induction l with
  | nil => intro _; exact Nat.le_refl _
  | cons z l ih =>
    intro h
    have h1 := nat_short z.1 (h z (List.mem_cons_self ..))
    have h2 := ih fun z hz => h z (List.mem_cons_of_mem _ hz)
    simp only [Wire.Spec.seq, List.flatMap_cons, List.length_append, List.length_cons, fixed4_len] at h2 ⊢
    omega

/-- **C60** fails for `π`, as a remark in the code says: identifiers of services are not in the Gray Paper's
integer encoding, so every entry with small identifiers is laid out differently. -/
theorem C60_statistics_differ (D : Dims) (s : Statistics) (h : Paper.StatisticsOk D s) (hne : s.services ≠ [])
    (hid : ∀ z ∈ s.services, z.1 < 2 ^ 21) : Statistics.enc s ≠ .ok (Paper.statistics Wire.Spec.nat s) := by
  rw [(statistics_codes D s h).1]
  intro e
  injection e with e
  have := congrArg List.length e
  have h1 := services_longer s.services hid
  have h2 := List.length_pos_iff.mpr hne
  simp only [Paper.statistics, Wire.Spec.var, List.length_append] at this
  omega

example : Statistics.enc exSigma.pi ≠ .ok (Paper.statistics Wire.Spec.nat exSigma.pi) :=
  C60_statistics_differ exD exSigma.pi exSigma_ok.pi (by decide) (by decide)

/-- An accumulator of more tickets than the epoch has slots is not refused: an epoch's worth is kept. -/
theorem C60_accumulator_cut (E : Nat) (l : List Ticket) (hf : Wire.Spec.Fits l.length 33)
    (h : ∀ t ∈ l, Wire.Spec.TicketOk t) (rest : Bytes) :
    ∃ l', accDec E (Wire.Spec.var Wire.Spec.ticket l ++ rest) = .ok (l', rest) ∧ l'.length = min l.length E := by
  refine ⟨l.foldl (addTicket E) [], ?_, ?_⟩
  · unfold accDec
    rw [bind_ok ((ticketsVec_codes l ⟨hf, h⟩).2 _)]
    rfl
  · rw [addAll_length E l [] (Nat.zero_le _), List.length_nil, Nat.zero_add]

example : ∃ l', accDec 1 (Wire.Spec.var Wire.Spec.ticket [exT 5, exT 3] ++ []) = .ok (l', []) ∧ l'.length = 1 :=
  C60_accumulator_cut 1 [exT 5, exT 3] (by show 2 * 33 < 2 ^ 63; decide)
    (by intro t ht
        simp only [List.mem_cons, List.not_mem_nil, or_false] at ht
        rcases ht with rfl | rfl <;> exact ex_each _) []

/-- The time slots of a lookup entry are allocated before their number is compared with three: a length of `2^61`
or more panics instead of being refused. -/
theorem C60_lookups_panic (n : Nat) (hn : 2 ^ 61 ≤ n) (hn' : n < 2 ^ 64) (rest : Bytes) :
    lookupsDec (Wire.Spec.nat n ++ rest) = .error .panic := by
  unfold lookupsDec
  rw [bind_ok ((nat_codes 64 (by decide) n hn').2 rest)]
  have : reserve 4 n = Dec.fail .panic := by
    unfold reserve
    rw [if_neg]
    unfold maxAlloc
    omega
  rw [this]
  rfl

example : lookupsDec (Wire.Spec.nat (2 ^ 62) ++ [0]) = .error .panic := C60_lookups_panic (2 ^ 62) (by decide) (by decide) [0]

/-- What follows the value in an entry is ignored: an entry can be read without being the encoding of what is
read. (Entries come from outside when a state is imported.) -/
theorem C60_trailing {α : Type} (e : Enc α) (d : Dec α) (ok : α → Prop) (s : α → Bytes) (h : Codes e d ok s) (a : α)
    (ha : ok a) (rest : Bytes) : reload d (s a ++ rest) = .ok a := by
  unfold reload
  rw [(h a ha).2 rest]

example : reload slotDec ([1, 0, 0, 0] ++ [9]) = .ok 1 ∧ slotEnc 1 ≠ .ok [1, 0, 0, 0, 9] :=
  ⟨C60_trailing _ _ _ _ slot_codes 1 (by decide) [9], by decide⟩

end Fastroll.Comp
