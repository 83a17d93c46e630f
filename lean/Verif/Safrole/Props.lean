import Verif.Safrole.LemmasRun

/-!
# Properties C25, C26, C39

Every theorem is for any heap that keeps the contract of `BinaryHeap`, any constants, any hash
functions and any number of blocks.
-/
namespace Fastroll.Safrole

variable {κ ρ η : Type} [DecidableEq κ]

/-! ## Example data -/

def ins (t : Ticket) : List Ticket → List Ticket
  | [] => [t]
  | u :: l => if t.id ≤ u.id then t :: u :: l else u :: ins t l

def isort (l : List Ticket) : List Ticket := l.foldr ins []

theorem ins_perm (t : Ticket) : ∀ l, (ins t l).Perm (t :: l) := by
  intro l
  induction l with
  | nil => exact List.Perm.refl _
  | cons u l ih =>
    unfold ins
    split
    · exact List.Perm.refl _
    · exact (List.Perm.cons u ih).trans (List.Perm.swap ..)

theorem ins_sorted (t : Ticket) : ∀ {l : List Ticket}, (l.Pairwise fun a b => a.id ≤ b.id) → (ins t l).Pairwise fun a b => a.id ≤ b.id := by
  intro l
  induction l with
  | nil => intro _; exact List.pairwise_singleton ..
  | cons u l ih =>
    intro h
    have hh := List.pairwise_cons.1 h
    unfold ins
    split
    · next c =>
      refine List.Pairwise.cons (fun x hx => ?_) h
      rcases List.mem_cons.1 hx with e | e
      · rw [e]; exact c
      · have := hh.1 x e; omega
    · next c =>
      refine List.Pairwise.cons (fun x hx => ?_) (ih hh.2)
      rcases List.mem_cons.1 ((ins_perm t l).subset hx) with e | e
      · rw [e]; omega
      · exact hh.1 x e

theorem isort_perm (l : List Ticket) : (isort l).Perm l := by
  induction l with
  | nil => exact List.Perm.refl _
  | cons t l ih => exact (ins_perm t _).trans (List.Perm.cons t ih)

theorem isort_sorted (l : List Ticket) : (isort l).Pairwise fun a b => a.id ≤ b.id := by
  induction l with
  | nil => exact List.Pairwise.nil
  | cons t l ih => exact ins_sorted t ih

/-- A heap. -/
def exHeap : Heap where
  peek l := (isort l).getLast?
  sorted := isort
  peek_nil := rfl
  peek_some l h := by
    cases hl : (isort l).getLast? with
    | some t => exact ⟨t, rfl⟩
    | none =>
      rw [List.getLast?_eq_none_iff] at hl
      have := (isort_perm l).length_eq
      rw [hl] at this
      exact absurd (List.length_eq_zero_iff.1 this.symm) h
  peek_mem l t h := (isort_perm l).subset (List.mem_of_getLast? h)
  peek_max l t h u hu := by
    rw [List.getLast?_eq_some_iff] at h
    obtain ⟨ys, e⟩ := h
    have hs := isort_sorted l
    have hu := (isort_perm l).symm.subset hu
    rw [e] at hs hu
    rcases List.mem_append.1 hu with c | c
    · exact (List.pairwise_append.1 hs).2.2 u c t (by simp)
    · simp only [List.mem_singleton] at c; rw [c]; exact Nat.le_refl _
  sorted_perm := isort_perm
  sorted_le := isort_sorted

def exPar : Par where
  epoch := 4
  contest := 3
  perXt := 2
  perVal := 2
  validators := 2

def exTickets : List Ticket := [⟨9, 0⟩, ⟨3, 1⟩, ⟨7, 0⟩, ⟨1, 0⟩, ⟨5, 1⟩]

def exCrypto : Crypto Nat (List Nat) Nat where
  mix a b := 10 * a + b
  word e i := e + i
  ringRoot := fun v => v.map VKey.bander
  zero := ⟨0, 0⟩

def exState : State Nat (List Nat) Nat where
  slot := 2
  e0 := 1
  e1 := 2
  e2 := 3
  e3 := 4
  saf := { pending := [⟨11, 12⟩, ⟨13, 14⟩], root := [11, 13], sealers := .keys [1, 2, 3, 4], acc := [] }
  staging := [⟨21, 22⟩, ⟨23, 24⟩]
  active := [⟨31, 32⟩, ⟨33, 34⟩]
  past := [⟨41, 42⟩, ⟨43, 44⟩]

def exBlk (slot : Nat) (xt : List Entry) : Blk Nat Nat where
  slot := slot
  tickets := xt
  punished := [24]
  vrf := slot
  staged := none

/-- An epoch with four tickets, opened at slot 4, its contest over at slot 7, and the next at 8. -/
def exEpoch : List (Blk Nat Nat) :=
  [exBlk 5 [⟨some 4, 0, true⟩, ⟨some 6, 1, true⟩], exBlk 6 [], exBlk 7 []]

def exOpen : Blk Nat Nat := exBlk 4 [⟨some 2, 0, true⟩, ⟨some 8, 1, true⟩]

/-! ## C25 -/

/-- After any sequence of additions the accumulator holds the `E` lowest of all the tickets added. -/
theorem C25_keeps_lowest (H : Heap) (E : Nat) (ts : List Ticket) : Lowest E ts (addMany H E [] ts) := by
  have := addMany_lowest H ts [] [] (lowest_self (Nat.zero_le E))
  simpa using this

example : exHeap.sorted (addMany exHeap 3 [] exTickets) = [⟨1, 0⟩, ⟨3, 1⟩, ⟨5, 1⟩] := by decide +kernel

/-- The order of arrival does not matter: the contents, and what is encoded, are the same. -/
theorem C25_order_independent (H : Heap) (E : Nat) {ts ts' : List Ticket} (hd : Distinct ts) (hp : ts.Perm ts') :
    (addMany H E [] ts).Perm (addMany H E [] ts') ∧ H.sorted (addMany H E [] ts) = H.sorted (addMany H E [] ts') := by
  have h1 := C25_keeps_lowest H E ts
  have h2 := (C25_keeps_lowest H E ts').perm hp.symm
  have hk := lowest_unique hd h1 h2
  refine ⟨hk, sorted_unique ?_ (((H.sorted_perm _).trans hk).trans (H.sorted_perm _).symm) (H.sorted_le _) (H.sorted_le _)⟩
  obtain ⟨d, p, _, _⟩ := h1
  have hn : Distinct (addMany H E [] ts ++ d) := (p.pairwise_iff fun h => Ne.symm h).2 hd
  have hn : Distinct (addMany H E [] ts) := (List.pairwise_append.1 hn).1
  exact ((H.sorted_perm _).pairwise_iff fun h => Ne.symm h).2 hn

example : Distinct exTickets ∧ exTickets.Perm exTickets.reverse ∧ addMany exHeap 3 [] exTickets ≠ addMany exHeap 3 [] exTickets.reverse := by
  refine ⟨by unfold Distinct; decide, (List.reverse_perm _).symm, by decide +kernel⟩

/-- Two heaps choose the same tickets: nothing depends on how `BinaryHeap` is laid out. -/
theorem C25_heap_independent (H H' : Heap) (E : Nat) {ts : List Ticket} (hd : Distinct ts) : H.sorted (addMany H E [] ts) = H'.sorted (addMany H' E [] ts) := by
  have h1 := C25_keeps_lowest H E ts
  have hk := lowest_unique hd h1 (C25_keeps_lowest H' E ts)
  refine sorted_unique ?_ (((H.sorted_perm _).trans hk).trans (H'.sorted_perm _).symm) (H.sorted_le _) (H'.sorted_le _)
  obtain ⟨d, p, _, _⟩ := h1
  have hn : Distinct (addMany H E [] ts ++ d) := (p.pairwise_iff fun h => Ne.symm h).2 hd
  exact ((H.sorted_perm _).pairwise_iff fun h => Ne.symm h).2 (List.pairwise_append.1 hn).1

/-- Writing the accumulator as a sorted list and adding the list to an empty one gives it back. -/
theorem C25_decode_encode (H : Heap) {E : Nat} {acc : List Ticket} (hl : acc.length ≤ E) :
    (addMany H E [] (H.sorted acc)).Perm acc ∧ (Distinct acc → H.sorted (addMany H E [] (H.sorted acc)) = H.sorted acc) := by
  obtain ⟨d, p, l, _⟩ := C25_keeps_lowest H E (H.sorted acc)
  have hsl : (H.sorted acc).length = acc.length := (H.sorted_perm acc).length_eq
  have hd : d = [] := by
    have := p.length_eq
    rw [List.length_append] at this
    exact List.length_eq_zero_iff.1 (by omega)
  rw [hd, List.append_nil] at p
  have hp := p.trans (H.sorted_perm acc)
  refine ⟨hp, fun hn => ?_⟩
  refine sorted_unique ?_ (((H.sorted_perm _).trans hp).trans (H.sorted_perm _).symm) (H.sorted_le _) (H.sorted_le _)
  exact (((H.sorted_perm _).trans hp).pairwise_iff fun h => Ne.symm h).2 hn

example : exTickets.length ≤ 5 ∧ Distinct exTickets := ⟨by decide, by unfold Distinct; decide⟩

/-- An accepted extrinsic: in order, of distinct tickets not in the accumulator, and every one of them
stays in the accumulator. -/
theorem C25_accepted_all_kept (H : Heap) {P : Par} (hP : P.perXt ≤ P.epoch) {phase : Nat} {acc new : List Ticket} {xt : List Entry}
    (ha : acc.length ≤ P.epoch) (h : validate H P phase acc xt = .ok new) :
    Distinct new ∧ (∀ t ∈ new, t ∉ acc ∧ t ∈ addMany H P.epoch acc new) ∧ (new ≠ [] → phase < P.contest ∧ new.length ≤ P.perXt) := by
  rcases validate_ok h with ⟨h1, h2⟩ | ⟨h1, h2, h3, h4, h5, h6, h7, h8⟩
  · subst h1; exact ⟨List.Pairwise.nil, (fun _ h => by cases h), fun h => absurd rfl h⟩
  · have hlen := newTickets_length h3
    refine ⟨h5, fun t ht => ⟨h6 t ht, ?_⟩, fun _ => ⟨h1, by omega⟩⟩
    exact useful_kept H (by omega) h4 h7 (addMany_lowest H new acc acc (lowest_self ha)) t ht

example : (validate exHeap exPar 1 [⟨9, 0⟩, ⟨3, 1⟩, ⟨7, 0⟩, ⟨1, 0⟩] [⟨some 4, 0, true⟩, ⟨some 6, 1, true⟩]).toOption = some [⟨4, 0⟩, ⟨6, 1⟩] ∧
    exHeap.sorted (addMany exHeap 4 [⟨9, 0⟩, ⟨3, 1⟩, ⟨7, 0⟩, ⟨1, 0⟩] [⟨4, 0⟩, ⟨6, 1⟩]) = [⟨1, 0⟩, ⟨3, 1⟩, ⟨4, 0⟩, ⟨6, 1⟩] := by decide +kernel

/-- Exactly which extrinsics are accepted, and what they add: the empty one; and in the contest period one
of limited size whose entries all have a valid proof and an allowed attempt, with strictly ascending
identifiers, none of them in the accumulator and none useless. -/
theorem C25_accept_iff (H : Heap) {P : Par} (hp : 0 < P.perVal) {phase : Nat} {acc new : List Ticket} {xt : List Entry} :
    validate H P phase acc xt = .ok new ↔ new = ticketsOf xt ∧ (xt = [] ∨ (phase < P.contest ∧ xt.length ≤ P.perXt ∧
      (∀ e ∈ xt, e.output.isSome = true ∧ e.verifies = true ∧ e.attempt < P.perVal) ∧ (new.Pairwise fun a b => a.id < b.id) ∧
      (∀ t ∈ new, t ∉ acc) ∧ useless H P.epoch acc new = false)) := by
  constructor
  · intro h
    rcases validate_ok h with ⟨h1, h2⟩ | ⟨h1, h2, h3, h4, h5, h6, h7, h8⟩
    · subst h1; subst h2; exact ⟨rfl, .inl rfl⟩
    · obtain ⟨n1, n2⟩ := (newTickets_iff _ _).1 h3
      have hc := (checkEntries_iff P hp xt).1 h8
      refine ⟨n2, .inr ⟨h1, h2, fun e he => ⟨n1 e he, (hc e he).2, (hc e he).1⟩, ?_, h6, h7⟩⟩
      exact (ascending_iff _).1 ⟨h4, (noDup_iff _ _).2 ⟨h5, fun _ _ h => by cases h⟩⟩
  · rintro ⟨e, h⟩
    by_cases c : xt = []
    · subst c; rw [e]; rfl
    · rcases h with h | ⟨h1, h2, h3, h4, h5, h6⟩
      · exact absurd h c
      · obtain ⟨o1, o2⟩ := (ascending_iff _).2 h4
        unfold validate
        rw [if_neg (by simpa using c), if_neg (by omega), if_neg (by omega), (newTickets_iff xt new).2 ⟨fun e he => (h3 e he).1, e⟩]
        simp only
        rw [if_neg (by simp [o1]), if_neg (by simp [o2]), if_neg (by rw [any_contains]; rintro ⟨t, ht, hm⟩; exact h5 t ht hm), if_neg (by simp [h6]),
          (checkEntries_iff P hp xt).2 fun e he => ⟨(h3 e he).2.2, (h3 e he).2.1⟩]

/-- The check for useless tickets refuses exactly the extrinsics that bring a ticket which would not be
kept. -/
theorem C25_useless_exact (H : Heap) {E : Nat} {acc new : List Ticket} (ha : acc.length ≤ E) (hn : new.length ≤ E) (ho : inOrder new = true)
    (hd : Distinct (acc ++ new)) : useless H E acc new = true ↔ ∃ t ∈ new, t ∉ addMany H E acc new := by
  have hk := addMany_lowest H new acc acc (lowest_self ha)
  constructor
  · intro h; exact useless_dropped H hd ho h hk
  · rintro ⟨t, ht, hnk⟩
    refine Decidable.byContradiction fun c => hnk ?_
    exact useful_kept H hn ho (by simpa using c) hk t ht

example : useless exHeap 4 [⟨9, 0⟩, ⟨3, 1⟩, ⟨7, 0⟩, ⟨1, 0⟩] [⟨4, 0⟩, ⟨8, 1⟩] = true ∧ useless exHeap 4 [⟨9, 0⟩, ⟨3, 1⟩, ⟨7, 0⟩, ⟨1, 0⟩] [⟨4, 0⟩, ⟨6, 1⟩] = false := by
  decide +kernel

/-- The check's limit matters: a list longer than the accumulator passes it although not all is kept.
(`MAX_TICKETS_PER_EXTRINSIC` is far below `EPOCH_LENGTH` in both chain specifications.) -/
theorem C25_useless_needs_limit : useless exHeap 1 [] [⟨4, 0⟩, ⟨8, 1⟩] = false ∧ ⟨8, 1⟩ ∉ addMany exHeap 1 [] [⟨4, 0⟩, ⟨8, 1⟩] := by
  decide +kernel

/-- Over an epoch, from the block opening it: the accumulator holds the `E` lowest of all the tickets
that blocks of the epoch brought. -/
theorem C25_epoch (H : Heap) (P : Par) (C : Crypto κ ρ η) (hE : 0 < P.epoch) {s s1 s2 : State κ ρ η} {b : Blk κ η} {bs : List (Blk κ η)}
    (hb : block H P C s b = some s1) (ho : epochOf P s.slot < epochOf P b.slot) (hc : chain H P C bs s1 = some s2)
    (hin : ∀ c ∈ bs, epochOf P c.slot = epochOf P b.slot) : Lowest P.epoch (offers (b :: bs)) s2.saf.acc := by
  obtain ⟨_, b2, _, _, b5⟩ := block_some hb
  rcases b5 with ⟨_, _, _, _, _, _, _, _, _, new, hv, ha⟩ | ⟨f, _⟩
  · have hl : Lowest P.epoch new s1.saf.acc := by rw [ha]; exact C25_keeps_lowest H _ new
    have := (epoch_run H P C hE bs hc (fun c hc => by rw [b2]; exact hin c hc) hl).2.2.1
    have e : offers (b :: bs) = new ++ offers bs := by unfold offers; rw [List.flatMap_cons, validate_offers hv]
    rw [e]; exact this
  · omega

example : ((block exHeap exPar exCrypto exState exOpen).bind (chain exHeap exPar exCrypto exEpoch)).map (fun s => exHeap.sorted s.saf.acc) =
    some [⟨2, 0⟩, ⟨4, 0⟩, ⟨6, 1⟩, ⟨8, 1⟩] := by decide +kernel

/-- No ticket is in the accumulator twice, whatever blocks come. -/
theorem C25_no_duplicates (H : Heap) {P : Par} {phase : Nat} {acc new : List Ticket} {xt : List Entry} (ha : acc.length ≤ P.epoch) (hn : acc.Nodup)
    (h : validate H P phase acc xt = .ok new) : (addMany H P.epoch acc new).Nodup := by
  have hna : (acc ++ new).Nodup := by
    rcases validate_ok h with ⟨h1, h2⟩ | ⟨h1, h2, h3, h4, h5, h6, h7, h8⟩
    · subst h1; simpa using hn
    · refine List.nodup_append.2 ⟨hn, h5.imp fun h e => h (congrArg Ticket.id e), ?_⟩
      intro a ha b hb e
      exact h6 b hb (e ▸ ha)
  obtain ⟨d, p, _, _⟩ := addMany_lowest H new acc acc (lowest_self ha)
  exact (List.nodup_append.1 (p.nodup_iff.2 hna)).1

/-- But two tickets with the same identifier are accepted if their attempts differ: the comparison with
the accumulator is on both fields, the one within the extrinsic on the identifier. -/
theorem C25_same_id_partial : (validate exHeap exPar 0 [⟨4, 0⟩] [⟨some 4, 1, true⟩]).toOption = some [⟨4, 1⟩] ∧
    addMany exHeap exPar.epoch [⟨4, 0⟩] [⟨4, 1⟩] = [⟨4, 1⟩, ⟨4, 0⟩] := by decide +kernel

/-- With identifiers that determine the attempt, as VRF outputs that do not collide do, they stay
distinct. -/
theorem C25_distinct (H : Heap) {P : Par} (attempt : Nat → Nat) {phase : Nat} {acc new : List Ticket} {xt : List Entry} (ha : acc.length ≤ P.epoch)
    (hn : Distinct acc) (hat : ∀ t ∈ acc ++ new, t.attempt = attempt t.id) (h : validate H P phase acc xt = .ok new) :
    Distinct (addMany H P.epoch acc new) := by
  have hnd : acc.Nodup := hn.imp fun h e => h (congrArg Ticket.id e)
  have h1 := C25_no_duplicates H ha hnd h
  obtain ⟨d, p, _, _⟩ := addMany_lowest H new acc acc (lowest_self ha)
  refine (List.Pairwise.imp_of_mem (S := fun a b => a.id ≠ b.id) ?_ h1)
  intro a b hma hmb hne e
  refine hne ?_
  have e1 := hat a (p.subset (List.mem_append_left _ hma))
  have e2 := hat b (p.subset (List.mem_append_left _ hmb))
  cases a; cases b
  simp only at *
  subst e
  rw [e1, e2]

example : ∀ t ∈ ([⟨9, 0⟩, ⟨3, 1⟩] ++ [⟨4, 0⟩, ⟨6, 0⟩] : List Ticket), t.attempt = if t.id = 3 then 1 else 0 := by decide

/-! ## C26 -/

/-- The outside-in order: a permutation with the stated positions, for any non-empty list. -/
theorem C26_outside_in {v : List Ticket} (h : v ≠ []) : ∃ r, outsideIn v = some r ∧ OutsideIn v r ∧ r.Perm v := outsideIn_spec h

example : outsideIn [⟨1, 0⟩, ⟨2, 0⟩, ⟨3, 0⟩, ⟨4, 0⟩, ⟨5, 0⟩] = some [⟨1, 0⟩, ⟨5, 0⟩, ⟨2, 0⟩, ⟨4, 0⟩, ⟨3, 0⟩] := by decide

/-- On a well-formed state a block fails in this part only for its slot or for its tickets. -/
theorem C26_never_stuck (H : Heap) {P : Par} (C : Crypto κ ρ η) (hE : 0 < P.epoch) (hV : 0 < P.validators) {s : State κ ρ η} (hw : WF P s) (b : Blk κ η) :
    (block H P C s b).isSome = true ↔ s.slot < b.slot ∧
      (validate H P (phaseOf P b.slot) (if epochOf P s.slot < epochOf P b.slot then [] else s.saf.acc) b.tickets).isOk = true := by
  unfold block
  rw [Option.isSome_map]
  unfold header
  by_cases c : b.slot ≤ s.slot
  · rw [if_pos c]; simp; omega
  · rw [if_neg c]
    unfold epochOf phaseOf
    by_cases f : s.slot / P.epoch < b.slot / P.epoch
    · obtain ⟨sl, hs⟩ := nextSealers_some H C hE hV s.saf s.slot b.slot s.e1 hw.1
      simp only [f, if_true, hs]
      cases hv : validate H P (b.slot % P.epoch) [] b.tickets with
      | error x => simp [Except.isOk, Except.toBool]
      | ok new => simp [Except.isOk, Except.toBool]; omega
    · simp only [f, if_false]
      cases hv : validate H P (b.slot % P.epoch) s.saf.acc b.tickets with
      | error x => simp [Except.isOk, Except.toBool]
      | ok new => simp [Except.isOk, Except.toBool]; omega

example : WF exPar exState ∧ (block exHeap exPar exCrypto exState exOpen).isSome = true := by
  refine ⟨⟨rfl, rfl, rfl, rfl, by decide, rfl⟩, by decide +kernel⟩

/-- Well-formedness is kept, so every slot has a sealer after any chain of blocks. -/
theorem C26_every_slot_sealed (H : Heap) {P : Par} (C : Crypto κ ρ η) (hE : 0 < P.epoch) : ∀ (bs : List (Blk κ η)) {s s' : State κ ρ η}, WF P s → (∀ b ∈ bs, WFBlk P b) →
    chain H P C bs s = some s' → WF P s' ∧ ∀ slot, ∃ k, sealerAt P s'.saf.sealers slot = some k := by
  intro bs
  induction bs with
  | nil =>
    intro s s' hw _ h
    cases h
    refine ⟨hw, fun slot => ?_⟩
    have hlt : slot % P.epoch < P.epoch := Nat.mod_lt _ hE
    have hl := hw.2.2.2.2.2
    unfold sealerAt
    cases hs : s.saf.sealers with
    | tickets l => rw [hs] at hl; simp only [Sealers.length] at hl; exact ⟨.ticket (l[slot % P.epoch]'(by omega)), by simp only; rw [List.getElem?_eq_getElem (by omega)]; rfl⟩
    | keys l => rw [hs] at hl; simp only [Sealers.length] at hl; exact ⟨.key (l[slot % P.epoch]'(by omega)), by simp only; rw [List.getElem?_eq_getElem (by omega)]; rfl⟩
  | cons b bs ih =>
    intro s s' hw hb h
    unfold chain at h
    cases hb1 : block H P C s b with
    | none => rw [hb1] at h; cases h
    | some s1 =>
      rw [hb1] at h
      exact ih (block_wf hw (hb b (List.mem_cons_self ..)) hb1) (fun c hc => hb c (List.mem_cons_of_mem _ hc)) h

/-- When an epoch opens, tickets seal it exactly if it follows the previous one directly, that one's
contest was over and its accumulator full; otherwise sealer `i` is the key of the validator of the new
active set that the new `η₂` selects for `i`. -/
theorem C26_mode (H : Heap) (P : Par) (C : Crypto κ ρ η) (hE : 0 < P.epoch) {s s' : State κ ρ η} {b : Blk κ η} (hb : block H P C s b = some s')
    (ho : epochOf P s.slot < epochOf P b.slot) :
    (epochOf P b.slot = epochOf P s.slot + 1 ∧ P.contest ≤ phaseOf P s.slot ∧ s.saf.acc.length = P.epoch →
      ∃ v r, s'.saf.sealers = .tickets r ∧ OutsideIn v r ∧ v.Perm s.saf.acc ∧ v.Pairwise fun a b => a.id ≤ b.id) ∧
    (¬ (epochOf P b.slot = epochOf P s.slot + 1 ∧ P.contest ≤ phaseOf P s.slot ∧ s.saf.acc.length = P.epoch) →
      ∃ ks, s'.saf.sealers = .keys ks ∧ ks.length = P.epoch ∧ ∀ i, i < P.epoch →
        ∃ v, s'.active[C.word s'.e2 i % P.validators]? = some v ∧ ks[i]? = some v.bander) := by
  obtain ⟨_, _, _, _, b5⟩ := block_some hb
  rcases b5 with ⟨_, _, q0, _, _, q1, _, _, q, _⟩ | ⟨f, _⟩
  · unfold epochOf phaseOf at *
    constructor
    · rintro ⟨c1, c2, c3⟩
      unfold nextSealers at q
      rw [if_neg (by omega)] at q
      have hsl : (H.sorted s.saf.acc).length = P.epoch := by rw [(H.sorted_perm _).length_eq, c3]
      obtain ⟨r, hr, hoi, _⟩ := outsideIn_spec (v := H.sorted s.saf.acc) (fun e => by rw [e] at hsl; simp at hsl; omega)
      rw [hr] at q
      simp only at q
      rw [if_pos (by rw [hoi.1, hsl])] at q
      exact ⟨_, r, (Option.some.inj q).symm, hoi, H.sorted_perm _, H.sorted_le _⟩
    · intro c
      unfold nextSealers at q
      rw [if_pos (by omega), ← q0, ← q1] at q
      cases hf : fallbackKeys P (C.word s'.e2) s'.active with
      | none => rw [hf] at q; cases q
      | some ks =>
        rw [hf] at q
        obtain ⟨m1, m2⟩ := mapM_length _ _ hf
        refine ⟨ks, (Option.some.inj q).symm, by simpa using m1, fun i hi => ?_⟩
        obtain ⟨x, hx, hk⟩ := m2 i i (by rw [List.getElem?_range hi])
        cases hv : s'.active[C.word s'.e2 i % P.validators]? with
        | none => rw [hv] at hx; cases hx
        | some v => rw [hv] at hx; cases hx; exact ⟨v, rfl, hk⟩
  · omega

/-- The winning-tickets marker is a promise: in an epoch whose successor follows directly, it is given
at most once, and the next epoch is sealed by tickets exactly if it was given, by those tickets. They are
the lowest of all tickets offered in the epoch, in outside-in order. Within the epoch the sealers do not
change. -/
theorem C26_winners_seal_next (H : Heap) (P : Par) (C : Crypto κ ρ η) (hE : 0 < P.epoch) {s s1 s2 s3 : State κ ρ η} {b b' : Blk κ η} {bs : List (Blk κ η)}
    (hb : block H P C s b = some s1) (ho : epochOf P s.slot < epochOf P b.slot) (hc : chain H P C bs s1 = some s2)
    (hin : ∀ c ∈ bs, epochOf P c.slot = epochOf P b.slot) (hb' : block H P C s2 b' = some s3) (hn : epochOf P b'.slot = epochOf P b.slot + 1) :
    s2.saf.sealers = s1.saf.sealers ∧ (announced H P C bs s1).length ≤ 1 ∧
    (∀ r, s3.saf.sealers = .tickets r ↔ announced H P C bs s1 = [r]) ∧
    (∀ r, s3.saf.sealers = .tickets r → ∃ v, OutsideIn v r ∧ v.Pairwise (fun a b => a.id ≤ b.id) ∧ v.length = P.epoch ∧ Lowest P.epoch (offers (b :: bs)) v) := by
  have hlow := C25_epoch H P C hE hb ho hc hin
  obtain ⟨_, b2, _, _, b5⟩ := block_some hb
  rcases b5 with ⟨_, _, _, _, _, _, _, _, _, new, hv, ha⟩ | ⟨f, _⟩
  case inr => omega
  have hl : Lowest P.epoch new s1.saf.acc := by rw [ha]; exact C25_keeps_lowest H _ new
  obtain ⟨i1, i2, _, i4, i5, i6⟩ := epoch_run H P C hE bs hc (fun c hc => by rw [b2]; exact hin c hc) hl
  rw [b2] at i2
  obtain ⟨m1, m2⟩ := C26_mode H P C hE hb' (by rw [i2]; omega)
  rw [i2] at m1 m2
  have hbase : P.contest ≤ phaseOf P s1.slot → s1.saf.acc.length ≠ P.epoch := by
    intro hc
    have := validate_late hv (by rw [← b2]; exact hc)
    rw [ha, this, addMany_nil]; simp; omega
  -- what is announced, in terms of the end of the epoch
  have hann : announced H P C bs s1 = if P.contest ≤ phaseOf P s2.slot ∧ s2.saf.acc.length = P.epoch then (outsideIn (H.sorted s2.saf.acc)).toList else [] := by
    by_cases c1 : P.contest ≤ phaseOf P s1.slot
    · obtain ⟨j1, j2⟩ := i4 c1
      rw [j2, if_neg (by rw [j1]; exact fun h => hbase c1 h.2)]
    · by_cases c2 : P.contest ≤ phaseOf P s2.slot
      · rw [i6 (by omega) c2]
        by_cases c3 : s2.saf.acc.length = P.epoch
        · rw [if_pos c3, if_pos ⟨c2, c3⟩]
        · rw [if_neg c3, if_neg fun h => c3 h.2]
      · rw [i5 (by omega), if_neg fun h => c2 h.1]
  by_cases c : P.contest ≤ phaseOf P s2.slot ∧ s2.saf.acc.length = P.epoch
  · have hsl : (H.sorted s2.saf.acc).length = P.epoch := by rw [(H.sorted_perm _).length_eq, c.2]
    obtain ⟨r, hr, hoi, _⟩ := outsideIn_spec (v := H.sorted s2.saf.acc) (fun e => by rw [e] at hsl; simp at hsl; omega)
    rw [if_pos c, hr] at hann
    have hsr : s3.saf.sealers = .tickets r := by
      obtain ⟨_, _, _, _, b5'⟩ := block_some hb'
      rcases b5' with ⟨_, _, _, _, _, _, _, _, q, _⟩ | ⟨f, _⟩
      · unfold nextSealers at q
        rw [if_neg (by unfold epochOf at i2 hn; unfold phaseOf at c; omega), hr] at q
        simp only at q
        rw [if_pos (by rw [hoi.1, hsl])] at q
        exact (Option.some.inj q).symm
      · omega
    rw [hann]
    refine ⟨i1, by simp, fun r' => ?_, fun r' h => ?_⟩
    · rw [hsr]; simp
    · rw [hsr] at h
      cases h
      refine ⟨_, hoi, H.sorted_le _, hsl, ?_⟩
      obtain ⟨d, p, l, o⟩ := hlow
      refine ⟨d, ((H.sorted_perm _).append_right d).trans p, by rw [(H.sorted_perm _).length_eq]; exact l, ?_⟩
      intro x hx y hy
      exact o x ((H.sorted_perm _).subset hx) y hy
  · rw [if_neg c] at hann
    obtain ⟨ks, hk, _⟩ := m2 (fun h => c ⟨h.2.1, h.2.2⟩)
    rw [hann]
    refine ⟨i1, by simp, fun r => ?_, fun r h => ?_⟩
    · rw [hk]; simp
    · rw [hk] at h; cases h

def Sealers.ticketList {κ : Type} : Sealers κ → Option (List Ticket)
  | .tickets l => some l
  | .keys _ => none

example : (block exHeap exPar exCrypto exState exOpen).map (announced exHeap exPar exCrypto exEpoch) = some [[⟨2, 0⟩, ⟨8, 1⟩, ⟨4, 0⟩, ⟨6, 1⟩]] ∧
    ((block exHeap exPar exCrypto exState exOpen).bind fun s => (chain exHeap exPar exCrypto exEpoch s).bind fun s => (block exHeap exPar exCrypto s (exBlk 8 [])).map fun s =>
      s.saf.sealers.ticketList) = some (some [⟨2, 0⟩, ⟨8, 1⟩, ⟨4, 0⟩, ⟨6, 1⟩]) := by decide +kernel

/-! ## C39 -/

/-- After any chain of blocks: pending, active and past set are the last three staging sets seen when an
epoch opened, without the punished, and `η₁ η₂ η₃` the last three values of `η₀` at those times; `η₀`
takes in every block's VRF output once. -/
theorem C39_rotation (H : Heap) (P : Par) (C : Crypto κ ρ η) (bs : List (Blk κ η)) {s s' : State κ ρ η} (h : chain H P C bs s = some s') :
    [s'.saf.pending, s'.active, s'.past] =
      ((firsts P (befores H P C bs s)).map (fun e => nullify C.zero e.2.punished e.1.staging) ++ [s.saf.pending, s.active, s.past]).take 3 ∧
    [s'.e1, s'.e2, s'.e3] = ((firsts P (befores H P C bs s)).map (fun e => e.1.e0) ++ [s.e1, s.e2, s.e3]).take 3 ∧
    s'.e0 = bs.foldl (fun e b => C.mix e b.vrf) s.e0 ∧
    s'.staging = bs.foldl (fun v b => b.staged.getD v) s.staging := by
  obtain ⟨h1, h2, h3, h4, _⟩ := chain_rotation H P C bs h
  exact ⟨h1, h2, h3, h4⟩

example : (chain exHeap exPar exCrypto [exBlk 4 [], exBlk 9 [], exBlk 11 []] exState).map (fun s => ([s.saf.pending, s.active, s.past], [s.e1, s.e2, s.e3], s.e0)) =
    some ([[⟨21, 22⟩, ⟨0, 0⟩], [⟨21, 22⟩, ⟨0, 0⟩], [⟨11, 12⟩, ⟨13, 14⟩]], [14, 1, 2], 1501) := by decide +kernel

/-- A validator whose signing key is in the punish set when an epoch opens is not in the pending set of
that epoch, hence not in the active set of the next; the places of the others do not change. -/
theorem C39_punished_excluded (zero : VKey κ) (punished : List κ) (set : List (VKey κ)) :
    (nullify zero punished set).length = set.length ∧
    ∀ (i : Nat) (v : VKey κ), set[i]? = some v → (nullify zero punished set)[i]? = some (if v.ed ∈ punished then zero else v) := by
  refine ⟨by simp [nullify], fun i v hv => ?_⟩
  unfold nullify
  rw [List.getElem?_map, hv]
  simp [List.contains_iff_mem]

/-- Over a chain of blocks: every validator of the pending set, once an epoch has opened, is null or was
not punished when it opened. -/
theorem C39_pending_unpunished (H : Heap) (P : Par) (C : Crypto κ ρ η) (bs : List (Blk κ η)) {s s' : State κ ρ η} (h : chain H P C bs s = some s')
    {e : State κ ρ η × Blk κ η} {l : List (State κ ρ η × Blk κ η)} (hf : firsts P (befores H P C bs s) = e :: l) :
    ∀ v ∈ s'.saf.pending, v = C.zero ∨ (v ∈ e.1.staging ∧ v.ed ∉ e.2.punished) := by
  have := (C39_rotation H P C bs h).1
  rw [hf] at this
  simp only [List.map_cons, List.cons_append, List.take_succ_cons, List.cons.injEq] at this
  rw [this.1]
  intro v hv
  unfold nullify at hv
  obtain ⟨u, hu, e⟩ := List.mem_map.1 hv
  by_cases c : u.ed ∈ (‹State κ ρ η × Blk κ η›).2.punished
  · rw [if_pos (by simpa [List.contains_iff_mem] using c)] at e; exact .inl e.symm
  · rw [if_neg (by simpa [List.contains_iff_mem] using c)] at e; subst e; exact .inr ⟨hu, c⟩

example : ((firsts exPar (befores exHeap exPar exCrypto [exBlk 4 [], exBlk 9 [], exBlk 11 []] exState)).map fun e => e.2.slot) = [9, 4] := by decide +kernel

/-- The ring root is always that of the pending set, so tickets are verified against the validators they
are meant for. -/
theorem C39_ring_root (H : Heap) (P : Par) (C : Crypto κ ρ η) : ∀ (bs : List (Blk κ η)) {s s' : State κ ρ η}, chain H P C bs s = some s' →
    s.saf.root = C.ringRoot s.saf.pending → s'.saf.root = C.ringRoot s'.saf.pending := by
  intro bs
  induction bs with
  | nil => intro s s' h hr; cases h; exact hr
  | cons b bs ih =>
    intro s s' h hr
    unfold chain at h
    cases hb : block H P C s b with
    | none => rw [hb] at h; cases h
    | some s1 =>
      rw [hb] at h
      refine ih h ?_
      obtain ⟨_, _, _, _, b5⟩ := block_some hb
      rcases b5 with ⟨_, _, _, _, _, _, _, q, _⟩ | ⟨_, _, _, _, _, _, q1, q2, _⟩
      · exact q
      · rw [q1, q2]; exact hr

example : exState.saf.root = exCrypto.ringRoot exState.saf.pending := rfl

/-- The epoch marker: put into a header exactly when the block opens an epoch, it names the entropies the
epoch will use and the validators that are active in the epoch after it. -/
theorem C39_epoch_marker (H : Heap) (P : Par) (C : Crypto κ ρ η) {s s' : State κ ρ η} {b : Blk κ η} (hb : block H P C s b = some s') :
    ((epochMark P s s').isSome = true ↔ epochOf P s.slot ≠ epochOf P b.slot) ∧
    ∀ m, epochMark P s s' = some m → m.entropy = s'.e1 ∧ m.tickets = s'.e2 ∧ m.validators = s'.saf.pending ∧
      ∀ bs s2 b' s3, chain H P C bs s' = some s2 → (∀ c ∈ bs, epochOf P c.slot = epochOf P b.slot) → block H P C s2 b' = some s3 →
        epochOf P b'.slot ≠ epochOf P b.slot → s3.active = m.validators ∧ s3.e2 = m.entropy ∧ s3.e3 = m.tickets := by
  obtain ⟨b1, b2, _, _, b5⟩ := block_some hb
  have hle : s.slot / P.epoch ≤ b.slot / P.epoch := Nat.div_le_div_right (by omega)
  constructor
  · unfold epochMark epochOf
    rw [b2]
    split <;> simp <;> omega
  · intro m hm
    unfold epochMark at hm
    split at hm
    case isFalse => cases hm
    case isTrue c =>
    cases hm
    rw [b2] at c
    rcases b5 with ⟨_, q1, q2, _⟩ | ⟨f, _⟩
    case inr => unfold epochOf at f; omega
    refine ⟨q1.symm, q2.symm, rfl, ?_⟩
    intro bs s2 b' s3 hc hin hb3 hne
    have key : ∀ (bs : List (Blk κ η)) {a a' : State κ ρ η}, chain H P C bs a = some a' → (∀ c ∈ bs, epochOf P c.slot = epochOf P a.slot) →
        a'.saf.pending = a.saf.pending ∧ a'.e1 = a.e1 ∧ a'.e2 = a.e2 ∧ epochOf P a'.slot = epochOf P a.slot := by
      intro bs
      induction bs with
      | nil => intro a a' h _; cases h; exact ⟨rfl, rfl, rfl, rfl⟩
      | cons x xs ih =>
        intro a a' h hin
        unfold chain at h
        cases hx : block H P C a x with
        | none => rw [hx] at h; cases h
        | some a1 =>
          rw [hx] at h
          obtain ⟨_, x2, _, _, x5⟩ := block_some hx
          have hxe := hin x (List.mem_cons_self ..)
          rcases x5 with ⟨f, _⟩ | ⟨f, r1, r2, _, _, _, r3, _⟩
          · omega
          obtain ⟨k1, k2, k3, k4⟩ := ih h (fun c hc => by rw [x2, hxe]; exact hin c (List.mem_cons_of_mem _ hc))
          exact ⟨k1.trans r3, k2.trans r1, k3.trans r2, by rw [k4, x2, hxe]⟩
    obtain ⟨k1, k2, k3, k4⟩ := key bs hc (fun c hc => by rw [b2]; exact hin c hc)
    obtain ⟨_, _, _, _, y5⟩ := block_some hb3
    rw [k4, b2] at y5
    rcases y5 with ⟨_, _, r2, r3, _, r4, _⟩ | ⟨f, _⟩
    · exact ⟨r4.trans k1, by rw [r2, k2, q1], by rw [r3, k3, q2]⟩
    · exact absurd f.symm hne

example : ((block exHeap exPar exCrypto exState exOpen).bind (epochMark exPar exState)).map (fun m => (m.entropy, m.tickets, m.validators)) =
    some (1, 2, [⟨21, 22⟩, ⟨0, 0⟩]) := by decide +kernel

/-- Slots strictly increase along a chain, so each epoch opens at most once. -/
theorem C39_slots_increase (H : Heap) (P : Par) (C : Crypto κ ρ η) : ∀ (bs : List (Blk κ η)) {s s' : State κ ρ η}, chain H P C bs s = some s' →
    (s.slot :: bs.map Blk.slot).Pairwise (· < ·) := by
  intro bs
  induction bs with
  | nil => intro _ _ _; simp
  | cons b bs ih =>
    intro s s' h
    unfold chain at h
    cases hb : block H P C s b with
    | none => rw [hb] at h; cases h
    | some s1 =>
      rw [hb] at h
      have i := ih h
      obtain ⟨b1, b2, _⟩ := block_some hb
      rw [b2] at i
      rw [List.map_cons, List.pairwise_cons]
      refine ⟨fun x hx => ?_, i⟩
      rcases List.mem_cons.1 hx with e | e
      · rw [e]; exact b1
      · have := (List.pairwise_cons.1 i).1 x e; omega

end Fastroll.Safrole
