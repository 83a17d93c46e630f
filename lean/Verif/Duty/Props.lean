import Verif.Duty.Lemmas2
import Verif.Chain.Props
import Verif.Safrole.Props

/-!
# C68: slots and their authors

The clock gives the slot of the time, ticks handled in time visit every slot once; the state predicted for a slot is the
state its block produces; in fallback mode each slot has one author, the one of the Gray Paper's rule, and its block is
accepted by the other nodes exactly if it carries the author's current index and the slot is still the author's.  In
ticket mode every node panics; a stale index, a slow clock and an import between the two phases of the author break it.
-/
namespace Fastroll.Duty
open Fastroll.Wire Fastroll.Duty.Paper Fastroll.Chain Fastroll.Chain.Paper
open Fastroll.Safrole (Par Heap Crypto VKey nextSealers sealerAt epochOf phaseOf WF)

/-! ## A concrete world for the examples -/

def exKeyOf (x : UInt8) : VKey Bytes := ⟨ex32 x, ex32 (x + 100)⟩

/-- Epochs of four slots, of which the contest takes three; three validators. -/
def exPar : Par := ⟨4, 3, 2, 2, 3⟩

/-- The choice is the first octet of the entropy plus the place of the slot. -/
def exCrypto : Crypto Bytes Unit Bytes :=
  { mix := fun a _ => a, word := fun e i => (e.headD 0).toNat + i, ringRoot := fun _ => (), zero := exKeyOf 0 }

/-- Slot 5; the next epoch has the validators in another order. -/
def exState : Safrole.State Bytes Unit Bytes :=
  { slot := 5, e0 := ex32 1, e1 := ex32 2, e2 := ex32 3, e3 := ex32 4,
    saf := { pending := [exKeyOf 9, exKeyOf 8, exKeyOf 7], root := (), sealers := .keys [ex32 7, ex32 8, ex32 9, ex32 7], acc := [] },
    staging := [exKeyOf 9, exKeyOf 8, exKeyOf 7], active := [exKeyOf 7, exKeyOf 8, exKeyOf 9], past := [exKeyOf 7, exKeyOf 8, exKeyOf 9] }

/-- The same state at the end of a contest with a full accumulator. -/
def exFull : Safrole.State Bytes Unit Bytes :=
  { exState with slot := 7, saf := { exState.saf with acc := [⟨4, 0⟩, ⟨1, 1⟩, ⟨2, 0⟩, ⟨3, 0⟩] } }

def exBlk (slot : Nat) : Safrole.Blk Bytes Bytes := ⟨slot, [], [], ex32 5, none⟩

theorem exState_wf : WF exPar exState := ⟨rfl, rfl, rfl, rfl, by decide, rfl⟩
theorem exFull_wf : WF exPar exFull := ⟨rfl, rfl, rfl, rfl, by decide, rfl⟩

/-! ## The clock and the scheduler -/

/-- **C68**: the clock gives no slot before the common era and then the slot the time lies in, modulo `2 ^ 32`. -/
theorem C68_clock : (∀ t, nowSlot t = none ↔ t < 1735732800000) ∧
    ∀ n t, nowSlot t = some n ↔ n < 2 ^ 32 ∧ ∃ k, During (n + k * 2 ^ 32) t := ⟨nowSlot_none, nowSlot_iff⟩

example : nowSlot 1735732807123 = some 1 ∧ During 1 1735732807123 ∧ nowSlot 1735732799999 = none := by decide

/-- **C68** fails after `2 ^ 32` slots: slot 0 is given again. -/
theorem C68_clock_wraps : nowSlot (1735732800000 + 6000 * 2 ^ 32) = some 0 ∧
    During (2 ^ 32) (1735732800000 + 6000 * 2 ^ 32) := by decide

/-- **C68**, partial: the scheduler starts if the slot does not change between the two times it reads, and then its first
tick comes at the next boundary of slots, later only by the time passed between the readings.  Missing: if the slot
does change, the scheduler returns, and no slot is ever handled. -/
theorem C68_first_tick_partial (t1 t2 t3 : Nat) (h12 : t1 ≤ t2) (h23 : t2 ≤ t3) (hw : t2 < 1735732800000 + 6000 * 2 ^ 32) :
    (∀ d, firstTick t1 t2 t3 = some d ↔
      ∃ n, During n t1 ∧ During n t2 ∧ d = 1735732800000 + 6000 * (n + 1) + (t3 - t1)) ∧
    ∀ n n', During n t1 → During n' t2 → n ≠ n' → firstTick t1 t2 t3 = none := by
  have key : ∀ d, firstTick t1 t2 t3 = some d ↔
      ∃ n, During n t1 ∧ During n t2 ∧ d = 1735732800000 + 6000 * (n + 1) + (t3 - t1) := by
    intro d
    unfold firstTick
    rw [Option.map_eq_some_iff]
    constructor
    · rintro ⟨w, hw', rfl⟩
      obtain ⟨n, a, b, c⟩ := (untilBoundary_iff h12 hw w).1 hw'
      exact ⟨n, a, b, by omega⟩
    · rintro ⟨n, a, b, rfl⟩
      have : t1 < 1735732800000 + 6000 * (n + 1) := a.2
      exact ⟨1735732800000 + 6000 * (n + 1) - t1, (untilBoundary_iff h12 hw _).2 ⟨n, a, b, by omega⟩, by omega⟩
  refine ⟨key, ?_⟩
  intro n n' h h' hne
  cases hf : firstTick t1 t2 t3 with
  | none => rfl
  | some d =>
    obtain ⟨m, a, b, -⟩ := (key d).1 hf
    unfold During at h h' a b
    omega

example : firstTick 1735732807123 1735732807124 1735732807125 = some 1735732812002 ∧
    firstTick 1735732811999 1735732812000 1735732812001 = none := by decide

/-- **C68**: if every tick is handled before the slot it begins is over, every slot from the first on is handled exactly
once, in order. -/
theorem C68_ticks (t1 t2 t3 d n : Nat) (h12 : t1 ≤ t2) (h23 : t2 ≤ t3) (hw : t2 < 1735732800000 + 6000 * 2 ^ 32)
    (hd : firstTick t1 t2 t3 = some d) (hn : During n t1) (ws : List Nat) (hl : n + 1 + ws.length ≤ 2 ^ 32)
    (ht : ∀ (i w : Nat), ws[i]? = some w → d + 6000 * i ≤ w ∧ w < 1735732800000 + 6000 * (n + 2 + i)) :
    handled ws = List.range' (n + 1) ws.length := by
  obtain ⟨m, a, b, hd⟩ := ((C68_first_tick_partial t1 t2 t3 h12 h23 hw).1 d).1 hd
  have : m = n := by unfold During at a hn; omega
  subst this
  refine handled_during ws (m + 1) hl ?_
  intro i w hi
  have := ht i w hi
  unfold During
  omega

example : firstTick 1735732807123 1735732807124 1735732807125 = some 1735732812002 ∧ During 1 1735732807123 ∧
    handled [1735732812002, 1735732818009, 1735732829999] = [2, 3, 4] := by decide

/-- **C68**: slots are never handled in the wrong order. -/
theorem C68_ticks_order (ws : List Nat) (hw : ∀ w ∈ ws, w < 1735732800000 + 6000 * 2 ^ 32) (hp : ws.Pairwise (· ≤ ·)) :
    (handled ws).Pairwise (· ≤ ·) := handled_mono ws hw hp

example : handled [1735732812002, 1735732824009, 1735732824010] = [2, 4, 4] := by decide

/-- **C68** fails for a late tick, in every slot: a tick handled one slot late handles the slot after, which the next tick
handles again, and its own slot is left out. -/
theorem C68_late (n : Nat) (hn : n + 1 < 2 ^ 32) : ∃ w1 w2, w1 < w2 ∧ 1735732800000 + 6000 * n ≤ w1 ∧
    1735732800000 + 6000 * (n + 1) ≤ w2 ∧ w2 < 1735732800000 + 6000 * (n + 2) ∧ handled [w1, w2] = [n + 1, n + 1] := by
  refine ⟨1735732800000 + 6000 * (n + 1), 1735732800000 + 6000 * (n + 1) + 1, by omega, by omega, by omega, by omega, ?_⟩
  unfold handled
  rw [List.filterMap_cons, nowSlot_during (n := n + 1) hn (by unfold During; omega), List.filterMap_cons,
    nowSlot_during (n := n + 1) hn (by unfold During; omega)]
  rfl

example : ∃ w1 w2, w1 < w2 ∧ handled [w1, w2] = [8, 8] := by
  obtain ⟨a, b, c, -, -, -, d⟩ := C68_late 7 (by decide)
  exact ⟨a, b, c, d⟩

/-! ## Predictions -/

section
variable {κ ρ η : Type} [DecidableEq κ]

/-- **C68**: the active set, the past set, the third entropy and the sealer predicted for a slot are those of every state
a block of that slot leads to. -/
theorem C68_prediction (H : Heap) (P : Par) (C : Crypto κ ρ η) (s s' : Safrole.State κ ρ η) (b : Safrole.Blk κ η)
    (h : Safrole.block H P C s b = some s') :
    predictActive P s b.slot = s'.active ∧ predictPast P s b.slot = s'.past ∧ predictEta3 P s b.slot = s'.e3 ∧
    predictSealer H P C s b.slot = sealerAt P s'.saf.sealers b.slot := by
  unfold Safrole.block at h
  cases hh : Safrole.header H P C s b with
  | none => rw [hh] at h; cases h
  | some s1 =>
    rw [hh] at h
    cases h
    have := predict_header hh
    exact this

example : (Safrole.block Safrole.exHeap exPar exCrypto exState (exBlk 8)).isSome = true ∧
    predictActive exPar exState 8 = [exKeyOf 9, exKeyOf 8, exKeyOf 7] ∧ predictEta3 exPar exState 8 = ex32 3 ∧
    predictActive exPar exState 6 = [exKeyOf 7, exKeyOf 8, exKeyOf 9] := by decide +kernel

/-- **C68**: a well-formed state has a sealer for every slot: the decision never fails. -/
theorem C68_decided (H : Heap) (P : Par) (C : Crypto κ ρ η) (hE : 0 < P.epoch) (hV : 0 < P.validators)
    (s : Safrole.State κ ρ η) (hw : WF P s) (key : κ) (slot : Nat) : role H P C s key slot ≠ .error := by
  obtain ⟨k, hk⟩ := predict_some H C hE hV hw slot
  unfold role
  rw [hk]
  cases k with
  | ticket t => simp
  | key k => simp only; split <;> simp

example : role Safrole.exHeap exPar exCrypto exState (ex32 9) 6 ≠ .error :=
  C68_decided _ _ _ (by decide) (by decide) _ exState_wf _ _

/-- **C68**: in every state and slot, either every node panics, or every node fails, or one key is the author's and every
other node imports. -/
theorem C68_one_author (H : Heap) (P : Par) (C : Crypto κ ρ η) (s : Safrole.State κ ρ η) (slot : Nat) :
    (∀ key, role H P C s key slot = .panic) ∨ (∀ key, role H P C s key slot = .error) ∨
    ∃ k, ∀ key, role H P C s key slot = if key = k then .author else .importer := by
  unfold role
  cases predictSealer H P C s slot with
  | none => exact .inr (.inl fun _ => rfl)
  | some x =>
    cases x with
    | ticket t => exact .inl fun _ => rfl
    | key k => exact .inr (.inr ⟨k, fun _ => rfl⟩)

example : role Safrole.exHeap exPar exCrypto exState (ex32 9) 6 = .author ∧
    role Safrole.exHeap exPar exCrypto exState (ex32 7) 6 = .importer ∧
    role Safrole.exHeap exPar exCrypto exFull (ex32 9) 8 = .panic := by decide +kernel

/-- **C68**: the author of the first block of an epoch that is not sealed by tickets: the Gray Paper's rule with the
validators and the entropy the new epoch will have. -/
theorem C68_whose_new (H : Heap) (P : Par) (C : Crypto κ ρ η) (hE : 0 < P.epoch) (hV : 0 < P.validators)
    (s : Safrole.State κ ρ η) (hw : WF P s) (slot : Nat) (ho : epochOf P s.slot < epochOf P slot)
    (hf : ¬ (epochOf P slot = epochOf P s.slot + 1 ∧ Contested P s)) (key : κ) :
    role H P C s key slot = .author ↔ Assigned P C s.saf.pending s.e1 slot key := by
  rw [role_author]
  unfold predictSealer progressed
  have ho' : s.slot / P.epoch < slot / P.epoch := ho
  simp only [ho', decide_true, if_true]
  obtain ⟨sl, hs⟩ := Safrole.nextSealers_some H C hE hV s.saf s.slot slot s.e1 hw.1
  have hc : slot / P.epoch > s.slot / P.epoch + 1 ∨ s.slot % P.epoch < P.contest ∨ s.saf.acc.length ≠ P.epoch := by
    unfold epochOf Contested phaseOf at hf
    by_cases c : slot / P.epoch = s.slot / P.epoch + 1
    · by_cases c2 : P.contest ≤ s.slot % P.epoch
      · exact .inr (.inr fun c3 => hf ⟨c, c2, c3⟩)
      · exact .inr (.inl (by omega))
    · exact .inl (by omega)
  rw [hs]
  unfold nextSealers at hs
  rw [if_pos hc] at hs
  cases hfk : Safrole.fallbackKeys P (C.word s.e1) s.saf.pending with
  | none => rw [hfk] at hs; cases hs
  | some l =>
    rw [hfk] at hs
    cases hs
    exact fallback_at hE hfk slot key

example : role Safrole.exHeap exPar exCrypto exState (ex32 9) 9 = .author ∧
    ¬ Assigned exPar exCrypto exState.saf.pending exState.e1 9 (ex32 7) := by
  refine ⟨(C68_whose_new _ _ _ (by decide) (by decide) _ exState_wf 9 (by decide) (fun h => by
    have : ¬ exPar.contest ≤ phaseOf exPar exState.slot := by decide
    exact this h.2.1) _).2 ⟨exKeyOf 9, by decide, rfl⟩, ?_⟩
  rintro ⟨v, h, e⟩
  have : exState.saf.pending[exCrypto.word exState.e1 (phaseOf exPar 9) % exPar.validators]? = some (exKeyOf 9) := by decide
  rw [this] at h
  cases h
  revert e
  decide

/-- **C68**: the author of a later slot of such an epoch: the same rule with the validators and the entropy of the epoch,
whatever blocks came in between. -/
theorem C68_whose (H : Heap) (P : Par) (C : Crypto κ ρ η) (hE : 0 < P.epoch) (s s1 s2 : Safrole.State κ ρ η)
    (b : Safrole.Blk κ η) (bs : List (Safrole.Blk κ η)) (hb : Safrole.block H P C s b = some s1)
    (ho : epochOf P s.slot < epochOf P b.slot) (hc : Safrole.chain H P C bs s1 = some s2)
    (hin : ∀ c ∈ bs, epochOf P c.slot = epochOf P b.slot)
    (hf : ¬ (epochOf P b.slot = epochOf P s.slot + 1 ∧ Contested P s)) (slot : Nat) (hs : epochOf P slot = epochOf P b.slot)
    (key : κ) : role H P C s2 key slot = .author ↔ Assigned P C s1.active s1.e2 slot key := by
  have run : ∀ (bs : List (Safrole.Blk κ η)) (t t' : Safrole.State κ ρ η), Safrole.chain H P C bs t = some t' →
      epochOf P t.slot = epochOf P b.slot → (∀ c ∈ bs, epochOf P c.slot = epochOf P b.slot) →
      epochOf P t'.slot = epochOf P b.slot ∧ t'.saf.sealers = t.saf.sealers := by
    intro bs
    induction bs with
    | nil => intro t t' h ht _; cases h; exact ⟨ht, rfl⟩
    | cons c bs ih =>
      intro t t' h ht hin
      unfold Safrole.chain at h
      cases hb : Safrole.block H P C t c with
      | none => rw [hb] at h; cases h
      | some t1 =>
        rw [hb] at h
        obtain ⟨b1, b2, b3, b4, b5⟩ := Safrole.block_some hb
        have hce := hin c List.mem_cons_self
        rcases b5 with ⟨q, _⟩ | ⟨_, _, _, _, _, _, _, _, q, _⟩
        · omega
        · obtain ⟨x, y⟩ := ih t1 t' h (by rw [b2]; exact hce) fun c hc => hin c (List.mem_cons_of_mem _ hc)
          exact ⟨x, y.trans q⟩
  obtain ⟨b1, b2, b3, b4, b5⟩ := Safrole.block_some hb
  rcases b5 with ⟨q, -, q2, -, -, q3, -, -, q4, -⟩ | ⟨q, _⟩
  case inr => omega
  obtain ⟨r1, r2⟩ := run bs s1 s2 hc (by rw [b2]) hin
  rw [role_author]
  unfold predictSealer progressed
  have ho' : ¬ s2.slot / P.epoch < slot / P.epoch := by
    unfold epochOf at r1 hs; omega
  simp only [ho', decide_false, Bool.false_eq_true, if_false, r2]
  have hcc : b.slot / P.epoch > s.slot / P.epoch + 1 ∨ s.slot % P.epoch < P.contest ∨ s.saf.acc.length ≠ P.epoch := by
    unfold epochOf Contested phaseOf at hf
    unfold epochOf at ho
    by_cases c : b.slot / P.epoch = s.slot / P.epoch + 1
    · by_cases c2 : P.contest ≤ s.slot % P.epoch
      · exact .inr (.inr fun c3 => hf ⟨c, c2, c3⟩)
      · exact .inr (.inl (by omega))
    · exact .inl (by omega)
  unfold nextSealers at q4
  rw [if_pos hcc] at q4
  cases hfk : Safrole.fallbackKeys P (C.word s.e1) s.saf.pending with
  | none => rw [hfk] at q4; cases q4
  | some l =>
    rw [hfk] at q4
    simp only [Option.map_some, Option.some.injEq] at q4
    rw [← q4, q3, q2]
    exact fallback_at hE hfk slot key

def exS1 : Safrole.State Bytes Unit Bytes := (Safrole.block Safrole.exHeap exPar exCrypto exState (exBlk 8)).getD exState
def exS2 : Safrole.State Bytes Unit Bytes := (Safrole.chain Safrole.exHeap exPar exCrypto [exBlk 9] exS1).getD exState

example : role Safrole.exHeap exPar exCrypto exS2 (ex32 8) 10 = .author ∧ exS2.slot = 9 ∧
    exS1.active[exCrypto.word exS1.e2 2 % 3]? = some (exKeyOf 8) := by decide +kernel

/-! ## Ticket mode -/

/-- **C68** fails when the sealers are tickets: every node panics in every slot of the epoch. -/
theorem C68_ticket_mode (H : Heap) (P : Par) (C : Crypto κ ρ η) (hE : 0 < P.epoch) (s : Safrole.State κ ρ η)
    (l : List Safrole.Ticket) (hl : s.saf.sealers = .tickets l) (hn : l.length = P.epoch) (slot : Nat)
    (hs : epochOf P slot = epochOf P s.slot) (key : κ) : role H P C s key slot = .panic := by
  unfold role predictSealer progressed
  have ho' : ¬ s.slot / P.epoch < slot / P.epoch := by unfold epochOf at hs; omega
  simp only [ho', decide_false, Bool.false_eq_true, if_false, hl, sealerAt]
  rw [List.getElem?_eq_getElem (by rw [hn]; exact Nat.mod_lt _ hE)]
  rfl

def exTick : Safrole.State Bytes Unit Bytes :=
  { exState with saf := { exState.saf with sealers := .tickets [⟨1, 0⟩, ⟨4, 0⟩, ⟨2, 1⟩, ⟨3, 1⟩] } }

example : role Safrole.exHeap exPar exCrypto exTick (ex32 9) 6 = .panic :=
  C68_ticket_mode _ _ _ (by decide) _ _ rfl rfl 6 (by decide) _

/-- **C68** fails when a ticket contest succeeds: in the whole next epoch every node panics, so no block is authored; only
in the epoch after that the slots have authors again. -/
theorem C68_contest_lost (H : Heap) (P : Par) (C : Crypto κ ρ η) (hE : 0 < P.epoch) (hV : 0 < P.validators)
    (s : Safrole.State κ ρ η) (hw : WF P s) (hc : Contested P s) (slot : Nat) :
    (epochOf P slot = epochOf P s.slot + 1 → ∀ key, role H P C s key slot = .panic) ∧
    (epochOf P s.slot + 2 ≤ epochOf P slot → ∃ k, ∀ key, role H P C s key slot = if key = k then .author else .importer) := by
  constructor
  · intro ho key
    unfold epochOf at ho
    obtain ⟨sl, hs⟩ := Safrole.nextSealers_some H C hE hV s.saf s.slot slot s.e1 hw.1
    have hlen := Safrole.nextSealers_length hs
    have ho' : s.slot / P.epoch < slot / P.epoch := by omega
    unfold role predictSealer progressed
    simp only [ho', decide_true, if_true, hs]
    unfold Contested phaseOf at hc
    unfold nextSealers at hs
    rw [if_neg (by omega)] at hs
    cases hq : Safrole.outsideIn (H.sorted s.saf.acc) with
    | none => rw [hq] at hs; cases hs
    | some r =>
      rw [hq] at hs
      dsimp only at hs
      by_cases c : r.length = P.epoch
      · rw [if_pos c] at hs
        cases hs
        unfold sealerAt
        dsimp only
        rw [List.getElem?_eq_getElem (by rw [c]; exact Nat.mod_lt _ hE)]
        rfl
      · rw [if_neg c] at hs; cases hs
  · intro ho
    rcases C68_one_author H P C s slot with h | h | h
    · exfalso
      have hn := C68_whose_new H P C hE hV s hw slot (by omega) (by omega)
      have hlt : C.word s.e1 (phaseOf P slot) % P.validators < s.saf.pending.length := by rw [hw.1]; exact Nat.mod_lt _ hV
      have := (hn (s.saf.pending[C.word s.e1 (phaseOf P slot) % P.validators]).bander).2
        ⟨_, List.getElem?_eq_getElem hlt, rfl⟩
      rw [h] at this
      cases this
    · exfalso
      have hlt : C.word s.e1 (phaseOf P slot) % P.validators < s.saf.pending.length := by rw [hw.1]; exact Nat.mod_lt _ hV
      exact C68_decided H P C hE hV s hw (s.saf.pending[C.word s.e1 (phaseOf P slot) % P.validators]).bander slot (h _)
    · exact h
end

example : role Safrole.exHeap exPar exCrypto exFull (ex32 8) 11 = .panic ∧
    ∃ k, ∀ key, role Safrole.exHeap exPar exCrypto exFull key 12 = if key = k then .author else .importer :=
  ⟨(C68_contest_lost _ _ _ (by decide) (by decide) _ exFull_wf ⟨by decide, rfl⟩ 11).1 (by decide) _,
    (C68_contest_lost _ _ _ (by decide) (by decide) _ exFull_wf ⟨by decide, rfl⟩ 12).2 (by decide)⟩

/-! ## Authored blocks -/

/-- A world whose state is a Safrole state, of which the root shows the slot. -/
def exGet (s : St Unit (Safrole.State Bytes Unit Bytes)) : Safrole.State Bytes Unit Bytes := (s ()).getD exState
def exNext (slot : Nat) (s : St Unit (Safrole.State Bytes Unit Bytes)) : Option (Safrole.State Bytes Unit Bytes) :=
  Safrole.header Safrole.exHeap exPar exCrypto (exGet s) (exBlk slot)
def exSealer (s : St Unit (Safrole.State Bytes Unit Bytes)) (slot : Nat) : Chain.Sealer :=
  match sealerAt exPar (exGet s).saf.sealers slot with
  | some (.key k) => .key k
  | _ => .ticket ⟨[], 0⟩

def exWorld : World Unit (Safrole.State Bytes Unit Bytes) Unit where
  P := exP
  H := exH
  root := fun s => ex32 (UInt8.ofNat (exGet s).slot)
  outHash := fun s => some ((s.drop 32).take 32)
  verify := fun i m s k => decide (s = exSign k i m)
  sign := exSign
  pre := fun i s _ r =>
    match exNext i.slot s with
    | none => ([], r, none)
    | some s' => ([((), some s')], r, some ⟨none, none, []⟩)
  sealer := exSealer
  authorKey := fun s i => ((exGet s).active[i]?).map VKey.bander
  eta3 := fun s => (exGet s).e3
  post := fun _ _ _ _ r => ([], r, some (ex32 1, ⟨[], []⟩))
  fin := fun _ _ _ _ => ([], some ())
  genesis := fun _ _ _ r => ([], r, some ())

theorem exCarries : Carries Safrole.exHeap exPar exCrypto exWorld exGet where
  pre := by
    intro i s r d r' m _ h
    refine ⟨[], ex32 5, none, ?_⟩
    simp only [exWorld] at h
    cases hx : exNext i.slot s with
    | none => rw [hx] at h; cases h
    | some s' =>
      rw [hx] at h
      simp only [Prod.mk.injEq] at h
      rw [← h.1]
      exact hx
  key := by
    intro s slot k h
    show exSealer s slot = _
    unfold exSealer
    rw [h]
  ticket := by
    intro s slot t h
    show ∃ t', exSealer s slot = _
    unfold exSealer
    rw [h]
    exact ⟨_, rfl⟩
  author := fun _ _ => rfl

def exDb : St Unit (Safrole.State Bytes Unit Bytes) := fun _ => some exState
def exAt : Point Unit (Safrole.State Bytes Unit Bytes) Unit := ⟨exGen, exDb, (), []⟩
def exHere : Node Unit (Safrole.State Bytes Unit Bytes) Unit := ⟨exDb, [], (), exGen, [], [], [(hh exWorld exGen, ex32 5)]⟩
theorem exHere_at : At exWorld exHere exAt := ⟨rfl, rfl, rfl, rfl, rfl, by decide +kernel, exGen_ok⟩

theorem exPair (x : UInt8) : KeyPair exWorld (ex32 x) (ex32 x) :=
  ⟨fun i m => by simp [exWorld], fun i => ⟨exH i, fun m => by
    have : (exH i).length = 32 := exH_len i
    simp [exWorld, exSign, ex32, ← this]⟩⟩

theorem exBinds (x : UInt8) : Binds exWorld (ex32 x) (ex32 x) := by
  intro i m pk' h
  have h : exSign (ex32 x) i m = exSign pk' i m := by simpa [exWorld] using h
  unfold exSign at h
  exact (List.append_cancel_right (List.append_cancel_right h)).symm

/-- The node of the key `9`, started on this state. -/
def exMe : Local := start exState (ex32 9) fun k => if k = ex32 9 then some (ex32 9) else none
/-- Its task for the slot of a tick and the slot of the clock. -/
def exTask (slot now : Nat) : Node Unit (Safrole.State Bytes Unit Bytes) Unit × Outcome :=
  extend Safrole.exHeap exPar exCrypto exWorld exGet exMe slot (some now) exHere
def exOut : Outcome → Block
  | .authored b _ => b
  | _ => ⟨exDefault, noXt⟩

variable {K V ρ ρ' : Type} [DecidableEq K]

/-- **C68**: the block a node authors is accepted by another node at the same point exactly if the node's index is that of
its key in the active set the block's slot has, and the slot of the block, if it is a fallback slot, belongs to that
key. -/
theorem C68_accepted_iff (H : Heap) (P : Par) (C : Crypto Bytes ρ' Bytes) (W : World K V ρ)
    (rd : St K V → Safrole.State Bytes ρ' Bytes) (hc : Carries H P C W rd) (me : Local) (i : Nat) (sk : Bytes) (hi : me.index = some i)
    (hs : me.keystore me.key = some sk) (hk : KeyPair W sk me.key) (hb : Binds W sk me.key) (slot now time : Nat)
    (n n' m : Node K V ρ) (p : Point K V ρ) (b : Block) (root : Bytes) (hn : At W n p) (hm : At W m p)
    (e : extend H P C W rd me slot (some now) n = (n', .authored b root)) (hok : Spec.BlockOk W.P b) (hl : p.header.slot < now)
    (ht : OnTime time now) (hz : b.header.parent ≠ zeroHash) (hp : ∃ x, predictSealer H P C (rd p.st) now = some x) :
    (∃ root', (importStep W (some time) m b).2 = .ok root') ↔
      (∃ v, (predictActive P (rd p.st) now)[i]? = some v ∧ v.bander = me.key) ∧
      ∀ k, predictSealer H P C (rd p.st) now = some (.key k) → k = me.key := by
  obtain ⟨-, i', sk', now', h1, h2, h3, h4⟩ := extend_authored e
  rw [hi] at h1
  rw [hs] at h2
  cases h1; cases h2; cases h3
  constructor
  · rintro ⟨root', ha⟩
    exact accepted_own hc hb hn hm h4 hok hz ha
  · rintro ⟨⟨v, hv, hvk⟩, hkk⟩
    obtain ⟨m', hm', -⟩ := C62_authored W sk me.key hk i now time n n' m p b root hn hm h4 hl ht hz (by
      intro d1 r1 mk hpre
      obtain ⟨c1, c2, c3⟩ := carried hc hpre
      refine ⟨by rw [c1, hv]; simp [hvk], ?_⟩
      intro k hk'
      obtain ⟨x, hx⟩ := hp
      cases x with
      | ticket t =>
        obtain ⟨t', ht'⟩ := c3 t hx
        rw [ht'] at hk'
        cases hk'
      | key k' =>
        have := c2 k' hx
        rw [this] at hk'
        cases hk'
        exact hkk _ hx)
    exact ⟨root, by rw [hm']⟩

theorem exSealer6 : predictSealer Safrole.exHeap exPar exCrypto (exGet exAt.st) 6 = some (.key (ex32 9)) :=
  role_author.1 (by decide +kernel)

theorem exTask_ok (slot now : Nat) (h : (exTask slot now).2 = .authored (exOut (exTask slot now).2) (ex32 (UInt8.ofNat now))) :
    exTask slot now = ((exTask slot now).1, .authored (exOut (exTask slot now).2) (ex32 (UInt8.ofNat now))) := Prod.ext rfl h

example : ∃ root', (importStep exWorld (some 1735732836) exHere (exOut (exTask 6 6).2)).2 = .ok root' := by
  refine (C68_accepted_iff Safrole.exHeap exPar exCrypto exWorld exGet exCarries exMe 2 (ex32 9) (by decide +kernel)
    (by decide +kernel) (exPair 9) (exBinds 9) 6 6 1735732836 exHere _ exHere exAt _ _ exHere_at exHere_at
    (exTask_ok 6 6 (by decide +kernel)) ⟨exPlain (by decide +kernel), ?_⟩ (by decide) (by unfold OnTime; decide)
    (by decide +kernel) ⟨.key (ex32 9), exSealer6⟩).2 ⟨⟨exKeyOf 9, by decide +kernel, by decide +kernel⟩, ?_⟩
  · have : (exOut (exTask 6 6).2).xt = noXt := by decide +kernel
    rw [this]
    exact exXt0
  · intro k hk
    rw [exSealer6] at hk
    cases hk
    rfl

/-- **C68** fails for a node whose place in the validator set has changed since the genesis: it authors blocks in its own
slots, its own node takes them, and the others refuse them. -/
theorem C68_stale_index : ∃ (n n' : Node Unit (Safrole.State Bytes Unit Bytes) Unit) (p : Point Unit (Safrole.State Bytes Unit Bytes) Unit)
    (b : Block) (root : Bytes), At exWorld n p ∧
    role Safrole.exHeap exPar exCrypto (exGet n.db) exMe.key 9 = .author ∧
    extend Safrole.exHeap exPar exCrypto exWorld exGet exMe 9 (some 9) n = (n', .authored b root) ∧ n'.best = b.header ∧
    (importStep exWorld (some 1735732854) n b).2 = .error .fallbackKey :=
  ⟨exHere, (exTask 9 9).1, exAt, exOut (exTask 9 9).2, _, exHere_at, by decide +kernel, exTask_ok 9 9 (by decide +kernel),
    by decide +kernel, by decide +kernel⟩

/-- **C68** fails for a node whose clock reaches the next slot before the header is prepared: it was the author of the
slot of the tick, the block is of a slot of somebody else, and the others refuse it. -/
theorem C68_slow : ∃ (n n' : Node Unit (Safrole.State Bytes Unit Bytes) Unit) (p : Point Unit (Safrole.State Bytes Unit Bytes) Unit)
    (b : Block) (root : Bytes), At exWorld n p ∧
    role Safrole.exHeap exPar exCrypto (exGet n.db) exMe.key 6 = .author ∧
    role Safrole.exHeap exPar exCrypto (exGet n.db) exMe.key 7 = .importer ∧
    extend Safrole.exHeap exPar exCrypto exWorld exGet exMe 6 (some 7) n = (n', .authored b root) ∧ n'.best = b.header ∧
    (importStep exWorld (some 1735732854) n b).2 = .error .fallbackKey :=
  ⟨exHere, (exTask 6 7).1, exAt, exOut (exTask 6 7).2, _, exHere_at, by decide +kernel, by decide +kernel,
    exTask_ok 6 7 (by decide +kernel), by decide +kernel, by decide +kernel⟩

/-- **C68** fails for such an author for good: its block is its best one, so it refuses every block the others build
instead, unless two header strings have the same hash. -/
theorem C68_alone (W : World K V ρ) (sk : Bytes) (i now : Nat) (n n' : Node K V ρ) (p : Point K V ρ) (b : Block) (root : Bytes)
    (hn : At W n p) (e : authorBlock W sk i now n = (n', some (b, root))) (hok : Spec.HeaderOk W.P b.header) (c : Block)
    (hc : Spec.BlockOk W.P c) (hz : c.header.parent ≠ zeroHash) (hp : c.header.parent = hh W p.header) (time : Option Nat)
    (hne : b.header ≠ p.header) :
    (∃ er, importStep W time n' c = (n'.rollback, .error er)) ∨
      (Wire.Spec.header b.header ≠ Wire.Spec.header p.header ∧ W.H (Wire.Spec.header b.header) = W.H (Wire.Spec.header p.header)) := by
  obtain ⟨n1, h, e1, e2, rfl⟩ := authored_parts e
  obtain ⟨xh, parent, d1, r1, mk, vrf, s, hash, h0, -, -, -, -, -, -, -, -, rfl⟩ := authorHeader_some e1
  obtain ⟨d2, r2, out, ch, d3, hash', -, -, -, -, rfl⟩ := authorState_some e2
  by_cases hcol : hh W h = hh W p.header
  · right
    refine ⟨fun hs => hne (header_eq hok hn.headerOk hs), hcol⟩
  · left
    have hg : isGenesis c = false := notGenesis hz
    unfold importStep
    rw [hash_ok hc.header]
    simp only [importBlock, hash_ok hc.header, validate, hg, Bool.false_eq_true, if_false]
    generalize hN : ({ db := _, dirty := _, ring := _, best := _, anc := _, headers := _, roots := _ } : Node K V ρ) = N
    have hbest : N.best = h := by rw [← hN]
    cases hcp : checkPrior W time N c with
    | error er => exact ⟨er, rfl⟩
    | ok u =>
      exfalso
      have := (checkPrior_ok W time N hc (by rw [hbest]; exact hok)).1 hcp
      rw [hbest] at this
      exact hcol (this.2.2.1.symm.trans hp)

/-- The block a peer builds instead. -/
example : exPeer.header.parent = hh exW exPoint.header ∧ (importStep exW none exA.1 exPeer).2 = .error .parent ∧
    (importStep exW none exNode exPeer).2.isOk = true := by decide +kernel

/-- **C68**, partial: a node whose index is up to date and whose clock still shows the slot of the tick when it prepares
the header authors a block every node at the same point accepts, with the same state and root.  Missing: the index is
that of the genesis set for ever, and the clock is read again. -/
theorem C68_accepted_partial (H : Heap) (P : Par) (C : Crypto Bytes ρ' Bytes) (W : World K V ρ)
    (rd : St K V → Safrole.State Bytes ρ' Bytes) (hc : Carries H P C W rd) (g : Safrole.State Bytes ρ' Bytes) (key : Bytes)
    (ks : Bytes → Option Bytes) (sk : Bytes) (hs : ks key = some sk) (hk : KeyPair W sk key) (slot time : Nat)
    (n n' m : Node K V ρ) (p : Point K V ρ) (b : Block) (root : Bytes) (hn : At W n p) (hm : At W m p)
    (e : extend H P C W rd (start g key ks) slot (some slot) n = (n', .authored b root)) (hl : p.header.slot < slot)
    (ht : OnTime time slot) (hz : b.header.parent ≠ zeroHash) (hg : predictActive P (rd p.st) slot = g.active) :
    ∃ m', importStep W (some time) m b = (m', .ok root) ∧ m'.db = n'.db ∧ m'.best = n'.best := by
  obtain ⟨hr, i, sk', now', h1, h2, h3, h4⟩ := extend_authored e
  cases h3
  have hs' : (start g key ks).keystore (start g key ks).key = some sk := hs
  rw [hs'] at h2
  cases h2
  rw [role_author, hn.db] at hr
  have hi : indexOf g.active key = some i := h1
  unfold indexOf at hi
  rw [List.findIdx?_eq_some_iff_getElem] at hi
  obtain ⟨hlt, hv, -⟩ := hi
  simp only [decide_eq_true_eq] at hv
  obtain ⟨m', a1, a2, -, -, a3, -⟩ := C62_authored W sk key hk i slot time n n' m p b root hn hm h4 hl ht hz (by
    intro d1 r1 mk hpre
    obtain ⟨c1, c2, c3⟩ := carried hc hpre
    refine ⟨by rw [c1, hg, List.getElem?_eq_getElem hlt]; simp [hv], ?_⟩
    intro k hk'
    have := c2 _ hr
    rw [this] at hk'
    cases hk'
    rfl)
  exact ⟨m', a1, a2, a3⟩

example : ∃ m', importStep exWorld (some 1735732836) exHere (exOut (exTask 6 6).2) = (m', .ok (ex32 6)) := by
  obtain ⟨m', h, -⟩ := C68_accepted_partial Safrole.exHeap exPar exCrypto exWorld exGet exCarries exState (ex32 9)
    (fun k => if k = ex32 9 then some (ex32 9) else none) (ex32 9) (by decide +kernel) (exPair 9) 6 1735732836 exHere _ exHere
    exAt _ _ exHere_at exHere_at (exTask_ok 6 6 (by decide +kernel)) (by decide) (by unfold OnTime; decide) (by decide +kernel)
    (by decide +kernel)
  exact ⟨m', h⟩

/-! ## Author and importer at the same time -/

/-- **C68** fails when a block is refused between the two phases of the author: the importer throws away the writes of
the first phase, and the second phase runs without them. -/
theorem C68_interrupted (W : World K V ρ) (sk : Bytes) (i slot time : Nat) (n n1 : Node K V ρ) (h : Header)
    (e : authorHeader W sk i slot n = (n1, some h)) (c : Block) (hc : Spec.BlockOk W.P c) (hz : c.header.parent ≠ zeroHash)
    (hs : c.header.slot ≤ h.slot) :
    interrupted W sk i slot n time c = ((authorState W { n1 with dirty := [] } h).1, some (h, (authorState W { n1 with dirty := [] } h).2)) := by
  have hbest : n1.best = h := by
    obtain ⟨xh, parent, d1, r1, mk, vrf, s, hash, h0, -, -, -, -, -, -, -, -, rfl⟩ := authorHeader_some e
    rfl
  have hg : isGenesis c = false := notGenesis hz
  have hst : (importStep W (some time) n1 c).1 = { n1 with dirty := [] } := by
    unfold importStep
    rw [hash_ok hc.header]
    simp only [importBlock, hash_ok hc.header, validate, hg, Bool.false_eq_true, if_false, checkPrior, checkSlot, hbest, hs,
      if_true, also, Node.rollback]
  unfold interrupted
  rw [e]
  simp only [hst]

/-- The block of slot 8 the interruption refuses. -/
def exOld : Block := ⟨exGen, noXt⟩

/-- **C68** fails then: the author commits and records another state than the one every other node finds for its block,
and refuses the next valid block. -/
theorem C68_diverges : ∃ (n m n' : Node Nat Nat Nat) (p : Point Nat Nat Nat) (old : Block) (h : Header) (root root' : Bytes),
    At exW n p ∧ At exW m p ∧ interrupted exW (ex32 9) 2 8 n 1735732848 old = (n', some (h, some root)) ∧
    (importStep exW (some 1735732848) m ⟨h, noXt⟩).2 = .ok root' ∧ root ≠ root' ∧
    ∃ c, (importStep exW (some 1735732854) (importStep exW (some 1735732848) m ⟨h, noXt⟩).1 c).2.isOk = true ∧
      (importStep exW (some 1735732854) n' c).2 = .error .rootWrong := by
  refine ⟨exNode, exNode, (interrupted exW (ex32 9) 2 8 exNode 1735732848 exOld).1, exPoint, exOld, exB.header,
    exRoot exSt, exRoot fun k => if k = 0 then some 8 else none, exNode_at, exNode_at, Prod.ext rfl ?_, ?_, ?_, exC, ?_, ?_⟩
  all_goals decide +kernel

example : (interrupted exW (ex32 9) 2 8 exNode 1735732848 exOld).1.db 0 = some 5 ∧ exA.1.db 0 = some 8 := by decide +kernel

end Fastroll.Duty
