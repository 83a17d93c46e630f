import Verif.Net.FuzzLemmas
import Verif.Comp.Lemmas2
/-! Sessions. -/
namespace Fastroll.Net
open Fastroll.Codec Fastroll.Wire Fastroll.Chain
open Spec

variable {ρ : Type}

theorem insertEntry_perm (e : Bytes × Bytes) : ∀ es, (insertEntry e es).Perm (e :: es)
  | [] => .refl _
  | x :: xs => by
    unfold insertEntry
    split
    · exact .refl _
    · exact ((insertEntry_perm e xs).cons x).trans (.swap ..)

theorem sortEntries_perm : ∀ es, (sortEntries es).Perm es
  | [] => .refl _
  | e :: es => (insertEntry_perm e (sortEntries es)).trans ((sortEntries_perm es).cons e)

theorem insertEntry_sorted (e : Bytes × Bytes) : ∀ es : List (Bytes × Bytes), (es.Pairwise fun a b => bytesLt b.1 a.1 = false) →
    ((insertEntry e es).Pairwise fun a b => bytesLt b.1 a.1 = false)
  | [], _ => by simp [insertEntry]
  | x :: xs, h => by
    unfold insertEntry
    obtain ⟨h1, h2⟩ := List.pairwise_cons.1 h
    split
    · rename_i c
      refine List.pairwise_cons.2 ⟨fun y hy => ?_, h⟩
      rcases List.mem_cons.1 hy with rfl | hy
      · exact bytesLt_asymm _ _ c
      · cases hb : bytesLt y.1 e.1 with
        | false => rfl
        | true => exact absurd (Comp.bytesLt_trans _ _ _ hb c) (by rw [h1 y hy]; decide)
    · rename_i c
      refine List.pairwise_cons.2 ⟨fun y hy => ?_, insertEntry_sorted e xs h2⟩
      rcases List.mem_cons.1 ((insertEntry_perm e xs).mem_iff.1 hy) with rfl | hy
      · exact Bool.eq_false_iff.2 c
      · exact h1 y hy

theorem sortEntries_sorted : ∀ es : List (Bytes × Bytes), ((sortEntries es).Pairwise fun a b => bytesLt b.1 a.1 = false)
  | [] => .nil
  | e :: es => insertEntry_sorted e _ (sortEntries_sorted es)

theorem asks_eq {m : Msg} {q : Fork.Msg Bytes Bytes} (h : Asks m q) : m.toTarget = q := by
  cases h <;> rfl

theorem tells_reply {txt : ImpErr → Bytes} {r : Fork.Reply Bytes Bytes} (h : r ≠ .closed) :
    ∃ m, replyMsg txt r = some m ∧ Tells txt r m := by
  cases r with
  | root r => exact ⟨_, rfl, .root r⟩
  | state s => exact ⟨_, rfl, .state s _ (sortEntries_perm s) (sortEntries_sorted s)⟩
  | error e => exact ⟨_, rfl, .error e⟩
  | closed => exact absurd rfl h

/-- Reading depends on the octets only. -/
theorem read_same (P : Params) (L : Nat) {cs cs' : List Bytes} (h : cs.flatten = cs'.flatten) :
    (∃ e, readMessage P L cs = .error e ∧ readMessage P L cs' = .error e) ∨
    ∃ m r r', readMessage P L cs = .ok (m, r) ∧ readMessage P L cs' = .ok (m, r') ∧ r.flatten = r'.flatten := by
  have a := read_flat P L cs
  have b := read_flat P L cs'
  rw [h] at a
  generalize readFlat P L cs'.flatten = f at a b
  generalize readMessage P L cs = x at a
  generalize readMessage P L cs' = y at b
  match x, y, f, a, b with
  | .error e, .error e', .error _, a, b => exact .inl ⟨e, rfl, by rw [show e = _ from a, show e' = _ from b]⟩
  | .ok (m, r), .ok (m', r'), .ok (_, _), a, b =>
    exact .inr ⟨m, r, r', rfl, by rw [show m = _ from a.1, show m' = _ from b.1], a.2.trans b.2.symm⟩

/-- A message takes at least four octets. -/
theorem read_shrinks {P : Params} {L : Nat} {cs : List Bytes} {m : Msg} {r : List Bytes} (h : readMessage P L cs = .ok (m, r)) :
    r.flatten.length + 4 ≤ cs.flatten.length := by
  have a := read_flat P L cs
  rw [h] at a
  unfold readFlat at a
  split at a
  · exact a.elim
  · rename_i h4
    split at a
    · exact a.elim
    · rename_i n x hd
      split at a
      · exact a.elim
      · rename_i hn
        split at a
        · exact a.elim
        · rw [show r.flatten = _ from a.2]
          simp only [List.length_drop]
          omega

theorem rounds_same (S : Setup ρ) (W : World Bytes Bytes ρ) : ∀ (n : Nat) (t : Fork.Target Bytes Bytes ρ) (sess : Bool) (cs cs' : List Bytes),
    cs.flatten = cs'.flatten → rounds S W n t sess cs = rounds S W n t sess cs' := by
  intro n
  induction n with
  | zero => intros; rfl
  | succ n ih =>
    intro t sess cs cs' h
    rcases read_same W.P S.maxAnc h with ⟨e, e1, e2⟩ | ⟨m, r, r', e1, e2, e3⟩
    · simp only [rounds, e1, e2]
    · simp only [rounds, e1, e2, ih _ _ r r' e3]

theorem session_open {W : World Bytes Bytes ρ} {r0 : ρ} {t t' : Fork.Target Bytes Bytes ρ} {sess sess' : Bool} {q : Fork.Msg Bytes Bytes}
    {qs : List (Fork.Msg Bytes Bytes)} {r : Fork.Reply Bytes Bytes} (hx : Fork.handle W r0 t sess q = (t', sess', r))
    (h : r ≠ .closed) : Fork.session W r0 t sess (q :: qs) =
      ((Fork.session W r0 t' sess' qs).1, r :: (Fork.session W r0 t' sess' qs).2) := by
  simp only [Fork.session, hx]

theorem session_closed {W : World Bytes Bytes ρ} {r0 : ρ} {t t' : Fork.Target Bytes Bytes ρ} {sess sess' : Bool} {q : Fork.Msg Bytes Bytes}
    {qs : List (Fork.Msg Bytes Bytes)} (hx : Fork.handle W r0 t sess q = (t', sess', .closed)) :
    Fork.session W r0 t sess (q :: qs) = (t', [.closed]) := by
  simp only [Fork.session, hx]

/-- The answers of a session. -/
theorem rounds_session (S : Setup ρ) (W : World Bytes Bytes ρ) : ∀ (ms : List Msg) (qs : List (Fork.Msg Bytes Bytes)) (n : Nat)
    (t : Fork.Target Bytes Bytes ρ) (sess : Bool) (cs : List Bytes), AskAll ms qs → (∀ m ∈ ms, Sendable W.P S.maxAnc m) →
    cs.flatten = ms.flatMap (wire W.P) → cs.flatten.length < n →
    (∀ r ∈ (Fork.session W S.ring t sess qs).2, ∀ m, Tells S.txt r m → Sendable W.P S.maxAnc m) →
    ∃ as e, TellAll S.txt (Fork.session W S.ring t sess qs).2 as e ∧
      rounds S W n t sess cs = ⟨(Fork.session W S.ring t sess qs).1, as.flatMap (wire W.P), e⟩ := by
  intro ms
  induction ms with
  | nil =>
    intro qs n t sess cs ha _ hc hn _
    cases ha
    refine ⟨[], .disconnected, .left, ?_⟩
    cases n with
    | zero => omega
    | succ n =>
      have a := read_flat W.P S.maxAnc cs
      rw [hc] at a
      have e : readFlat W.P S.maxAnc (List.flatMap (wire W.P) []) = .error .eof := by simp [readFlat]
      rw [e] at a
      have e : readMessage W.P S.maxAnc cs = .error .eof := by
        generalize readMessage W.P S.maxAnc cs = x at a
        match x, a with
        | .error e, a => rw [show e = Stop.eof from a]
      simp only [rounds, e]
      rfl
  | cons m ms ih =>
    intro qs n t sess cs ha hs hc hn hr
    cases ha with
    | @cons _ q _ qs hq hqs =>
    cases n with
    | zero => omega
    | succ n =>
      rw [List.flatMap_cons] at hc
      obtain ⟨cs', h1, h2⟩ := read_wire (hs m (by simp)) hc
      have hl := read_shrinks h1
      have hq := asks_eq hq
      subst hq
      simp only [rounds, h1]
      generalize hx : Fork.handle W S.ring t sess m.toTarget = x at *
      obtain ⟨t', sess', r⟩ := x
      by_cases hcl : r = .closed
      · subst hcl
        rw [session_closed hx]
        exact ⟨[], .failed, .closed, rfl⟩
      · obtain ⟨a, ea, ta⟩ := tells_reply (txt := S.txt) hcl
        rw [session_open hx hcl] at hr ⊢
        have fa := frame_ok (hr r (by simp) a ta)
        dsimp only
        rw [ea]
        dsimp only
        rw [fa]
        dsimp only
        obtain ⟨as, e, i1, i2⟩ := ih qs n t' sess' cs' hqs (fun m hm => hs m (by simp [hm])) h2 (by omega)
          (fun r hr' => hr r (by simp [hr']))
        exact ⟨a :: as, e, .cons ta i1, by rw [i2]; rfl⟩

end Fastroll.Net
