import Verif.Comp.Lemmas
/-!
# Lemmas about the ticket accumulator's codec
-/
namespace Fastroll.Comp
open Fastroll.Codec
open Fastroll.Wire
open Fastroll.Wire.Spec (Codes)

theorem bytesLt_trans : ∀ a b c : Bytes, bytesLt a b = true → bytesLt b c = true → bytesLt a c = true := by
  intro a
  induction a with
  | nil =>
    intro b c h1 h2
    cases c with
    | nil => cases b <;> simp [bytesLt] at h2
    | cons => simp [bytesLt]
  | cons x xs ih =>
    intro b c h1 h2
    cases b with
    | nil => simp [bytesLt] at h1
    | cons y ys =>
      cases c with
      | nil => simp [bytesLt] at h2
      | cons z zs =>
        simp only [bytesLt, UInt8.lt_iff_toNat_lt] at h1 h2 ⊢
        by_cases c1 : x.toNat < y.toNat
        · by_cases c2 : y.toNat < z.toNat
          · rw [if_pos (by omega)]
          · rw [if_neg c2] at h2
            by_cases c3 : z.toNat < y.toNat
            · rw [if_pos c3] at h2; cases h2
            · rw [if_pos (by omega)]
        · rw [if_neg c1] at h1
          by_cases c2 : y.toNat < x.toNat
          · rw [if_pos c2] at h1; cases h1
          · rw [if_neg c2] at h1
            by_cases c3 : y.toNat < z.toNat
            · rw [if_pos (by omega)]
            · rw [if_neg c3] at h2
              by_cases c4 : z.toNat < y.toNat
              · rw [if_pos c4] at h2; cases h2
              · rw [if_neg c4] at h2
                rw [if_neg (by omega), if_neg (by omega)]
                exact ih ys zs h1 h2

theorem bytesLt_total : ∀ a b : Bytes, bytesLt a b = false → a ≠ b → bytesLt b a = true := by
  intro a
  induction a with
  | nil => intro b h hn; cases b with
    | nil => exact absurd rfl hn
    | cons => simp [bytesLt] at h
  | cons x xs ih =>
    intro b h hn
    cases b with
    | nil => simp [bytesLt]
    | cons y ys =>
      simp only [bytesLt] at h ⊢
      by_cases c1 : x < y
      · rw [if_pos c1] at h; cases h
      · rw [if_neg c1] at h
        by_cases c2 : y < x
        · rw [if_pos c2]
        · rw [if_neg c2] at h
          rw [if_neg c2, if_neg c1]
          have e : x = y := by
            apply UInt8.toNat_inj.mp
            rw [UInt8.lt_iff_toNat_lt] at c1 c2
            omega
          subst e
          exact ih ys h (fun e => hn (by rw [e]))

theorem insertTicket_perm (t : Ticket) : ∀ l, (insertTicket t l).Perm (t :: l) := by
  intro l
  induction l with
  | nil => exact .refl _
  | cons u us ih =>
    unfold insertTicket
    cases ticketLt u t with
    | true => exact (ih.cons u).trans (.swap ..)
    | false => exact .refl _

theorem sortTickets_perm : ∀ l, (sortTickets l).Perm l := by
  intro l
  induction l with
  | nil => exact .refl _
  | cons t ts ih => exact (insertTicket_perm t _).trans (ih.cons t)

def Sorted (l : List Ticket) : Prop := l.Pairwise fun a b => ticketLt a b = true

theorem insertTicket_sorted (t : Ticket) : ∀ l, Sorted l → t.id ∉ l.map Ticket.id → Sorted (insertTicket t l) := by
  intro l
  induction l with
  | nil => intro _ _; exact List.pairwise_singleton ..
  | cons u us ih =>
    intro hs hn
    rw [List.map_cons, List.mem_cons, not_or] at hn
    obtain ⟨hu, hus⟩ := List.pairwise_cons.mp hs
    unfold insertTicket
    cases c : ticketLt u t with
    | true =>
      refine List.pairwise_cons.mpr ⟨fun x hx => ?_, ih hus hn.2⟩
      rcases List.mem_cons.mp ((insertTicket_perm t us).mem_iff.mp hx) with rfl | hx
      · exact c
      · exact hu x hx
    | false =>
      have htu : ticketLt t u = true := bytesLt_total u.id t.id c (fun e => hn.1 e.symm)
      refine List.pairwise_cons.mpr ⟨fun x hx => ?_, hs⟩
      rcases List.mem_cons.mp hx with rfl | hx
      · exact htu
      · exact bytesLt_trans _ _ _ htu (hu x hx)

theorem sortTickets_sorted : ∀ l : List Ticket, (l.map Ticket.id).Nodup → Sorted (sortTickets l) := by
  intro l
  induction l with
  | nil => intro _; exact List.Pairwise.nil
  | cons t ts ih =>
    intro h
    rw [List.map_cons, List.nodup_cons] at h
    refine insertTicket_sorted t _ (ih h.2) ?_
    rw [((sortTickets_perm ts).map Ticket.id).mem_iff]
    exact h.1

theorem sorted_unique {l l' : List Ticket} (h : Sorted l) (h' : Sorted l') (p : l.Perm l') : l = l' := by
  induction l generalizing l' with
  | nil => exact (List.Perm.nil_eq p)
  | cons a l ih =>
    cases l' with
    | nil => exact absurd p.length_eq (by simp)
    | cons b l' =>
      obtain ⟨ha, hl⟩ := List.pairwise_cons.mp h
      obtain ⟨hb, hl'⟩ := List.pairwise_cons.mp h'
      have e : a = b := by
        rcases List.mem_cons.mp (p.mem_iff.mp (List.mem_cons_self ..)) with e | hm
        · exact e
        · rcases List.mem_cons.mp (p.mem_iff.mpr (List.mem_cons_self ..)) with e | hm'
          · exact e.symm
          · have h1 : bytesLt b.id a.id = true := hb a hm
            have h2 : bytesLt a.id b.id = true := ha b hm'
            rw [bytesLt_asymm _ _ h1] at h2
            cases h2
      subst e
      rw [ih hl hl' p.cons_inv]

theorem addAll_small (E : Nat) : ∀ l heap : List Ticket, heap.length + l.length ≤ E →
    l.foldl (addTicket E) heap = heap ++ l := by
  intro l
  induction l with
  | nil => intro heap _; rw [List.append_nil]; rfl
  | cons t l ih =>
    intro heap h
    rw [List.length_cons] at h
    rw [List.foldl_cons]
    have : addTicket E heap t = heap ++ [t] := by
      unfold addTicket
      rw [if_pos (by omega)]
    rw [this, ih _ (by rw [List.length_append, List.length_singleton]; omega), List.append_assoc]
    rfl

theorem maxTicket_mem : ∀ (l : List Ticket) (m : Ticket), maxTicket l = some m → m ∈ l := by
  intro l
  induction l with
  | nil => intro m h; cases h
  | cons t ts ih =>
    intro m h
    unfold maxTicket at h
    cases e : maxTicket ts with
    | none => rw [e] at h; cases h; exact List.mem_cons_self ..
    | some x =>
      rw [e] at h
      simp only [] at h
      cases c : ticketLt x t with
      | true => rw [c] at h; cases h; exact List.mem_cons_self ..
      | false => rw [c] at h; cases h; exact List.mem_cons_of_mem _ (ih _ e)

theorem addTicket_full (E : Nat) (heap : List Ticket) (t : Ticket) (h : heap.length = E) :
    (addTicket E heap t).length = E := by
  unfold addTicket
  rw [if_neg (by omega)]
  cases e : maxTicket heap with
  | none => exact h
  | some m =>
    simp only []
    cases ticketLt t m with
    | false => exact h
    | true =>
      have hm := maxTicket_mem heap m e
      have := List.length_pos_of_mem hm
      show (heap.erase m ++ [t]).length = E
      rw [List.length_append, List.length_erase_of_mem hm, List.length_singleton]
      omega

theorem addAll_length (E : Nat) : ∀ l heap : List Ticket, heap.length ≤ E →
    (l.foldl (addTicket E) heap).length = min (heap.length + l.length) E := by
  intro l
  induction l with
  | nil => intro heap h; simp only [List.foldl_nil, List.length_nil]; omega
  | cons t l ih =>
    intro heap h
    rw [List.foldl_cons]
    by_cases c : heap.length = E
    · rw [ih _ (by rw [addTicket_full E heap t c]; exact Nat.le_refl _), addTicket_full E heap t c, List.length_cons]
      omega
    · have : addTicket E heap t = heap ++ [t] := by
        unfold addTicket
        rw [if_pos (by omega)]
      rw [this, ih _ (by rw [List.length_append, List.length_singleton]; omega), List.length_append,
        List.length_singleton, List.length_cons]
      omega

theorem ticketsVec_codes : Codes (vecEnc Ticket.enc) (vecDec 33 Ticket.dec)
    (fun l => Wire.Spec.Fits l.length 33 ∧ ∀ t ∈ l, Wire.Spec.TicketOk t) (Wire.Spec.var Wire.Spec.ticket) :=
  vec_codes 33 (by decide) ticket_codes

theorem acc_codes (D : Dims) (l : List Ticket) (h : Paper.TicketsOk D l) :
    accEnc l = .ok (Wire.Spec.var Wire.Spec.ticket (sortTickets l)) ∧
    ∀ rest, accDec D.wire.epoch (Wire.Spec.var Wire.Spec.ticket (sortTickets l) ++ rest) = .ok (sortTickets l, rest) := by
  have hp := sortTickets_perm l
  obtain ⟨f1, f2⟩ := ticketsVec_codes (sortTickets l)
    ⟨by rw [hp.length_eq]; exact h.fit, fun t ht => h.each t (hp.mem_iff.mp ht)⟩
  refine ⟨f1, fun rest => ?_⟩
  unfold accDec
  rw [bind_ok (f2 _), addAll_small _ _ _ (by rw [hp.length_eq]; simpa using h.limit)]
  rfl

theorem safrole_codes (D : Dims) (s : Safrole) (h : Paper.SafroleOk D s) :
    Safrole.enc s = .ok (Paper.safrole { s with tickets := sortTickets s.tickets }) ∧
    ∀ rest, Safrole.dec D (Paper.safrole { s with tickets := sortTickets s.tickets } ++ rest) =
      .ok ({ s with tickets := sortTickets s.tickets }, rest) := by
  have f0 := keys_codes D s.pending h.pending
  have f1 := arr_step (b := s.ringRoot) 144 h.ringRoot
  have f2 := sealers_codes D s.sealers h.sealers
  have f3 := acc_codes D s.tickets h.tickets
  exact ⟨by simp [Safrole.enc, Paper.safrole, cat, f0.1, f1.1, f2.1, f3.1],
    fun rest => by simp only [Safrole.dec, Paper.safrole, List.append_assoc, bind_ok (f0.2 _), bind_ok (f1.2 _), bind_ok (f2.2 _), bind_ok (f3.2 _)]; rfl⟩

end Fastroll.Comp
