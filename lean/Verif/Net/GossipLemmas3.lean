import Verif.Net.GossipLemmas2
import Verif.Comp.Lemmas2

/-!
# Lemmas for the announcements and requests between nodes: peers and stores
-/
namespace Fastroll.Net
open Fastroll.Codec Fastroll.Wire Fastroll.Net.Spec

/-! ## The order of keys -/

theorem before_iff : ∀ {a b : Bytes}, a.length = b.length → (bytesLt a b = true ↔ Before a b)
  | [], [], _ => by
    refine ⟨fun h => by simp [bytesLt] at h, fun ⟨p, x, y, s, t, h, _⟩ => by simp at h⟩
  | x :: a, y :: b, h => by
    have ih := before_iff (a := a) (b := b) (by simpa using h)
    unfold bytesLt
    by_cases h1 : x < y
    · rw [if_pos h1]
      exact ⟨fun _ => ⟨[], x, y, a, b, rfl, rfl, h1⟩, fun _ => rfl⟩
    · rw [if_neg h1]
      by_cases h2 : y < x
      · rw [if_pos h2]
        refine ⟨fun h => by simp at h, fun ⟨p, u, v, s, t, e1, e2, huv⟩ => ?_⟩
        cases p with
        | nil =>
          simp at e1 e2
          rw [e1.1, e2.1] at h1
          exact absurd huv h1
        | cons z p =>
          simp at e1 e2
          rw [e1.1, e2.1] at h2
          exact absurd h2 (UInt8.lt_irrefl _)
      · rw [if_neg h2]
        have hxy : x = y := by
          have a1 : ¬ x.toNat < y.toNat := h1
          have a2 : ¬ y.toNat < x.toNat := h2
          exact UInt8.toNat_inj.1 (by omega)
        subst hxy
        rw [ih]
        constructor
        · rintro ⟨p, u, v, s, t, e1, e2, huv⟩
          exact ⟨x :: p, u, v, s, t, by simp [e1], by simp [e2], huv⟩
        · rintro ⟨p, u, v, s, t, e1, e2, huv⟩
          cases p with
          | nil =>
            simp at e1 e2
            rw [← e1.1, ← e2.1] at huv
            exact absurd huv (UInt8.lt_irrefl _)
          | cons z p =>
            simp at e1 e2
            exact ⟨p, u, v, s, t, e1.2, e2.2, huv⟩

theorem high_iff {a : Bytes} (h : a.length = 32) : 127 < (a.getD 31 0).toNat ↔ High a := by
  constructor
  · intro h1
    refine ⟨a.take 31, a.getD 31 0, ?_, h1⟩
    have hl : 31 < a.length := by omega
    have e : a.getD 31 0 = a[31] := by simp [hl]
    rw [e]
    have e2 : a.drop 31 = [a[31]] := by
      rw [List.drop_eq_getElem_cons hl, List.drop_of_length_le (by omega)]
    rw [← e2, List.take_append_drop]
  · rintro ⟨p, x, rfl, hx⟩
    have hp : p.length = 31 := by simpa using h
    have : (p ++ [x]).getD 31 0 = x := by
      rw [List.getD_eq_getElem?_getD, List.getElem?_append_right (by omega), hp]
      rfl
    rw [this]
    omega

/-! ## The table of peers -/

theorem readLE_two (x y : UInt8) (rest : Bytes) :
    fixedDecode 16 2 (x :: y :: rest) = .ok (x.toNat + 256 * y.toNat, rest) := by
  have hx := x.toNat_lt
  have hy := y.toNat_lt
  have e : paperFixed 2 (x.toNat + 256 * y.toNat) = [x, y] := by
    have e1 : (x.toNat + 256 * y.toNat) % 256 = x.toNat := by omega
    have e2 : (x.toNat + 256 * y.toNat) / 256 % 256 = y.toNat := by omega
    simp [paperFixed, e1, e2]
  have := (fixed_codes 16 2 (by decide) (by decide) (x.toNat + 256 * y.toNat) (by omega)).2 rest
  rw [e] at this
  exact this

theorem socket_ok {m : Bytes} (h : m.length = 128) : ∃ a, socketAddress m = .ok a ∧ AddressOf m a := by
  have h16 : 16 < m.length := by omega
  have h17 : 17 < m.length := by omega
  have e : m = m.take 16 ++ m[16] :: m[17] :: m.drop 18 := by
    have e1 : m.drop 16 = m[16] :: m[17] :: m.drop 18 := by
      rw [List.drop_eq_getElem_cons h16, List.drop_eq_getElem_cons h17]
    rw [← e1, List.take_append_drop]
  have e2 : (m.take 18).drop 16 = [m[16], m[17]] := by
    rw [List.drop_take, List.drop_eq_getElem_cons h16, List.drop_eq_getElem_cons h17]
    rfl
  refine ⟨(m.take 16, m[16].toNat + 256 * m[17].toNat), ?_, m.take 16, m[16], m[17], m.drop 18, e, by simp; omega, rfl⟩
  unfold socketAddress
  rw [e2, readLE_two]

theorem address_unique {m : Bytes} {a b : Bytes × Nat} : AddressOf m a → AddressOf m b → a = b := by
  rintro ⟨i, x, y, r, rfl, hi, rfl⟩ ⟨j, u, v, s, e, hj, rfl⟩
  obtain ⟨h1, h2⟩ := List.append_inj e (by omega)
  simp at h2
  rw [h1, h2.1, h2.2.1]

theorem peersOf_ok : ∀ {vs : List (Bytes × Bytes)}, (∀ v ∈ vs, v.2.length = 128) →
    ∃ as : List (Bytes × Nat), peersOf vs = (vs.zip as).map (fun v => ⟨v.1.1, v.2⟩) ∧ as.length = vs.length ∧
      ∀ v ∈ vs.zip as, AddressOf v.1.2 v.2
  | [], _ => ⟨[], rfl, rfl, by simp⟩
  | (k, m) :: vs, h => by
    obtain ⟨as, h1, h2, h3⟩ := peersOf_ok (vs := vs) fun v hv => h v (by simp [hv])
    obtain ⟨a, h4, h5⟩ := socket_ok (h (k, m) (by simp))
    refine ⟨a :: as, ?_, by simp [h2], ?_⟩
    · simp [peersOf, h4, h1]
    · intro v hv
      simp only [List.zip_cons_cons, List.mem_cons] at hv
      rcases hv with rfl | hv
      · exact h5
      · exact h3 v hv

theorem peersOf_append (vs ws : List (Bytes × Bytes)) : peersOf (vs ++ ws) = peersOf vs ++ peersOf ws := by
  induction vs with
  | nil => rfl
  | cons v vs ih =>
    obtain ⟨k, m⟩ := v
    simp only [List.cons_append, peersOf, ih]
    cases socketAddress m <;> rfl

/-- The table after all insertions. -/
theorem fold_peers : ∀ (ps acc : List Peer), acc.Pairwise (fun p q => p.addr ≠ q.addr) →
    (ps.foldl insertPeer acc).Pairwise (fun p q => p.addr ≠ q.addr) ∧
    ∀ p, p ∈ ps.foldl insertPeer acc ↔ (∃ l r, ps = l ++ p :: r ∧ ∀ q ∈ r, q.addr ≠ p.addr) ∨ (p ∈ acc ∧ ∀ q ∈ ps, q.addr ≠ p.addr)
  | [], acc, ha => ⟨ha, fun p => by simp⟩
  | x :: ps, acc, ha => by
    have ha' : (insertPeer acc x).Pairwise (fun p q => p.addr ≠ q.addr) := by
      unfold insertPeer
      rw [List.pairwise_append]
      refine ⟨ha.filter _, List.pairwise_singleton .., fun a h b hb => ?_⟩
      simp at h hb
      subst hb
      exact h.2
    obtain ⟨h1, h2⟩ := fold_peers ps (insertPeer acc x) ha'
    refine ⟨h1, fun p => ?_⟩
    rw [List.foldl_cons, h2 p]
    constructor
    · rintro (⟨l, r, rfl, h⟩ | ⟨h, hq⟩)
      · exact .inl ⟨x :: l, r, rfl, h⟩
      · simp only [insertPeer, List.mem_append, List.mem_filter, decide_eq_true_eq, List.mem_singleton] at h
        rcases h with ⟨h, hx⟩ | rfl
        · refine .inr ⟨h, fun q hm => ?_⟩
          rcases List.mem_cons.1 hm with rfl | hm
          · exact fun e => hx e.symm
          · exact hq q hm
        · exact .inl ⟨[], ps, rfl, hq⟩
    · rintro (⟨l, r, e, h⟩ | ⟨h, hq⟩)
      · cases l with
        | nil =>
          injection e with e1 e2
          subst e1 e2
          exact .inr ⟨by simp [insertPeer], h⟩
        | cons y l =>
          injection e with e1 e2
          exact .inl ⟨l, r, e2, h⟩
      · refine .inr ⟨?_, fun q hm => hq q (by simp [hm])⟩
        simp only [insertPeer, List.mem_append, List.mem_filter, decide_eq_true_eq]
        exact .inl ⟨h, fun e => hq x (by simp) e.symm⟩

/-- The last one with an address, in terms of the peers. -/
theorem lastWith_iff : ∀ {vs : List (Bytes × Bytes)}, (∀ v ∈ vs, v.2.length = 128) → ∀ p : Peer,
    (∃ l r, peersOf vs = l ++ p :: r ∧ ∀ q ∈ r, q.addr ≠ p.addr) ↔ LastWith vs p.key p.addr := by
  have all : ∀ {vs : List (Bytes × Bytes)}, (∀ v ∈ vs, v.2.length = 128) → ∀ a : Bytes × Nat,
      (∀ q ∈ peersOf vs, q.addr ≠ a) ↔ ∀ v ∈ vs, ¬ AddressOf v.2 a := by
    intro vs
    induction vs with
    | nil => intro _ a; simp [peersOf]
    | cons v vs ih =>
      intro h a
      obtain ⟨k, m⟩ := v
      obtain ⟨b, h4, h5⟩ := socket_ok (h (k, m) (by simp))
      have ih := ih (fun v hv => h v (by simp [hv])) a
      simp only [peersOf, h4, List.mem_cons, forall_eq_or_imp]
      rw [ih]
      constructor
      · rintro ⟨n1, n2⟩
        exact ⟨fun ha => n1 (address_unique h5 ha), n2⟩
      · rintro ⟨n1, n2⟩
        exact ⟨fun e => n1 (e ▸ h5), n2⟩
  intro vs
  induction vs with
  | nil =>
    intro _ p
    constructor
    · rintro ⟨l, r, e, _⟩; simp [peersOf] at e
    · rintro ⟨l, m, r, e, _⟩; simp at e
  | cons v vs ih =>
    intro h p
    obtain ⟨k, m⟩ := v
    obtain ⟨a, h4, h5⟩ := socket_ok (h (k, m) (by simp))
    have hvs : ∀ v ∈ vs, v.2.length = 128 := fun v hv => h v (by simp [hv])
    have e0 : peersOf ((k, m) :: vs) = ⟨k, a⟩ :: peersOf vs := by simp [peersOf, h4]
    rw [e0]
    constructor
    · rintro ⟨l, r, e, hr⟩
      cases l with
      | nil =>
        injection e with e1 e2
        subst e1 e2
        exact ⟨[], m, vs, rfl, h5, (all hvs a).1 hr⟩
      | cons y l =>
        injection e with e1 e2
        obtain ⟨v1, m', v2, e3, h6, h7⟩ := (ih hvs p).1 ⟨l, r, e2, hr⟩
        exact ⟨(k, m) :: v1, m', v2, by simp [e3], h6, h7⟩
    · rintro ⟨v1, m', v2, e, h6, h7⟩
      cases v1 with
      | nil =>
        injection e with e1 e2
        injection e1 with e3 e4
        subst e2 e4
        have := address_unique h5 h6
        subst this
        refine ⟨[], peersOf vs, by rw [e3]; rfl, (all hvs p.addr).2 h7⟩
      | cons y v1 =>
        injection e with e1 e2
        obtain ⟨l, r, e3, hr⟩ := (ih hvs p).2 ⟨v1, m', v2, e2, h6, h7⟩
        exact ⟨⟨k, a⟩ :: l, r, by simp [e3], hr⟩

/-! ## The stores -/

theorem after_snoc (H : Bytes → Bytes) (es : List Event) (e : Event) :
    Store.after H (es ++ [e]) = (Store.after H es).step H e := by simp [Store.after]

/-- Only genesis and the author write extrinsics. -/
theorem step_xt (H : Bytes → Bytes) (S : Store) (e : Event) (k : Bytes) (x : Extrinsics) (h : (S.step H e).xt k = some x) :
    S.xt k = some x ∨ (k = zero32 ∧ x = noExtrinsics ∧ ∃ g, e = .genesis g) ∨ ∃ h', e = .authorExtrinsics h' x ∧ k = h'.xtHash := by
  have hp : ∀ (S : Store) h', (S.putHeader H h').xt = S.xt := by
    intro S h'
    unfold Store.putHeader
    split <;> rfl
  cases e with
  | genesis g =>
    simp only [Store.step, Store.putXt, hp] at h
    split at h
    · next hk => exact .inr (.inl ⟨hk, (Option.some.inj h).symm, g, rfl⟩)
    · exact .inl h
  | authorHeader g => exact .inl (by simpa [Store.step, hp] using h)
  | authorExtrinsics g y =>
    simp only [Store.step, Store.putXt] at h
    split at h
    · next hk =>
      have := Option.some.inj h
      subst this
      exact .inr (.inr ⟨g, rfl, hk⟩)
    · exact .inl h
  | imported b => exact .inl (by simpa [Store.step, hp] using h)

theorem step_header (H : Bytes → Bytes) (S : Store) (e : Event) (k : Bytes) (g : Header) (h : (S.step H e).header k = some g) :
    S.header k = some g ∨ Header.hash H g = .ok k := by
  have hp : ∀ (S : Store) h', (S.putHeader H h').header k = some g → S.header k = some g ∨ Header.hash H g = .ok k := by
    intro S h' hs
    unfold Store.putHeader at hs
    split at hs
    · exact .inl hs
    · next j hj =>
      dsimp only at hs
      split at hs
      · next hk =>
        have := Option.some.inj hs
        subst this hk
        exact .inr hj
      · exact .inl hs
  cases e with
  | genesis g' => exact hp S g' h
  | authorHeader g' => exact hp S g' h
  | authorExtrinsics g' y => exact .inl h
  | imported b => exact hp S b.header h

theorem block_some {S : Store} {k : Bytes} {b : Block} (h : S.block k = some b) :
    S.header k = some b.header ∧ S.xt b.header.xtHash = some b.xt := by
  unfold Store.block at h
  split at h
  · simp at h
  · next g hg =>
    split at h
    · simp at h
    · next x hx =>
      have := Option.some.inj h
      subst this
      exact ⟨hg, hx⟩

theorem after_header (H : Bytes → Bytes) (es : List Event) (k : Bytes) (g : Header) (h : (Store.after H es).header k = some g) :
    Header.hash H g = .ok k := by
  have go : ∀ (es : List Event) (S : Store), (∀ k g, S.header k = some g → Header.hash H g = .ok k) →
      ∀ k g, (es.foldl (Store.step H) S).header k = some g → Header.hash H g = .ok k := by
    intro es
    induction es with
    | nil => intro S hS; exact hS
    | cons e es ih =>
      intro S hS
      refine ih _ fun k g hg => ?_
      rcases step_header H S e k g hg with h1 | h1
      · exact hS k g h1
      · exact h1
  exact go es emptyStore (by intro k g h; simp [emptyStore] at h) k g h

/-- Where extrinsics in the store come from. -/
theorem after_xt (H : Bytes → Bytes) (es : List Event) (k : Bytes) (x : Extrinsics) (h : (Store.after H es).xt k = some x) :
    (k = zero32 ∧ x = noExtrinsics ∧ ∃ g, .genesis g ∈ es) ∨ ∃ h', .authorExtrinsics h' x ∈ es ∧ k = h'.xtHash := by
  have go : ∀ (es : List Event) (S : Store) k x, (es.foldl (Store.step H) S).xt k = some x → S.xt k = some x ∨
      (k = zero32 ∧ x = noExtrinsics ∧ ∃ g, .genesis g ∈ es) ∨ ∃ h', .authorExtrinsics h' x ∈ es ∧ k = h'.xtHash := by
    intro es
    induction es with
    | nil => intro S k x h; exact .inl h
    | cons e es ih =>
      intro S k x h
      rcases ih _ k x h with h1 | ⟨h1, h2, g, hg⟩ | ⟨h', h1, h2⟩
      · rcases step_xt H S e k x h1 with h3 | ⟨h3, h4, g, hg⟩ | ⟨h', h3, h4⟩
        · exact .inl h3
        · exact .inr (.inl ⟨h3, h4, g, by simp [hg]⟩)
        · exact .inr (.inr ⟨h', by simp [h3], h4⟩)
      · exact .inr (.inl ⟨h1, h2, g, by simp [hg]⟩)
      · exact .inr (.inr ⟨h', by simp [h1], h2⟩)
  rcases go es emptyStore k x h with h1 | h1
  · simp [emptyStore] at h1
  · exact h1

/-- What is stored stays unless something is stored under the same hash. -/
theorem keep_header (H : Bytes → Bytes) (es : List Event) (S : Store) (k : Bytes) (g : Header) (hs : S.header k = some g)
    (hg : ∀ g', Header.hash H g' = .ok k → g' = g) : (es.foldl (Store.step H) S).header k = some g := by
  have hp : ∀ (S : Store) h', S.header k = some g → (S.putHeader H h').header k = some g := by
    intro S h' hs
    unfold Store.putHeader
    split
    · exact hs
    · next j hj =>
      dsimp only
      split
      · next e => subst e; rw [hg h' hj]
      · exact hs
  induction es generalizing S with
  | nil => exact hs
  | cons e es ih =>
    refine ih _ ?_
    cases e with
    | genesis g' => exact hp S g' hs
    | authorHeader g' => exact hp S g' hs
    | authorExtrinsics g' y => exact hs
    | imported b => exact hp S b.header hs

end Fastroll.Net
