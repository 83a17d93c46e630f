import Verif.Duty.Lemmas

/-! # Lemmas: authored blocks on the Safrole state -/
namespace Fastroll.Duty
open Fastroll.Wire Fastroll.Duty.Paper Fastroll.Chain Fastroll.Chain.Paper
open Fastroll.Safrole (Par Heap Crypto VKey nextSealers sealerAt epochOf phaseOf)

variable {K V ρ ρ' : Type} [DecidableEq K]

/-- What a task that authored a block did. -/
theorem extend_authored {H : Heap} {P : Par} {C : Crypto Bytes ρ' Bytes} {W : World K V ρ}
    {rd : St K V → Safrole.State Bytes ρ' Bytes} {me : Local} {slot : Nat} {clock : Option Nat} {n n' : Node K V ρ} {b : Block}
    {r : Bytes} (e : extend H P C W rd me slot clock n = (n', .authored b r)) :
    role H P C (rd n.db) me.key slot = .author ∧ ∃ i sk now, me.index = some i ∧ me.keystore me.key = some sk ∧
      clock = some now ∧ authorBlock W sk i now n = (n', some (b, r)) := by
  unfold extend at e
  split at e
  · cases e
  · cases e
  · cases e
  · rename_i hr
    refine ⟨hr, ?_⟩
    split at e
    · rename_i i sk now h1 h2
      split at e
      · cases e
      · rename_i n1 b1 r1 ha
        cases e
        exact ⟨i, sk, now, h1, h2, rfl, ha⟩
    · cases e

theorem role_author {κ ρ η : Type} [DecidableEq κ] {H : Heap} {P : Par} {C : Crypto κ ρ η} {s : Safrole.State κ ρ η} {key : κ}
    {slot : Nat} : role H P C s key slot = .author ↔ predictSealer H P C s slot = some (.key key) := by
  unfold role
  cases predictSealer H P C s slot with
  | none => simp
  | some x =>
    cases x with
    | ticket t => simp
    | key k =>
      by_cases c : key = k
      · simp [c]
      · simp [c, Ne.symm c]

/-- The state after the first phase has the predicted sealer and author. -/
theorem carried {H : Heap} {P : Par} {C : Crypto Bytes ρ' Bytes} {W : World K V ρ} {rd : St K V → Safrole.State Bytes ρ' Bytes}
    (hc : Carries H P C W rd) {slot : Nat} {root : Bytes} {s : St K V} {r r1 : ρ} {d1 : Delta K V} {m : Markers}
    (h : W.pre ⟨slot, root, noXt.disputes, noXt.tickets⟩ s s r = (d1, r1, some m)) :
    (∀ i, W.authorKey (over d1 s) i = ((predictActive P (rd s) slot)[i]?).map VKey.bander) ∧
    (∀ k, predictSealer H P C (rd s) slot = some (.key k) → W.sealer (over d1 s) slot = .key k) ∧
    (∀ t, predictSealer H P C (rd s) slot = some (.ticket t) → ∃ t', W.sealer (over d1 s) slot = .ticket t') := by
  obtain ⟨pu, vrf, st, hh⟩ := hc.pre _ _ _ _ _ _ rfl h
  obtain ⟨q1, q2, q3, q4⟩ := predict_header hh
  simp only at q1 q4
  refine ⟨?_, ?_, ?_⟩
  · intro i; rw [hc.author, q1]
  · intro k hk; exact hc.key _ _ _ (by rw [← q4]; exact hk)
  · intro t hk; exact hc.ticket _ _ _ (by rw [← q4]; exact hk)

/-- The seal of an authored header verifies under the author's key only. -/
theorem authored_key {W : World K V ρ} {sk pk : Bytes} (hb : Binds W sk pk) {sl : Sealer} {eta3 s key : Bytes}
    {h0 : Header} (hok : Spec.HeaderOk W.P (withSeal h0 s)) (h3 : signSeal W sk sl eta3 h0 = some s)
    (hs : Sealed W (withSeal h0 s) key eta3 sl) : key = pk ∧ ∀ k, sl = .key k → k = pk := by
  unfold signSeal at h3
  have hd' : Header.encData (withSeal h0 s) = .ok (Spec.unsealed (withSeal h0 s)) := encData_ok hok
  have hd : Header.encData h0 = .ok (Spec.unsealed (withSeal h0 s)) := hd'
  simp only [hd] at h3
  cases sl with
  | ticket t =>
    simp only at h3
    split at h3
    · obtain ⟨-, hv⟩ := hs
      rw [x_t, withSeal_sig] at hv
      simp only [Option.some.injEq] at h3
      rw [show W.verify (X_T ++ eta3 ++ [UInt8.ofNat t.attempt]) (Spec.unsealed (withSeal h0 s)) s key =
        W.verify (X_T ++ eta3 ++ [UInt8.ofNat t.attempt]) (Spec.unsealed (withSeal h0 s))
          (W.sign sk (X_T ++ eta3 ++ [UInt8.ofNat t.attempt]) (Spec.unsealed (withSeal h0 s))) key by rw [h3]] at hv
      exact ⟨hb _ _ _ hv, fun k e => by cases e⟩
    · cases h3
  | key k =>
    obtain ⟨hk, hv⟩ := hs
    subst hk
    simp only [Option.some.injEq] at h3
    rw [x_f, withSeal_sig] at hv
    rw [show W.verify (X_F ++ eta3) (Spec.unsealed (withSeal h0 s)) s k =
      W.verify (X_F ++ eta3) (Spec.unsealed (withSeal h0 s)) (W.sign sk (X_F ++ eta3) (Spec.unsealed (withSeal h0 s))) k by
        rw [h3]] at hv
    have := hb _ _ _ hv
    exact ⟨this, fun k' e => by cases e; exact this⟩

theorem authored_parts {W : World K V ρ} {sk : Bytes} {i now : Nat} {n n' : Node K V ρ} {b : Block} {root : Bytes}
    (e : authorBlock W sk i now n = (n', some (b, root))) :
    ∃ n1 h, authorHeader W sk i now n = (n1, some h) ∧ authorState W n1 h = (n', some root) ∧ b = ⟨h, noXt⟩ := by
  unfold authorBlock at e
  split at e
  · cases e
  · rename_i n1 h he1
    split at e
    · cases e
    · rename_i n2 r he2
      cases e
      exact ⟨n1, h, he1, he2, rfl⟩

/-- If some node at the same point accepts an authored block, the index and the slot are the author's. -/
theorem accepted_own {H : Heap} {P : Par} {C : Crypto Bytes ρ' Bytes} {W : World K V ρ} {rd : St K V → Safrole.State Bytes ρ' Bytes}
    (hc : Carries H P C W rd) {sk pk : Bytes} (hb : Binds W sk pk) {i now time : Nat} {n n' m : Node K V ρ} {p : Point K V ρ}
    {b : Block} {root root' : Bytes} (hn : At W n p) (hm : At W m p) (e : authorBlock W sk i now n = (n', some (b, root)))
    (hok : Spec.BlockOk W.P b) (hz : b.header.parent ≠ zeroHash) (ha : (importStep W (some time) m b).2 = .ok root') :
    (∃ v, (predictActive P (rd p.st) now)[i]? = some v ∧ v.bander = pk) ∧
      ∀ k, predictSealer H P C (rd p.st) now = some (.key k) → k = pk := by
  obtain ⟨n1, h, e1, e2, rfl⟩ := authored_parts e
  obtain ⟨xh, parent, d1, r1, mk, vrf, s, hash, h0, hx, hp, hh0, h1, h2, h3, hw, hhash, rfl⟩ := authorHeader_some e1
  rcases step_cases W (some time) m p ⟨h, noXt⟩ hm hok hz with ⟨q, hq, -⟩ | ⟨r, er, hs, -⟩
  · obtain ⟨d, r, c, ⟨d1', r1', m', d2, out, d3, b1, b2, -⟩, -, -⟩ := hq.body
    obtain ⟨key, k1, k2, k3⟩ := b2
    obtain ⟨a1, a2, a3, a4, a5, a6, a7⟩ := hn
    rw [a2] at h3
    simp only [List.append_nil] at h3
    have hv : n.view = p.st := by unfold Node.view; rw [a2, a1]; rfl
    rw [hv, a1, a3] at h1
    rw [a1] at h3
    have f1 : h.slot = now := by rw [hw, hh0]; rfl
    have f3 : h.stateRoot = W.root p.st := by rw [hw, hh0, a1]; rfl
    have f5 : h.author = i := by rw [hw, hh0]; rfl
    simp only [f1, f3] at b1
    rw [h1] at b1
    cases b1
    simp only [f1, f5] at k1 k2
    obtain ⟨c1, c2, c3⟩ := carried hc h1
    have hw' := hw
    rw [hw'] at k2
    have := authored_key hb (by rw [← hw']; exact hok.header) h3 k2
    obtain ⟨rfl, hkk⟩ := this
    rw [c1] at k1
    refine ⟨?_, ?_⟩
    · cases hv : (predictActive P (rd p.st) now)[i]? with
      | none => rw [hv] at k1; cases k1
      | some v =>
        rw [hv] at k1
        simp only [Option.map_some, Option.some.injEq] at k1
        exact ⟨v, rfl, k1⟩
    · intro k hk
      exact hkk k (c2 k hk)
  · rw [hs] at ha
    cases ha

end Fastroll.Duty
