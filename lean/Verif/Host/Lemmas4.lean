import Verif.Host.Lemmas3

/-! Lemmas: the functions that change what an account holds follow the paper. -/
namespace Fastroll.Host
open Fastroll.Pvm Fastroll.Svc
open Refine (Sound sound_read sound_write sound_bound octets_length octets_get)
open Refine.Paper (CanRead CanWrite octets)
open Pvm.Paper (word)
open Paper (Acct Holds Needs Const Res Acts Answers Offers FirstFree Listed cells little named fresh)

variable {env : Env} {vm : VM} {x : Svc.Ctx Global}

/-- The plain maps with the counters and one map of the running service replaced. -/
def withStorage (a : Global) (s : Nat) (m : Meta) (k : Bytes) (v : Option Bytes) : Global :=
  ⟨upd a.metas s (some m), upd2 a.storage s k v, a.preimages, a.lookups⟩
def withLookup (a : Global) (s : Nat) (m : Meta) (k : LKey) (v : Option (List Nat)) : Global :=
  ⟨upd a.metas s (some m), a.storage, a.preimages, upd2 a.lookups s k v⟩

/-- The counters after a storage entry is replaced, and what the account then needs. -/
theorem write_needs (F : Fit env x) {m : Meta} (hh : x.p.boxes.metas x.host = some m) (k : Bytes) (v : Option Bytes)
    (hk : k.length ≤ 2 ^ 32) (hv : ∀ w, v = some w → w.length ≤ 2 ^ 32) :
    ∃ i o, (m.updateFootprints (usageDelta ((x.p.boxes.storage x.host k).map (storOctets k)) (v.map (storOctets k))) {}).1 =
        { m with items := i, octets := o } ∧ i < U32 ∧ deposit i o < U64 ∧
      Usage (withStorage x.p.boxes x.host { m with items := i, octets := o } k v) x.host i o := by
  have U := F.sound.exact _ _ hh
  have R := F.room _ _ hh
  have hD := roomy_deposit R
  -- the maps after the change, with any counters
  have sto : ∀ m', (withStorage x.p.boxes x.host m' k v).storage x.host = upd (x.p.boxes.storage x.host) k v := fun m' => upd2_self _ _ _ _
  obtain ⟨i, o, U', h1, h2⟩ := usage_storage (a' := withStorage x.p.boxes x.host m k v) (sto m) rfl U
  have hi : i ≤ m.items + 1 := by
    have : cnt v ≤ 1 := by cases v <;> simp [cnt]
    omega
  have ho : o ≤ m.octets + 2 ^ 34 := by
    have : wt storWeight k v ≤ 2 ^ 34 := by
      cases v with
      | none => simp [wt]
      | some w => simp only [wt, storWeight]; have := hv w rfl; omega
    omega
  have b1 : i < U32 := by omega
  have b2 : deposit i o < U64 := by unfold deposit U32 U64 at *; omega
  refine ⟨i, o, ?_, b1, b2, usage_congr rfl rfl U'⟩
  refine footprint_exact (.inr rfl) (by omega) hD b1 b2 ?_ ?_
  · cases hp : x.p.boxes.storage x.host k <;> cases v <;> simp only [hp, cnt, usageDelta, Option.map_some, Option.map_none, Option.isSome_some, Option.isSome_none, if_true, Bool.false_eq_true, if_false] at h1 ⊢ <;> omega
  · cases hp : x.p.boxes.storage x.host k <;> cases v <;>
      simp only [hp, wt, storWeight, storOctets, usageDelta, Option.map_some, Option.map_none] at h2 ⊢ <;> omega

theorem lookup_needs (F : Fit env x) {m : Meta} (hh : x.p.boxes.metas x.host = some m) (k : LKey) (v : Option (List Nat))
    (hk : k.2 < 2 ^ 32) :
    ∃ i o, (m.updateFootprints {} (usageDelta ((x.p.boxes.lookups x.host k).map fun _ => k.2) (v.map fun _ => k.2))).1 =
        { m with items := i, octets := o } ∧ i < U32 ∧ deposit i o < U64 ∧
      Usage (withLookup x.p.boxes x.host { m with items := i, octets := o } k v) x.host i o := by
  have U := F.sound.exact _ _ hh
  have R := F.room _ _ hh
  have hD := roomy_deposit R
  have loo : ∀ m', (withLookup x.p.boxes x.host m' k v).lookups x.host = upd (x.p.boxes.lookups x.host) k v := fun m' => upd2_self _ _ _ _
  obtain ⟨i, o, U', h1, h2⟩ := usage_lookups (a := x.p.boxes) (a' := withLookup x.p.boxes x.host m k v) rfl (loo m) U
  have hi : i ≤ m.items + 2 := by
    have : cnt v ≤ 1 := by cases v <;> simp [cnt]
    omega
  have ho : o ≤ m.octets + 2 ^ 34 := by
    have : wt lookWeight k v ≤ 2 ^ 34 := by
      cases v with
      | none => simp [wt]
      | some w => simp only [wt, lookWeight]; omega
    omega
  have b1 : i < U32 := by omega
  have b2 : deposit i o < U64 := by unfold deposit U32 U64 at *; omega
  refine ⟨i, o, ?_, b1, b2, usage_congr rfl rfl U'⟩
  refine footprint_exact (.inl rfl) (by omega) hD b1 b2 ?_ ?_
  · cases hp : x.p.boxes.lookups x.host k <;> cases v <;> simp only [hp, cnt, usageDelta, Option.map_some, Option.map_none, Option.isSome_some, Option.isSome_none, if_true, Bool.false_eq_true, if_false] at h1 ⊢ <;> omega
  · cases hp : x.p.boxes.lookups x.host k <;> cases v <;>
      simp only [hp, wt, lookWeight, usageDelta, Option.map_some, Option.map_none] at h2 ⊢ <;> omega

theorem isZero_same {f g : Option Nat} (h : (usageDelta f g).isZero = true) (m : Meta) : (m.updateFootprints (usageDelta f g) {}).1 = m := by
  unfold Delta.isZero at h
  have h' := of_decide_eq_true h
  unfold Meta.updateFootprints
  dsimp only
  rw [h'.1, h'.2]
  rfl

theorem write_acts (F : Fit env x) (hg : noGas vm = false) (hm : Sound vm.mem) (h7 : VM.n vm 7 < 2 ^ 32 ∨ VM.n vm 8 ≠ 0)
    (h9 : VM.n vm 9 < 2 ^ 32 ∨ VM.n vm 10 ≠ 0) : ActsAs env vm x 4 (hostWrite mapStore env vm x) := by
  obtain ⟨m, hh⟩ := Option.isSome_iff_exists.1 F.alive
  unfold hostWrite
  rw [hg]
  simp only [Bool.false_eq_true, if_false]
  rcases u32_cases vm 7 with ⟨e7, _⟩ | ⟨e7, w7⟩
  · rcases u32_cases vm 9 with ⟨e9, _⟩ | ⟨e9, w9⟩
    · simp only [e7, e9]
      rcases read_at hm 7 (VM.n vm 8) with ⟨e, hr⟩ | ⟨e, hr⟩
      · simp only [e]
        have wv : (writeValue vm (VM.n vm 9) = some (if VM.n vm 10 = 0 then none else some (octets vm.mem.abs (VM.n vm 9) (VM.n vm 10))) ∧
              (VM.n vm 10 ≠ 0 → CanRead vm.mem.abs (VM.n vm 9) (VM.n vm 10))) ∨
            (writeValue vm (VM.n vm 9) = none ∧ ¬ (VM.n vm 10 ≠ 0 → CanRead vm.mem.abs (VM.n vm 9) (VM.n vm 10))) := by
          unfold writeValue
          by_cases c : VM.n vm 10 = 0
          · rw [if_pos c, if_pos c]
            exact .inl ⟨rfl, fun h => absurd c h⟩
          · rw [if_neg c, if_neg c]
            rcases read_at hm 9 (VM.n vm 10) with ⟨e', hr'⟩ | ⟨e', hr'⟩
            · rw [e']; exact .inl ⟨rfl, fun _ => hr'⟩
            · rw [e']; exact .inr ⟨rfl, fun h => hr' (h c)⟩
        rcases wv with ⟨ev, hv⟩ | ⟨ev, hv⟩
        · simp only [ev]
          generalize hvd : (if VM.n vm 10 = 0 then none else some (octets vm.mem.abs (VM.n vm 9) (VM.n vm 10))) = v
          have hvl : ∀ w, v = some w → w.length ≤ 2 ^ 32 := by
            intro w hw
            rw [hw] at hvd
            by_cases c : VM.n vm 10 = 0
            · rw [if_pos c] at hvd; cases hvd
            · rw [if_neg c] at hvd; cases hvd
              rw [octets_length]; exact readable_short hm (hv c)
          have hkl : (octets vm.mem.abs (VM.n vm 7) (VM.n vm 8)).length ≤ 2 ^ 32 := by
            rw [octets_length]; exact readable_short hm hr
          generalize hkd : octets vm.mem.abs (VM.n vm 7) (VM.n vm 8) = k at hkl
          obtain ⟨i, o, hf, b1, b2, U'⟩ := write_needs F hh k v hkl hvl
          -- the account after the call
          have hn : ∀ p : Acct, p.storage = upd (x.p.boxes.storage x.host) k v → p.requests = (fun h z => x.p.boxes.lookups x.host (h, z)) →
              Needs p (deposit i o - p.gratis) := fun p h1 h2 =>
            needs_of U' (by rw [h1]; exact (upd2_self _ _ _ _).symm) h2
          have es : mapStore.getS x.p.boxes x.host k = (x.p.boxes.storage x.host k, x.p.boxes) := rfl
          simp only [es]
          generalize hd : usageDelta ((x.p.boxes.storage x.host k).map (storOctets k)) (v.map (storOctets k)) = d at hf
          have sim : m.simulate d {} = deposit i o - m.gratis := by
            unfold Meta.simulate
            rw [hf, threshold_eq b2]
          have e2 : affordable mapStore x.p.boxes x.host d =
              (some (d.isZero || decide (m.simulate d {} ≤ m.balance)), x.p.boxes) := by
            unfold affordable
            by_cases c : d.isZero = true
            · rw [if_pos c, c]; rfl
            · rw [if_neg c]
              simp only [Bool.not_eq_true] at c
              simp only [mapStore, hh, c, Bool.false_or]
          simp only [e2]
          have both : CanRead vm.mem.abs (VM.n vm 7) (VM.n vm 8) ∧ (VM.n vm 10 ≠ 0 → CanRead vm.mem.abs (VM.n vm 9) (VM.n vm 10)) := ⟨hr, hv⟩
          have okb : d.isZero = true → deposit i o - m.gratis ≤ m.balance := by
            intro hz
            rw [← sim]
            unfold Meta.simulate
            subst hd
            rw [isZero_same hz]
            exact F.covered _ _ hh
          by_cases c : (d.isZero || decide (m.simulate d {} ≤ m.balance)) = true
          · have hb : deposit i o - m.gratis ≤ m.balance := by
              rcases Bool.or_eq_true_iff.1 c with c | c
              · exact okb c
              · rw [← sim]; exact of_decide_eq_true c
            simp only [c]
            have act := Acts.write (P := consts env) (datum := env.fetch vm) (ϱ := vm.gas) (φ := VM.n vm) (μ := vm.mem.abs) (x := paper x)
              (v := v) both (acct_some hh) hvd.symm (by rw [hkd]; exact hn _ rfl rfl) hb rfl
            rw [hkd] at act
            have e3 := paper_put (x := x) (bs := withStorage x.p.boxes x.host { m with items := i, octets := o } k v)
              (m' := { m with items := i, octets := o })
              (fun k hk => by simp [withStorage, upd, hk]) (fun k hk => upd2_other _ hk _ _) (fun k _ => rfl) (fun k _ => rfl) (upd_at _ _ _)
            have e4 : (((acct x.p.boxes (paper x).self).bind fun a => a.storage k).map List.length).getD Paper.NONE = lenOrNone (x.p.boxes.storage x.host k) := by
              rw [show (paper x).self = x.host from rfl, acct_some hh]
              show ((x.p.boxes.storage x.host k).map List.length).getD Paper.NONE = _
              cases x.p.boxes.storage x.host k <;> rfl
            have out : ActsAs env vm x 4 (.ok (ret (lenOrNone (x.p.boxes.storage x.host k))),
                x.setBoxes (withStorage x.p.boxes x.host { m with items := i, octets := o } k v)) := by
              refine ⟨_, _, rfl, means_ret _, ?_⟩
              dsimp only
              rw [e3, ← e4, show (paper x).self = x.host from rfl, acct_some hh, show withStorage x.p.boxes x.host { m with items := i, octets := o } k v =
                ⟨upd x.p.boxes.metas x.host (some { m with items := i, octets := o }), upd2 x.p.boxes.storage x.host k v, x.p.boxes.preimages, x.p.boxes.lookups⟩ from rfl]
              dsimp only
              rw [upd2_self]
              exact act
            cases v <;> simp only [storeValue, mapStore, hh, Option.map_some, hf] <;> exact out
          · simp only [Bool.not_eq_true] at c
            simp only [c]
            have hb : m.balance < deposit i o - m.gratis := by
              rw [Bool.or_eq_false_iff] at c
              have := of_decide_eq_false c.2
              rw [sim] at this; omega
            exact ⟨_, _, rfl, means_ret FULL, .writeFull (v := v) both (acct_some hh) hvd.symm (by rw [hkd]; exact hn _ rfl rfl) hb⟩
        · simp only [ev]
          exact ⟨_, _, rfl, means_panic, .writePanic fun h => hv h.2⟩
      · simp only [e]
        exact ⟨_, _, rfl, means_panic, .writePanic fun h => hr h.1⟩
    · simp only [e7, e9]
      exact ⟨_, _, rfl, means_panic, .writePanic fun h =>
        wide_unreadable hm (h9.resolve_left (by omega)) w9 (h.2 (h9.resolve_left (by omega)))⟩
  · simp only [e7]
    exact ⟨_, _, rfl, means_panic, .writePanic fun h => wide_unreadable hm (h7.resolve_left (by omega)) w7 h.1⟩

end Fastroll.Host
