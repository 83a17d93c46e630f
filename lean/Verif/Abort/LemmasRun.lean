import Verif.Abort.LemmasHost
import Verif.Svc.LemmasRun
import Verif.Pvm.PropsInterp

/-! # Lemmas: a program that does none of the six things does not abort -/
namespace Fastroll.Abort
open Fastroll.Pvm Fastroll.Svc
variable {p : Prog} {env : Env}

theorem Visits.trans {σ : Type} {host : Host σ} {vm1 vm2 vm3 : VM} {s1 s2 s3 : σ} (h1 : Visits p host vm1 s1 vm2 s2) (h2 : Visits p host vm2 s2 vm3 s3) :
    Visits p host vm1 s1 vm3 s3 := by
  induction h1 with
  | here => exact h2
  | step hi _ ih => exact .step hi (ih h2)
  | call h1 h2' h3 h4 h5 _ ih => exact .call h1 h2' h3 h4 h5 (ih h2)

theorem runFuel_err {σ : Type} {host : Host σ} (s : σ) (x : Ctx Global) : ∀ (n : Nat) {vm vm' : VM} {e : VmErr}, Laid vm.mem → runFuel p n vm = (some (.error e), vm') →
    ∃ vm1, Visits p host vm s vm1 s ∧ Offends p vm1 x
  | 0, vm, vm', e, L, h => by cases h
  | n + 1, vm, vm', e, L, h => by
    rw [runFuel] at h
    split at h
    · rename_i vm1 hi
      rcases iter_laid (x := x) L hi with ho | L1
      · exact ⟨vm, .here _ _, ho⟩
      · obtain ⟨v, h1, h2⟩ := runFuel_err s x n L1 h
        exact ⟨v, .step hi h1, h2⟩
    · rename_i r' vm1 hi
      cases h
      exact ⟨vm, .here _ _, iter_err L hi⟩

theorem charge_err {vm vm' : VM} {n : Nat} {e : VmErr} (hg : 0 ≤ vm.gas) (h : vm.charge n = (.error e, vm')) : 2 ^ 63 ≤ n := by
  unfold VM.charge at h
  split at h
  · assumption
  split at h
  · omega
  · cases h

theorem applyHost_cases {h : Nat} {vm vm' : VM} {res : HostResult} {r} (L : Laid vm.mem) (hg : 0 ≤ vm.gas) (S : Shape h vm res) (ha : vm.applyHost res = (r, vm')) :
    ((∃ e, r = .error e) ∧ h = 20 ∧ 2 ^ 63 ≤ 10 + (vm.r 9).toNat) ∨ ((∃ post, r = .ok post) ∧ Laid vm'.mem) := by
  have key : ∀ {v v' : VM} {r}, 0 ≤ v.gas → Laid v.mem → v.charge res.charge = (r, v') →
      ((∃ e, r = .error e) ∧ h = 20 ∧ 2 ^ 63 ≤ 10 + (vm.r 9).toNat) ∨ ((∃ post, r = .ok post) ∧ Laid v'.mem) := by
    intro v v' r hv Lv hc
    cases r with
    | ok post => right; exact ⟨⟨post, rfl⟩, by rw [charge_mem hc]; exact Lv⟩
    | error e =>
      left
      have := charge_err hv hc
      rcases S.charge with h10 | ⟨h20, hle⟩
      · omega
      · exact ⟨⟨e, rfl⟩, h20, by omega⟩
  unfold VM.applyHost at ha
  dsimp only at ha
  split at ha
  · exact key (v := { vm with regs := setReg (setReg vm.regs 7 res.r7) 8 res.r8 }) hg L ha
  · rename_i off bs hm
    obtain ⟨m', hw⟩ := write_of_writable L (S.mem off bs hm)
    have Lw := L.write off bs
    rw [hw] at ha Lw
    exact key (v := { vm with regs := _, mem := m' }) hg Lw ha

variable {g : Global} {D : Nat → Prop} {host : Nat}

/-- A run that ends has visited an offending configuration, or ends without an error with its memory in order; if it halts, by an instruction. -/
theorem run_done (O : g.NoOrphans) (fuel : Nat) : ∀ (n : Nat) {vm vm' : VM} {q q' : Pair Boxes} {r}, PairInv g D host q → Good (q.view g) → Ready env (q.view g).x → Laid vm.mem →
    Throughout (accHost mapStore env) (fun p => p.x.p.boxes.InRange) (extTrace p (accHost (boxStore g) env) fuel n vm q) (q.view g) →
    BeforeEach (accHost mapStore env) (CallOk g D) (extTrace p (accHost (boxStore g) env) fuel n vm q) (q.view g) →
    extRun p (accHost (boxStore g) env) fuel n vm q = (.done r, vm', q') →
    (∃ vm1 s1, Visits p (accHost mapStore env) vm (q.view g) vm1 s1 ∧ Offends p vm1 s1.x) ∨
    (Laid vm'.mem ∧ (∀ e, r ≠ .error e) ∧
      (r = .ok .halt → ∃ vm1 s1, Visits p (accHost mapStore env) vm (q.view g) vm1 s1 ∧ Pvm.iter p vm1 = (some (.ok .halt), vm')))
  | 0, vm, vm', q, q', r, I, G, R, L, T, B, h => by cases h
  | n + 1, vm, vm', q, q', r, I, G, R, L, T, B, h => by
    unfold extRun at h
    unfold extTrace at T B
    rcases extIter_eq p (accHost (boxStore g) env) fuel vm q with ⟨c, h1, h2⟩ | ⟨h1, h2⟩
    · rw [h1] at T B
      rw [h2] at h T B
      obtain ⟨e1, e2, e3⟩ := acc_sim O env c.1 c.2 q I G.sx B.here
      unfold nextCall at h1
      split at h1
      rotate_left
      · cases h1
      rename_i hc vm1 hrun
      cases h1
      dsimp only at h T B e1 e2 e3
      obtain ⟨vm0, hi, hv, _⟩ := runFuel_last (host := accHost mapStore env) (q.view g) fuel hrun
      rcases runFuel_laid (host := accHost mapStore env) (q.view g) (q.view g).x fuel L hrun with ⟨v, b1, b2⟩ | L1
      · exact .inl ⟨v, _, b1, b2⟩
      have hgas : 0 ≤ vm1.gas := (((iter_spec p vm0).2 _ _ hi).2.2.1 hc rfl).2
      by_cases hlast : hc = 18 ∧ LastId (q.view g).x
      · obtain ⟨rfl, hl⟩ := hlast
        exact .inl ⟨vm0, _, hv, .last vm1 hi hl⟩
      cases hb : accHost (boxStore g) env hc vm1 q with
      | mk a q1 =>
        have hm : accHost mapStore env hc vm1 (q.view g) = (a, q1.view g) := by
          rw [hb] at e1 e2
          exact Prod.ext e1.symm e2
        cases a with
        | error e => exact absurd hm (acc_err R (fun c hl => hlast ⟨c, hl⟩))
        | ok res =>
          rw [hb] at h e3 T B
          have Sh := acc_shape hm
          cases ha : vm1.applyHost res with
          | mk a' vm2 =>
            rcases applyHost_cases L1 hgas Sh ha with ⟨_, rfl, hgift⟩ | ⟨⟨post, rfl⟩, L2⟩
            · exact .inl ⟨vm0, _, hv, .gift vm1 hi hgift⟩
            · by_cases hcont : res.exit = .cont
              · by_cases hpost : post < 0
                · simp only [afterCall, ha, if_pos hcont, if_pos hpost] at h
                  cases h
                  exact .inr ⟨L2, fun e he => (by cases he), fun he => (by cases he)⟩
                · simp only [afterCall, ha, if_pos hcont, if_neg hpost] at h T B
                  have T1 := T.tail hm
                  have B1 := B.tail hm
                  have G1 : Good (q1.view g) := acc_good G T.here T1.here hm
                  have R1 : Ready env (q1.view g).x := R.keep hm
                  have L3 : Laid ({ vm2 with pc := p.nextPc vm2.pc } : VM).mem := L2
                  have hvis : ∀ {vm3 t}, Visits p (accHost mapStore env) { vm2 with pc := p.nextPc vm2.pc } (q1.view g) vm3 t →
                      Visits p (accHost mapStore env) vm (q.view g) vm3 t := fun hv3 =>
                    hv.trans (.call hi hm hcont ha (by omega) hv3)
                  rcases run_done O fuel n e3 G1 R1 L3 T1 B1 h with ⟨v, t, k1, k2⟩ | ⟨k1, k2, k3⟩
                  · exact .inl ⟨v, t, hvis k1, k2⟩
                  · refine .inr ⟨k1, k2, fun hh => ?_⟩
                    obtain ⟨v, t, k4, k5⟩ := k3 hh
                    exact ⟨v, t, hvis k4, k5⟩
              · have hx : res.exit = .panic ∨ res.exit = .halt ∨ res.exit = .outOfGas := by
                  rcases Sh.exit with hx | hx | hx
                  · exact absurd hx hcont
                  · exact .inl hx
                  · exact .inr (.inr hx)
                simp only [afterCall, ha, if_neg hcont, if_pos hx] at h
                cases h
                refine .inr ⟨L2, fun e he => (by cases he), fun he => ?_⟩
                have hh : res.exit = .halt := by have := Except.ok.inj he; exact this
                rcases Sh.exit with hx | hx | hx <;> rw [hx] at hh <;> cases hh
    · rw [h2] at h
      unfold noCall at h
      cases hrun : runFuel p fuel vm with
      | mk o vm1 =>
        rw [hrun] at h
        cases o with
        | none => cases h
        | some r0 =>
          cases h
          cases r with
          | error e =>
            obtain ⟨v, k1, k2⟩ := runFuel_err (host := accHost mapStore env) (q.view g) (q.view g).x fuel L hrun
            exact .inl ⟨v, _, k1, k2⟩
          | ok ex =>
            rcases runFuel_laid (host := accHost mapStore env) (q.view g) (q.view g).x fuel L hrun with ⟨v, b1, b2⟩ | L1
            · exact .inl ⟨v, _, b1, b2⟩
            · obtain ⟨vm0, hi, hv, _⟩ := runFuel_last (host := accHost mapStore env) (q.view g) fuel hrun
              refine .inr ⟨L1, fun e he => (by cases he), fun he => ?_⟩
              cases he
              exact ⟨vm0, _, hv, hi⟩

end Fastroll.Abort
