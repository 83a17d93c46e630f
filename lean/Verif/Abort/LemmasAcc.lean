import Verif.Abort.LemmasRun
import Verif.Delta.LemmasAcct

/-! # Lemmas: why the accumulation of one service fails -/
namespace Fastroll.Abort
open Fastroll.Pvm Fastroll.Svc Fastroll.Delta
variable {g : Global} {D : Nat → Prop} {env : Env} {mach : Machine}

theorem receive_ok {bs bs1 : Boxes} {s n : Nat} {m : Meta} (H : AllGood g D bs) (hd : D s) (h1 : existsActive g bs s = (true, bs1))
    (hm : (view g bs).metas s = some m) (hn : m.balance + n < U64) :
    ∃ bs2, receive g bs1 s n = some bs2 ∧ view g bs2 = credit (view g bs) s n ∧ Inv g D s bs2 := by
  obtain ⟨k1, k2⟩ := active_alive H h1
  have I : Inv g D s bs := ⟨H, hd, k1⟩
  have s1 := (existsAct_sim I s).2
  rw [h1] at s1
  unfold receive
  split
  · have := add_sim (x := freshCtx s { boxes := bs1, staging := none, authQueue := [], manager := 0, assign := { confirmed := [] }, designate := { confirmed := 0 }, registrar := { confirmed := 0 }, always := [] } 0) s1.2 s1.2 n
    rw [show (freshCtx s _ 0).host = s from rfl] at this
    cases h2 : addBalance (boxStore g) bs1 s n with
    | none =>
      rw [h2] at this
      simp only [addBalance, mapStore, s1.1, hm, if_pos hn, Option.map_some, SimOpt] at this
    | some bs2 =>
      rw [h2] at this
      simp only [addBalance, mapStore, s1.1, hm, if_pos hn, Option.map_some, SimOpt] at this
      refine ⟨bs2, rfl, ?_, this.2⟩
      rw [this.1]
      unfold credit
      rw [hm]; rfl
  · refine ⟨bs1, rfl, ?_, s1.2⟩
    have e : n = 0 := by omega
    subst e
    rw [s1.1]
    unfold credit
    have : upd (view g bs).metas s (((view g bs).metas s).map fun m => { m with balance := m.balance + 0 }) = (view g bs).metas := by
      rw [hm]
      funext t
      simp only [upd]
      split
      · rename_i e; rw [e, hm]; rfl
      · rfl
    rw [this]

theorem code_spec (O : g.NoOrphans) {bs bs3 : Boxes} {s : Nat} {c} (I : Inv g D s bs) (h : accountCode g mach bs s = (c, bs3)) :
    c = .ok none ∨ ∃ m blob, (view g bs).metas s = some m ∧ (view g bs).preimages s m.codeHash = some blob ∧
      ((mach.decode blob = none ∧ c = .error .host) ∨ ∃ code, mach.decode blob = some code ∧ c = .ok (some code)) := by
  unfold accountCode at h
  have s3 := info_sim I s
  generalize getMeta g bs s = q at h s3
  obtain ⟨om, bsa⟩ := q
  cases om with
  | none => cases h; exact .inl rfl
  | some m =>
    simp only at h
    have s4 := getP_sim O s3.2.2 s m.codeHash
    generalize getPreimage g bsa s m.codeHash = q at h s4
    obtain ⟨op, bsb⟩ := q
    cases op with
    | none => cases h; exact .inl rfl
    | some blob =>
      simp only at h
      have hp : (view g bs).preimages s m.codeHash = some blob := by rw [← s3.2.1]; exact s4.1.symm
      refine .inr ⟨m, blob, s3.1.symm, hp, ?_⟩
      split at h
      · rename_i hd; cases h; exact .inl ⟨hd, rfl⟩
      · rename_i code hd; cases h; exact .inr ⟨code, hd, rfl⟩

theorem held_one {a : Global} {n s : Nat} {m : Meta} (H : Held a n) (hs : a.metas s = some m) : m.balance ≤ n := by
  obtain ⟨n1, h1, e1⟩ := total_upd (s := s) (v := none) H
  simp only [hs, wt] at e1
  omega

/-- The preconditions under which nothing but the program can make an accumulation fail. -/
structure Primed (g : Global) (D : Nat → Prop) (env : Env) (u : PState Boxes) (a : AccArgs) : Prop where
  fit : Fit g D u.boxes
  runs : D a.host
  tokens : ∃ n, Held (view g u.boxes) n ∧ n + inFlight a.incoming < U64
  slots : (view g u.boxes).SlotsOk env.slot
  sized : Sized env.par.cores u

theorem ready_fresh {bs : Boxes} {s id : Nat} {u : PState Boxes} (P : Sized env.par.cores u) (I : Inv g D s bs) (hid : Public id ∧ (view g bs).metas id = none)
    (hs : (view g bs).SlotsOk env.slot) {n : Nat} (H : Held (view g bs) n) (hn : n < U64) :
    Ready env ((freshCtx s { u with boxes := bs } id).view g) :=
  ⟨I.alive, hs, ⟨n, ⟨n, H, by simp [freshCtx, Ctx.view, inFlight]⟩, hn⟩, hid, P.same rfl⟩

theorem accumulate_blame (hg : Healthy g) (hD : ∀ s, g.metas s = none → D s) (hl : LaidOut mach) {u : PState Boxes} {a : AccArgs} (P : Primed g D env u a)
    (C : ∀ q cs, opening g env mach u a = some (q, cs) →
      Throughout (accHost mapStore env) (fun p => p.x.p.boxes.InRange) cs (q.view g) ∧ BeforeEach (accHost mapStore env) (CallOk g D) cs (q.view g))
    {e : VmErr} (h : accumulate g env mach u a = .error e) : Blame g env mach u a := by
  have O := hg.sound.orphans
  obtain ⟨n0, H, hn0⟩ := P.tokens
  have hin : received a.incoming = inFlight a.incoming := Nat.mod_eq_of_lt (show inFlight a.incoming < U64 by omega)
  unfold accumulate at h
  cases h1 : existsActive g u.boxes a.host with
  | mk ex bs1 =>
    rw [h1] at h
    cases ex with
    | false => cases h
    | true =>
      obtain ⟨k1, k2⟩ := active_alive P.fit.good h1
      obtain ⟨m, hm⟩ := Option.isSome_iff_exists.1 k1
      have hb := held_one H hm
      obtain ⟨bs2, h2, v2, I2⟩ := receive_ok (n := received a.incoming) P.fit.good P.runs h1 hm (by omega)
      simp only [h2] at h
      cases h3 : accountCode g mach bs2 a.host with
      | mk c bs3 =>
        rw [h3] at h
        have S3 := code_spec O I2 h3
        have hcm : ∀ {m' : Meta}, (view g bs2).metas a.host = some m' → m'.codeHash = m.codeHash := by
          intro m' hm'
          rw [v2] at hm'
          simp only [credit, upd, if_true, hm, Option.map_some, Option.some.injEq] at hm'
          rw [← hm']
        have hcp : ∀ k, (view g bs2).preimages a.host k = (view g u.boxes).preimages a.host k := by
          intro k; rw [v2]; rfl
        rcases S3 with rfl | ⟨m', blob, hm', hp, hdec⟩
        · cases h
        rw [hcm hm', hcp] at hp
        rcases hdec with ⟨hdec, rfl⟩ | ⟨code, hdec, rfl⟩
        · exact .decode m blob hm hp hdec
        simp only at h
        split at h
        · cases h
        rename_i hcode
        obtain ⟨v3, I3, b3⟩ := prepare O P.fit.good P.runs h1 h2 h3
        cases h4 : initialId (boxStore g) bs3 a.seed with
        | none =>
          refine .crowded fun id hid => ?_
          unfold initialId checkId at h4
          have hs : checkLoop (boxStore g) bs3 RING (a.seed % RING + MIN_ID) = checkLoop mapStore (view g bs3) RING (a.seed % RING + MIN_ID) :=
            checkLoop_sim (x := freshCtx a.host { u with boxes := bs3 } 0) I3 I3 _ _
          rw [hs] at h4
          have := initial_none (a := view g bs3) (seed := a.seed) h4 id hid
          intro hn
          apply this
          rw [v3]
          simp only [credit, upd]
          split
          · rename_i e; rw [e] at hn; rw [hn] at hm; cases hm
          · exact hn
        | some id =>
          cases h5 : mach.load code with
          | none => exact .load m blob code hm hp hdec h5
          | some pr =>
            obtain ⟨prog, init⟩ := pr
            rw [h4, h5] at h
            simp only at h
            have hop : opening g env mach u a = some ({ x := freshCtx a.host { u with boxes := bs3 } id, y := freshCtx a.host { u with boxes := bs3 } id },
                callsOf prog g env a.gasLimit init { x := freshCtx a.host { u with boxes := bs3 } id, y := freshCtx a.host { u with boxes := bs3 } id }) := by
              unfold opening
              rw [h1]
              simp only [h2, Option.bind_some, h3, if_neg (show ¬ code.length > 4000000 from hcode), h4, h5]
              cases init <;> rfl
            obtain ⟨T, B⟩ := C _ _ hop
            generalize hq : ({ x := freshCtx a.host { u with boxes := bs3 } id, y := freshCtx a.host { u with boxes := bs3 } id } : Pair Boxes) = q at h hop T B
            cases init with
            | none => cases h
            | some vm =>
              have L : Laid vm.mem := hl code prog vm h5
              have hid := initial_free I3 h4
              have Hc : Held (view g bs3) (n0 + inFlight a.incoming) := by
                rw [v3, hin]; exact credit_held k1 H
              have R : Ready env (q.view g).x := by
                rw [← hq]
                refine ready_fresh P.sized I3 hid ?_ Hc hn0
                rw [v3]; exact P.slots
              have I : PairInv g D a.host q := by rw [← hq]; exact ⟨I3, I3, rfl, rfl⟩
              have Sd : (view g bs3).Sound := by
                have : ∀ t, OkAt (view g bs3) t := by rw [v3]; exact credit_ok P.fit.ok
                exact (healthy_iff.2 this).sound
              have G : Good (q.view g) := by rw [← hq]; exact ⟨Sd, Sd, I3.alive, I3.alive⟩
              have prog_blame : ∀ {v s}, Visits prog (accHost mapStore env) { vm with pc := 5, gas := asI64 a.gasLimit } (q.view g) v s → Offends prog v s.x → Blame g env mach u a :=
                fun hv ho => .program m blob code prog vm _ q _ _ hm hp hdec h5 hop hv ho
              unfold invokeWithArgs at h
              simp only at h
              simp only [callsOf] at T B
              have fin := (C12_host_calls_terminate prog (accHost (boxStore g) env) { vm with pc := 5, gas := asI64 a.gasLimit } q).1
              simp only at fin
              obtain ⟨r, fin⟩ := fin
              generalize hrun : extRun prog (accHost (boxStore g) env) ((asI64 a.gasLimit).toNat + 1) ((asI64 a.gasLimit).toNat + 1) { vm with pc := 5, gas := asI64 a.gasLimit } q = out at h fin
              obtain ⟨o, vm', q'⟩ := out
              simp only at fin
              subst fin
              rcases run_done O _ _ I G R (show Laid ({ vm with pc := 5, gas := asI64 a.gasLimit } : VM).mem from L) T B hrun with ⟨v, s, k1, k2⟩ | ⟨L', hne, hhalt⟩
              · exact prog_blame k1 k2
              · cases r with
                | error e' => exact absurd rfl (hne e')
                | ok ex =>
                  simp only at h
                  split at h
                  rotate_left
                  · cases h
                  rename_i hinv
                  split at hinv
                  · cases hinv
                  · split at hinv
                    · rename_i hx
                      subst hx
                      obtain ⟨v, s, j1, j2⟩ := hhalt rfl
                      split at hinv
                      · rename_i hr7
                        exact prog_blame j1 (.exit vm' j2 hr7)
                      · split at hinv
                        · cases hinv
                        · rename_i hread
                          obtain ⟨bs, hbs⟩ := read_of_readable L' (by simpa using hread)
                          rw [hbs] at hinv
                          cases hinv
                    · cases hinv

end Fastroll.Abort
