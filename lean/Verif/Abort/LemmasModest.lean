import Verif.Abort.LemmasBlock
import Verif.Delta.LemmasQuiet
import Verif.Pvm.PropsLayout

/-! # Lemmas: modest programs are tame, the loader lays memory out, broken code -/
namespace Fastroll.Abort
open Fastroll.Pvm Fastroll.Svc Fastroll.Delta

theorem opening_modest {g : Global} {D : Nat → Prop} {env : Env} {mach : Machine} {u : PState Boxes} {a : AccArgs}
    (hM : ∀ code p init, mach.load code = some (p, init) → Modest p) (O : g.NoOrphans) (F : Fit g D u.boxes) (hd : D a.host)
    (ha : Alive g u.boxes a.host) {q : Pair Boxes} {cs : List (Nat × VM)} (ho : opening g env mach u a = some (q, cs)) :
    Throughout (accHost mapStore env) (fun p => p.x.p.boxes.InRange) cs (q.view g) ∧ BeforeEach (accHost mapStore env) (CallOk g D) cs (q.view g) := by
  rw [← existsActive_alive] at ha
  obtain ⟨b1, h1⟩ : ∃ b1, existsActive g u.boxes a.host = (true, b1) := ⟨_, by rw [← ha]⟩
  unfold opening at ho
  rw [h1] at ho
  simp only [Option.bind_eq_some_iff] at ho
  obtain ⟨bs2, h2, ho⟩ := ho
  split at ho
  · rename_i code bs3 h3
    split at ho
    · cases ho
    · split at ho
      · rename_i id prog init e1 e2
        simp only [Option.some.injEq, Prod.mk.injEq] at ho
        obtain ⟨hq, hc⟩ := ho
        obtain ⟨v3, _, _⟩ := prepare O F.good hd h1 h2 h3
        have ok3 : ∀ s, OkAt (view g bs3) s := by rw [v3]; exact credit_ok F.ok
        refine careful_of_quiet ?_ ?_
        · rw [← hc]
          cases init with
          | none => intro c hc; cases hc
          | some vm => exact trace_quiet (hM _ _ _ e2) _
        · rw [← hq]; exact (healthy_iff.2 ok3).range
      · cases ho
  · cases ho

variable {W : World} {K : Consts} {χ : Chi} {queues : List (List Bytes)} {reports : List Acc.Report} {staging : List Bytes}

theorem leads_fit (hg : Healthy W.g) (hM : ∀ code p init, W.mach.load code = some (p, init) → Modest p) :
    ∀ {Rs : List Delta.Round} {u v : PState Boxes} {ts us : List Transfer} {n0 : Nat}, Leads u ts Rs v us → (∀ R ∈ Rs, R.Faithful W) →
    Fit W.g (fun _ => True) u.boxes → Held (view W.g u.boxes) n0 → n0 + inFlight ts < U64 → Fit W.g (fun _ => True) v.boxes
  | [], _, _, _, _, _, h, _, F, _, _ => h.1 ▸ F
  | R :: Rs, u, v, ts, us, n0, h, Fa, F, H, hn => by
    obtain ⟨h1, h2, h3⟩ := h
    subst h1 h2
    have m := List.mem_cons_self (a := R) (l := Rs)
    have C : R.Careful W (fun _ => True) := fun r hr q cs ho =>
      opening_careful hM hg.sound.orphans F trivial ((Fa R m).run r hr).2 ho
    obtain ⟨k1, k2⟩ := round_ok hg (fun _ _ => trivial) (fun _ _ => trivial) (Fa R m) C F H (by omega)
    obtain ⟨n1, l1, l2⟩ := k1.tokens (Fa R m) H
    exact leads_fit hg hM h3 (fun R hR => Fa R (List.mem_cons_of_mem _ hR)) k2 l1 (by omega)

theorem modest_tame (hg : Healthy W.g) (ht : ∃ n, Held W.g n ∧ n < U64) (hM : ∀ code p init, W.mach.load code = some (p, init) → Modest p) :
    Tame W (fun _ => True) χ queues reports := by
  intro Rs R hF up s due
  obtain ⟨n, H, hn⟩ := ht
  have F := leads_fit hg hM up.leads hF (fit_start hg) (n0 := n) (by exact H) (by simpa [inFlight] using hn)
  exact ⟨trivial, fun q cs ho => opening_modest hM hg.sound.orphans F trivial due.2 ho⟩

/-- The loader lays memory out. -/
theorem laid_init (p : FProg) (args : List UInt8) (hv : p.sizeValid = true) (ha : args.length ≤ 16777216)
    (ho : p.staticData.length = p.staticSize) (hh : p.heapData.length = p.heapSize) :
    ∃ m, initMemory p args = .ok m ∧ Laid m := by
  obtain ⟨m', e', hinv⟩ := C14_heap_invariant p args hv ha ho hh
  have hf := fits_of_valid p args.length hv ha
  obtain ⟨h1, h2, h3, h4⟩ := new_abs (2 ^ 32) PAGE ZONE (by decide) ⟨2 ^ 20, by decide⟩
  obtain ⟨m, e, wf, hd, hl, hps, hz, hs, he, hst⟩ := setup_ok p args hf ho hh (Mem.new (2 ^ 32) PAGE ZONE) h1 h4 rfl rfl h2 h3
  have emm : m' = m := by
    rw [init_eq p args hv ha] at e'
    exact Except.ok.inj (e'.symm.trans e)
  subst emm
  have hsep := theRegions_separate hf
  generalize theRegions p args.length = r at *
  unfold Regions.Separate at hsep
  refine ⟨m', e', hinv, ?_, by omega, by rw [hps, hz]; decide, by omega⟩
  intro x hx
  have hg : m'.abs.perm x = .inaccessible := by
    apply hd.other <;> (unfold Region.Has; omega)
  simp only [Mem.abs, hps] at hg
  rw [if_pos (by omega)] at hg
  have hlt : x / 4096 < m'.acc.length := by
    have := (WF.lt_iff wf x).mp (by omega)
    rwa [hps] at this
  rw [hps]
  rw [List.getD_eq_getElem?_getD, List.getElem?_eq_getElem hlt] at hg
  rw [List.getElem?_eq_getElem hlt]
  exact congrArg some hg

theorem broken_fails {g : Global} {env : Env} {mach : Machine} {u : PState Boxes} {s : Nat} {a : AccArgs} (hs : a.host = s) (hb : u.boxes = []) (hi : a.incoming = [])
    (hbr : Broken g mach s) : ∃ e, accumulate g env mach u a = .error e := by
  obtain ⟨m, blob, hm, hp, hbr⟩ := hbr
  have e1 : existsActive g u.boxes a.host = (true, [(s, Box.fromClean m)]) := by
    rw [hb, hs]; simp [existsActive, ensure, boxGet, boxSet, hm, Box.fromClean, Entry.fromClean]
  have e2 : receive g [(s, Box.fromClean m)] a.host (received a.incoming) = some [(s, Box.fromClean m)] := by
    rw [hi]; rfl
  have e3 : ∃ bs, accountCode g mach [(s, Box.fromClean m)] a.host = (match mach.decode blob with | none => .error .host | some c => .ok (some c), bs) := by
    have k1 : getMeta g [(s, Box.fromClean m)] s = (some m, [(s, Box.fromClean m)]) := by
      simp [getMeta, ensure, boxGet, Box.fromClean, Entry.fromClean]
    have k2 : (getPreimage g [(s, Box.fromClean m)] s m.codeHash).1 = some blob := by
      simp [getPreimage, ensure, boxGet, Box.fromClean, getEntry, loadEntry, hp, Entry.fromClean]
    rw [hs]
    unfold accountCode
    rw [k1]
    dsimp only
    generalize getPreimage g [(s, Box.fromClean m)] s m.codeHash = q at k2
    obtain ⟨o, bs⟩ := q
    cases k2
    dsimp only
    cases mach.decode blob <;> exact ⟨bs, rfl⟩
  obtain ⟨bs, e3⟩ := e3
  unfold accumulate
  rw [e1]
  simp only [e2, e3]
  rcases hbr with h | ⟨code, h1, h2, h3⟩
  · rw [h]; exact ⟨_, rfl⟩
  · rw [h1]
    dsimp only
    rw [if_neg (show ¬ code.length > MAX_CODE from Nat.not_lt.2 h2), h3]
    cases initialId (boxStore g) bs a.seed <;> exact ⟨_, rfl⟩

theorem broken_no_round {R : Delta.Round} {s : Nat} (F : R.Faithful W) (hb : R.start.boxes = []) (hd : R.delivered = []) (hbr : Broken W.g W.mach s)
    (hs : R.Called s ∨ R.Privileged s) : False := by
  obtain ⟨m, blob, hm, _⟩ := id hbr
  have ha : Alive W.g R.start.boxes s := by rw [hb]; show (W.g.metas s).isSome; rw [hm]; rfl
  obtain ⟨r, hr, hrs⟩ := List.mem_map.1 ((F.who s).2 ⟨hs, ha⟩)
  obtain ⟨e, he⟩ := broken_fails (env := W.env r.host R.delivered R.reports) (u := R.start)
    (a := { host := r.host, gasLimit := R.limit r.host, incoming := R.delivered.filter fun t => t.dst == r.host, seed := W.seed r.host }) hrs hb
    (by show R.delivered.filter _ = []; rw [hd]; rfl) hbr
  rw [(F.run r hr).2] at he
  cases he

end Fastroll.Abort
