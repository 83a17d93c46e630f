import Verif.Abort.Ex

/-! # Properties: why the accumulation of a block fails (C73) -/
namespace Fastroll.Abort
open Fastroll.Pvm Fastroll.Svc Fastroll.Delta

variable {W : World} {D : Nat → Prop} {K : Consts} {χ : Chi} {queues : List (List Bytes)} {reports : List Acc.Report} {staging : List Bytes}

/-- **C73**: in an accumulation whose service exists, in whose accounts requests have at most three slots in
order and fewer than `2^64` tokens exist, no host call fails with an error, whatever the program passes it,
except `new` when no identifier is left for the account after the next. -/
theorem C73_host_calls {env : Env} {h : Nat} {vm : VM} {q q' : Pair Global} {r : Except VmErr HostResult} (R : Ready env q.x) (hl : h = 18 → ¬ LastId q.x)
    (hr : accHost mapStore env h vm q = (r, q')) : ∃ res, r = .ok res := by
  cases r with
  | ok res => exact ⟨res, rfl⟩
  | error e => exact absurd hr (acc_err R hl)

/-- Service 6 of the example may call what it likes but `new`. -/
example (h : Nat) (h18 : h ≠ 18) (vm : VM) : ∃ res, (accHost mapStore Svc.Ex.env h vm Ex.pair).1 = .ok res :=
  C73_host_calls (q' := (accHost mapStore Svc.Ex.env h vm Ex.pair).2) Ex.ready (fun e => absurd e h18) rfl

/-- **C73**: if the accumulation of a service on the committed accounts fails with an error, its code does not
decode or load, or no identifier is free, or the program it runs offends: it gets to a point where it loads or
stores past the end of memory, asks for more heap than there is, has run up a debt of gas beyond `-2^63`, offers
`2^63 - 10` units of gas or more with a transfer, makes an account when no identifier is left after it, or halts
with a register 7 that is no address. -/
theorem C73_service {g : Global} {env : Env} {mach : Machine} {u : PState Boxes} {a : AccArgs} {n : Nat} {e : VmErr} (hg : Healthy g) (hl : LaidOut mach)
    (hb : u.boxes = []) (hD : ∀ s, g.metas s = none → D s) (hd : D a.host) (ht : Held g n) (hn : n + inFlight a.incoming < 2 ^ 64) (hs : g.SlotsOk env.slot)
    (hz : Sized env.par.cores u)
    (hc : ∀ q cs, opening g env mach u a = some (q, cs) →
      Throughout (accHost mapStore env) (fun p => p.x.p.boxes.InRange) cs (q.view g) ∧ BeforeEach (accHost mapStore env) (CallOk g D) cs (q.view g))
    (h : accumulate g env mach u a = .error e) : Blame g env mach u a := by
  have F : Fit g D u.boxes := by rw [hb]; exact fit_start hg
  exact accumulate_blame hg hD hl ⟨F, hd, ⟨n, by rw [hb]; exact ht, hn⟩, by rw [hb]; exact hs, hz⟩ hc h

example : Blame Delta.ExA.g Svc.Ex.env (Ex.machine 1) (start Ex.χ [[], []]) Ex.args6 :=
  C73_service (D := fun _ => True) (e := .tooLargeGas) Delta.ExA.healthy (Ex.laidOut 1) rfl (fun _ _ => trivial) trivial Delta.ExA.held (by decide) Ex.slots
    ⟨rfl, nofun, nofun⟩ (fun q cs ho => opening_modest (Ex.modest 1 (by decide)) Delta.ExA.sound.orphans (u := start Ex.χ [[], []]) (a := Ex.args6) (fit_start Delta.ExA.healthy) trivial (show (Delta.ExA.g.metas 6).isSome from rfl) ho)
    Ex.fails

/-- **C73**: if the accumulation of a block fails with an error, then after some faithful rounds of it there
comes a round in which the always-accumulate services ask for more gas than fits, or a service that is due is to
blame, or two services that ran to their ends create or eject the same account. Nothing else makes it fail. -/
theorem C73_causes (G : Given W K χ) (hD : ∀ s, W.g.metas s = none → D s) (T : Tame W D χ queues reports) {e : Delta.Err}
    (h : block W K χ queues staging reports = .error e) :
    ∃ Rs R, (∀ R' ∈ Rs, R'.Faithful W) ∧ Upcoming χ queues reports Rs R ∧ Cause W R e := by
  have hf : e ≠ .fuel := fun c => C70_rounds_end (staging := staging) G.total (c ▸ h)
  unfold block at h
  split at h
  · rename_i e' he
    cases h
    exact loop_cause G rfl hD T hf _ _ _ (stage_start G) he
  · cases h

example : ∃ (Rs : List Delta.Round) (R : Delta.Round), (∀ R' ∈ Rs, R'.Faithful (Ex.W 2)) ∧ Upcoming Ex.χ [[], []] Ex.reports Rs R ∧ Cause (Ex.W 2) R (.service (.mem .sbrkHeapStackCollision)) :=
  C73_causes (staging := []) (Ex.given 2) (fun _ _ => trivial) (Ex.tame 2 (by decide)) (Ex.ends_eq (by decide +kernel))

/-- **C73**: for programs that do not call `write`, `new`, `eject`, `solicit` or `forget`, which can be read off
their code, nothing need be assumed about what they do. -/
theorem C73_modest (G : Given W K χ) (hM : ∀ code p init, W.mach.load code = some (p, init) → Modest p) {e : Delta.Err}
    (h : block W K χ queues staging reports = .error e) :
    ∃ Rs R, (∀ R' ∈ Rs, R'.Faithful W) ∧ Upcoming χ queues reports Rs R ∧ Cause W R e :=
  C73_causes G (fun _ _ => trivial) (modest_tame G.healthy G.tokens hM) h

example : ∃ (Rs : List Delta.Round) (R : Delta.Round), (∀ R' ∈ Rs, R'.Faithful (Ex.W 3)) ∧ Upcoming Ex.χ [[], []] Ex.reports Rs R ∧ Cause (Ex.W 3) R (.service (.mem (.outOfRange 1022))) :=
  C73_modest (staging := []) (Ex.given 3) (Ex.modest 3 (by decide)) (Ex.ends_eq (by decide +kernel))

/-- **C73**: the memory that the loader makes is laid out as assumed. -/
theorem C73_loader (p : FProg) (args : List UInt8) (hv : p.sizeValid = true) (ha : args.length ≤ 16777216)
    (ho : p.staticData.length = p.staticSize) (hh : p.heapData.length = p.heapSize) : ∃ m, initMemory p args = .ok m ∧ Laid m :=
  laid_init p args hv ha ho hh

example : ∃ m, initMemory demoProg [1, 2] = .ok m ∧ Laid m :=
  C73_loader demoProg [1, 2] (by decide) (by decide) List.length_replicate rfl

/-! ## What a service can do to the chain -/

/-- **C73, a defect**: a service that accumulates always or has a privilege and whose code cannot be run stops
accumulation. A block is then accumulated only if there is nothing at all to accumulate. -/
theorem C73_broken_code_stops {s : Nat} {out : Summary} (hK : K.total < 2 ^ 64) (hb : Broken W.g W.mach s)
    (hs : (∃ gas, (s, gas) ∈ χ.always) ∨ s ∈ χ.assign ∨ s = χ.registrar ∨ s = χ.designate ∨ s = χ.manager)
    (h : block W K χ queues staging reports = .ok out) :
    χ.always = [] ∧ out.gasPairs = [] ∧ out.boxes = [] ∧ ∀ r ∈ reports.head?, Acc.blockGas K.total K.perCore K.cores χ.always < Acc.totalGas [r] := by
  obtain ⟨Rs, v, h1, h2, h3, h4, h5, h6, _, _, h9, _⟩ := C70_trace hK h
  cases Rs with
  | nil => exact ⟨h3, h6, by rw [h9, ← h2.1]; rfl, h4.2⟩
  | cons R Rs =>
    obtain ⟨e1, e2, _⟩ := h2
    refine (broken_no_round (h1 R (List.mem_cons_self ..)) (by rw [e1]; rfl) e2 hb ?_).elim
    rcases hs with ⟨gas, k⟩ | k
    · exact .inl (.inr (.inr ⟨_, by rw [h3.1]; exact k, rfl⟩))
    · refine .inr ?_
      unfold Round.Privileged
      rw [e1]; exact k

/-- Whatever the reports, no block is accumulated. -/
example (K : Consts) (hK : K.total < 2 ^ 64) (queues : List (List Bytes)) (staging : List Bytes) (reports : List Acc.Report) (out : Summary) :
    block { Ex.W 0 with g := Ex.gBroken } K { Ex.χ with always := [(6, 40)] } queues staging reports ≠ .ok out := by
  intro h
  have hb : Broken Ex.gBroken (Ex.machine 0) 6 := ⟨_, [6, 6, 6], rfl, by decide, .inr ⟨_, rfl, by decide, rfl⟩⟩
  exact absurd (C73_broken_code_stops (s := 6) hK hb (.inl ⟨40, by simp⟩) h).1 (by simp)

/-- **C73, a defect**: any service ends the run with an error by a transfer that it can pay for and that offers
`2^63 - 10` units of gas or more, although it does not have that gas. -/
theorem C73_gift_aborts {env : Env} {p : Prog} {vm vm' : VM} {q : Pair Global} {dm am : Meta} (hi : Pvm.iter p vm = (some (.ok (.hostCall 20)), vm'))
    (hg : 10 ≤ vm'.gas) (h9 : 2 ^ 63 ≤ 10 + (vm'.r 9).toNat) (h10 : (vm'.r 10).toNat < 2 ^ 32) (hm : (readMem vm' (vm'.r 10).toNat env.par.memo).isSome)
    (h7 : (vm'.r 7).toNat < 2 ^ 32) (hd : q.x.p.boxes.metas (vm'.r 7).toNat = some dm) (hh : q.x.p.boxes.metas q.x.host = some am)
    (hx : dm.gasXfer ≤ (vm'.r 9).toNat) (hb : (vm'.r 8).toNat ≤ am.balance) (ht : am.threshold ≤ am.balance - (vm'.r 8).toNat) (n k : Nat) :
    (extRun p (accHost mapStore env) (n + 1) (k + 1) vm q).1 = .done (.error .tooLargeGas) := by
  obtain ⟨memo, hm⟩ := Option.isSome_iff_exists.1 hm
  have hu : ∀ i, (vm'.r i).toNat < 2 ^ 32 → u32? vm' i = some (vm'.r i).toNat := fun i hi => if_pos hi
  have key : ∃ res x, hostTransfer mapStore env vm' q.x = (.ok res, x) ∧ 2 ^ 63 ≤ res.charge ∧ res.mem = none ∧ (res.exit = .cont ∨ res.exit = .outOfGas) := by
    have e0 : noGas vm' = false := decide_eq_false (Int.not_lt.2 hg)
    have e1 : ¬ (am.balance < VM.n vm' 8 ∨ am.balance - VM.n vm' 8 < am.threshold) := by unfold VM.n; omega
    have hc : 2 ^ 63 ≤ min (BASE_GAS + VM.n vm' 9) (U64 - 1) := by
      have : 2 ^ 63 ≤ BASE_GAS + VM.n vm' 9 := h9
      have : 2 ^ 63 ≤ U64 - 1 := by decide
      omega
    unfold hostTransfer
    rw [e0, hu 10 h10, hu 7 h7]
    simp only [hm, mapStore, hd, hh, Bool.false_eq_true, if_false]
    rw [if_neg (show ¬ VM.n vm' 9 < dm.gasXfer from Nat.not_lt.2 hx), if_neg e1]
    split
    · exact ⟨_, _, rfl, hc, rfl, .inr rfl⟩
    · have e2 : VM.n vm' 8 ≤ am.balance := hb
      simp only [subBalance, hh, e2, if_true]
      exact ⟨_, _, rfl, hc, rfl, .inl rfl⟩
  obtain ⟨res, x, k1, k2, k3, k4⟩ := key
  have e1 : accHost mapStore env 20 vm' q = (.ok res, { q with x := x }) := by
    show (match hostTransfer mapStore env vm' q.x with | (r, x) => (r, { q with x := x })) = _
    rw [k1]
  have e2 : ∃ v, vm'.applyHost res = (.error .tooLargeGas, v) := by
    unfold VM.applyHost
    rw [k3]
    dsimp only
    unfold VM.charge
    rw [if_pos k2]; exact ⟨_, rfl⟩
  obtain ⟨v, e2⟩ := e2
  have e3 : extIter p (accHost mapStore env) (n + 1) vm q = (.done (.error .tooLargeGas), v, { q with x := x }) := by
    unfold extIter runFuel
    rw [hi]
    dsimp only
    rw [e1]
    dsimp only
    rw [e2]
    rcases k4 with k | k <;> simp [k]
  unfold extRun
  rw [e3]

example (k : Nat) : (extRun (Ex.the 1) (accHost mapStore Svc.Ex.env) 1 (k + 1) { (Ex.text 1).2 with pc := 5, gas := 100 } Ex.pair).1 = .done (.error .tooLargeGas) :=
  C73_gift_aborts (vm' := (Pvm.iter (Ex.the 1) { (Ex.text 1).2 with pc := 5, gas := 100 }).2) (dm := { ExM.metaN 5 with items := 2, octets := 82 })
    (am := { ExM.metaN 6 with items := 2, octets := 82 }) (by decide +kernel) (by decide +kernel) (by decide +kernel) (by decide +kernel) (by decide +kernel) (by decide +kernel)
    (by decide +kernel) (by decide +kernel) (by decide +kernel) (by decide +kernel) (by decide +kernel) 0 k

/-- **C73, a defect**: programs of a service without privileges, with 100 units of gas, each of which makes the
accumulation of the whole block fail. In turn they send 5 tokens with `2^63` units of gas, ask for 256 octets of heap where
there are 256, load four octets of which two are past the end of memory, and halt with `2^32` in register 7. In
the protocol none of this is more than a panic or the end of that service's run. -/
theorem C73_aborts_partial : [1, 2, 3, 4].map Ex.ends =
    [some (.service .tooLargeGas), some (.service (.mem .sbrkHeapStackCollision)), some (.service (.mem (.outOfRange 1022))), some (.service .regVal)] := by
  decide +kernel

/-- Their harmless relatives: 10 units of gas, 255 octets, register 7 zero. -/
example : [7, 5, 0].map Ex.ends = [none, none, none] := by decide +kernel

/-- **C73, a defect**: the gas limit `2^63`, which the manager can give an always-accumulate service, makes every
block fail: as a signed number it is the least, and the first instruction's gas cannot be taken off it. -/
theorem C73_debt_partial : (match block (Ex.W 0) Delta.Ex.K { Ex.χ with always := [(6, 2 ^ 63)] } [[], []] [] [] with
    | .ok _ => none
    | .error e => some e) = some (.service .gasOverflow) := by decide +kernel

end Fastroll.Abort
