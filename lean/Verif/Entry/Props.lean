import Verif.Entry.Lemmas2
import Verif.Fetch.Props
/-!
# C61: how programs are invoked
-/
namespace Fastroll.Entry
open Fastroll.Codec Fastroll.Pvm Fastroll.Svc
open Fastroll.Wire (WorkPackage WorkItem WorkResult)
open Fastroll.Wr (Out RefineRes)

/-! ## Host calls -/

/-- An unknown or unavailable host call costs ten units of gas, puts `2^64 - 2` in register 7 and changes
nothing else. -/
theorem C61_what : ret WHAT = { exit := .cont, charge := 10, r7 := some (BitVec.ofNat 64 (2 ^ 64 - 2)), r8 := none, mem := none } := rfl

/-- **C61.** In each of the three invocations, every octet that is the number of one of its host calls runs that
function; every other octet but 100 answers `WHAT` and leaves the context alone. -/
theorem C61_table {σ : Type} (kind : Kind) (fns : Nat → VM → σ → Refine.Out × σ) (h : Nat) (hh : h < 256) (vm : VM) (s : σ) :
    (h ∈ Paper.calls kind → execute kind fns h vm s = fns h vm s) ∧
    (h ∉ Paper.calls kind → h ≠ 100 → execute kind fns h vm s = (.ok (ret WHAT), s)) ∧
    (h = 100 → execute kind fns h vm s = fns 100 vm s) := by
  have key : ∀ (k : Fin 3) (n : Fin 256),
      let kd := if k = 0 then Kind.authorize else if k = 1 then Kind.refine else Kind.accumulate
      (n.1 ∈ Paper.calls kd → allowed kd (Refine.hostNumber n.1) = true ∧ Refine.hostNumber n.1 = n.1) ∧
      (n.1 ∉ Paper.calls kd → n.1 ≠ 100 → allowed kd (Refine.hostNumber n.1) = false) := by decide +kernel
  have k3 : (h ∈ Paper.calls kind → allowed kind (Refine.hostNumber h) = true ∧ Refine.hostNumber h = h) ∧
      (h ∉ Paper.calls kind → h ≠ 100 → allowed kind (Refine.hostNumber h) = false) := by
    cases kind with
    | authorize => exact key 0 ⟨h, hh⟩
    | refine => exact key 1 ⟨h, hh⟩
    | accumulate => exact key 2 ⟨h, hh⟩
  unfold execute
  refine ⟨fun a => ?_, fun a b => ?_, fun e => ?_⟩
  · rw [if_pos (k3.1 a).1, (k3.1 a).2]
  · rw [k3.2 a b]; rfl
  · subst e; cases kind <;> rfl

example : execute .refine (fun n _ (s : Nat) => (.ok (ret n), s + 1)) 13 ⟨[], Mem.new 0 1 0, 0, 0⟩ 5 = (.ok (ret 13), 6) ∧
    execute .refine (fun n _ (s : Nat) => (.ok (ret n), s + 1)) 14 ⟨[], Mem.new 0 1 0, 0, 0⟩ 5 = (.ok (ret WHAT), 5) :=
  ⟨(C61_table .refine _ 13 (by decide) _ _).1 (by decide), (C61_table .refine _ 14 (by decide) _ _).2.1 (by decide) (by decide)⟩

/-- In refinement and authorization the debug call 100 answers like an unknown one: so every octet outside the
paper's list does. -/
theorem C61_unknown (h : Nat) (hh : h < 256) (vm : VM) (k : Fetch.Consts) (a : Fetch.RefineArgs) (env : Refine.REnv)
    (x : Refine.RCtx) (p : WorkPackage) :
    (h ∉ Paper.calls .refine → execute .refine (refineFns k a env) h vm x = (.ok (ret WHAT), x)) ∧
    (h ∉ Paper.calls .authorize → execute .authorize (authFns k p) h vm () = (.ok (ret WHAT), ())) := by
  refine ⟨fun hn => ?_, fun hn => ?_⟩
  · by_cases e : h = 100
    · subst e
      rw [(C61_table .refine _ 100 hh vm x).2.2 rfl]; rfl
    · exact (C61_table .refine _ h hh vm x).2.1 hn e
  · by_cases e : h = 100
    · subst e
      rw [(C61_table .authorize _ 100 hh vm ()).2.2 rfl]; rfl
    · exact (C61_table .authorize _ h hh vm ()).2.1 hn e

example (vm : VM) (p : WorkPackage) :
    execute .authorize (authFns Fetch.exConsts p) 16 vm () = (.ok (ret WHAT), ()) :=
  (C61_unknown 16 (by decide) vm Fetch.exConsts Fetch.exArgs ⟨⟨fun _ => none, fun _ _ => none, fun _ _ => none, fun _ _ => none⟩, 0, 0, 0⟩ {} p).2 (by decide)

/-! ## Standard programs -/

/-- **C61.** A blob is accepted as a standard program exactly when it is the paper's layout of some parts, and then
the parts read are these. -/
theorem C61_standard (blob : Bytes) (s : Std) :
    fromStandard blob = some s ↔ ∃ p : Paper.Parts, p.Ok ∧ blob = p.layout ∧
      s.fp = p.sizes ∧ s.code = p.code := by
  rw [fromStandard_iff]
  constructor
  · rintro ⟨p, h1, h2, rfl⟩; exact ⟨p, h1, h2, rfl, rfl⟩
  · rintro ⟨p, h1, h2, h3, h4⟩
    refine ⟨p, h1, h2, ?_⟩
    cases s
    simp only at h3 h4
    subst h3; subst h4
    rfl

/-- The layout determines the parts. -/
theorem C61_unambiguous (p q : Paper.Parts) (hp : p.Ok) (hq : q.Ok) (h : p.layout = q.layout) : p = q := by
  have h1 := (fromStandard_iff p.layout (stdOf p)).mpr ⟨p, hp, rfl, rfl⟩
  have h2 := (fromStandard_iff p.layout (stdOf q)).mpr ⟨q, hq, h, rfl⟩
  rw [h1] at h2
  injection h2 with e
  have e' := congrArg Std.parts e
  cases p; cases q
  exact e'

/-- A program whose read-only data are two octets, with one of read-write data, three extra pages, a stack of 4096,
and code that jumps to the address in register 0. -/
def exParts : Paper.Parts := { ro := [1, 2], rw := [9], pages := 3, stack := 4096, code := [0, 0, 2, 50, 0, 1] }

theorem exParts_ok : exParts.Ok := ⟨by decide, by decide, by decide, by decide, by decide⟩

example : exParts.layout = [2, 0, 0, 1, 0, 0, 3, 0, 0, 16, 0, 1, 2, 9, 6, 0, 0, 0, 0, 0, 2, 50, 0, 1] := by decide
example : fromStandard exParts.layout = some (stdOf exParts) := (fromStandard_iff _ _).mpr ⟨_, exParts_ok, rfl, rfl⟩
example : (fromStandard (exParts.layout ++ [0])).isNone = true := by decide +kernel

/-! ## The program cache -/

/-- **C61.** Whatever programs were asked for and whatever was forgotten since the start, the cache answers what
decoding and loading the blob would answer, unless one of the earlier programs is a different blob with the same
hash. -/
theorem C61_cache (H : Bytes → Bytes) (ops : List CacheOp) (blob : Bytes) :
    (cachedLoad H (ops.foldl (CacheOp.run H) []) blob).1 = loadStd blob ∨
    ∃ b, CacheOp.use b ∈ ops ∧ b ≠ blob ∧ H b = H blob := by
  have key : ∀ (ops : List CacheOp) (bs : List Bytes) (c : Cache), From H bs c →
      From H (ops.foldl (fun l o => match o with | .use b => b :: l | .forget _ => l) bs) (ops.foldl (CacheOp.run H) c) := by
    intro ops
    induction ops with
    | nil => exact fun _ _ h => h
    | cons o os ih =>
      intro bs c h
      cases o with
      | use b => exact ih _ _ (from_use h b)
      | forget keep => exact ih _ _ (fun e he => h e (List.mem_filter.mp he).1)
  have mem : ∀ (ops : List CacheOp) (bs : List Bytes) (x : Bytes),
      x ∈ ops.foldl (fun l o => match o with | .use b => b :: l | .forget _ => l) bs → x ∈ bs ∨ CacheOp.use x ∈ ops := by
    intro ops
    induction ops with
    | nil => exact fun _ _ h => .inl h
    | cons o os ih =>
      intro bs x h
      cases o with
      | use b =>
        rcases ih _ _ h with h | h
        · rcases List.mem_cons.mp h with rfl | h
          · exact .inr (List.mem_cons_self ..)
          · exact .inl h
        · exact .inr (List.mem_cons_of_mem _ h)
      | forget keep =>
        rcases ih _ _ h with h | h
        · exact .inl h
        · exact .inr (List.mem_cons_of_mem _ h)
  rcases from_load (key ops [] [] (fun e he => by cases he)) blob with h | ⟨x, h1, h2, h3⟩
  · exact .inl h
  · rcases mem ops [] x h1 with h | h
    · cases h
    · exact .inr ⟨x, h, h2, h3⟩

/-- A hash that tells a program from its truncation: the second answer comes from the cache. -/
example : ∃ l, loadStd exParts.layout = .ok l ∧
    (cachedLoad id ([CacheOp.use exParts.layout, .forget fun _ => true].foldl (CacheOp.run id) []) exParts.layout).1 = .ok l := by
  obtain ⟨prog, hl⟩ : ∃ prog, loadProgram exParts.code = .ok prog := ⟨_, rfl⟩
  have h := load_layout exParts_ok hl
  refine ⟨_, h, ?_⟩
  rcases C61_cache id [CacheOp.use exParts.layout, .forget fun _ => true] exParts.layout with e | ⟨b, _, h2, h3⟩
  · rw [e, h]
  · exact absurd h3 h2

/-! ## `Ψ_M` -/

/-- **C61**, for invocations of well-formed programs on at most 2^24 octets of arguments with less than 2^63 gas:
the program starts in the state the paper prescribes, its run ends, and if it ends without an error, gas used and
result are those of the paper's `R` on the state reached, with the context left by the host calls. Missing: ends with
a host or machine error (which have no counterpart in the paper), ends by `halt` with register 7 at or above 2^32
(`C61_halt_high`), and ends in which the low zone has become accessible (the heap can be made to wrap, C14). -/
theorem C61_invoke_partial {σ : Type} (H : Bytes → Bytes) (c : Cache) (kind : Kind) (fns : Nat → VM → σ → Refine.Out × σ)
    (pc gas : Nat) (args : Bytes) (x : σ) (p : Paper.Parts) (hp : p.Ok) (prog : Prog) (hl : loadProgram p.code = .ok prog)
    (hc : (cachedLoad H c p.layout).1 = loadStd p.layout) (ha : args.length ≤ 2 ^ 24) (hg : gas < 2 ^ 63) :
    ∃ vm0, Paper.Starts p args pc gas vm0 ∧
      ∃ r vm' x', extRun prog (hostOf (execute kind fns)) (gas + 1) (gas + 1) vm0 (x, false) = (.done r, vm', x') ∧
        ∀ exit, r = .ok exit → (∀ a, a < 65536 → vm'.mem.abs.perm a = .inaccessible) →
          (exit = .halt → (vm'.r 7).toNat < 2 ^ 32) →
          ∃ o u, psiM H c p.layout kind fns pc gas args x = (.ok (o, u), x'.1, (cachedLoad H c p.layout).2) ∧
            Paper.Returns gas exit vm' u (resOf o) := by
  rw [load_layout hp hl] at hc
  obtain ⟨vm, e, hs, wf, _, hz⟩ := init_starts p hp prog args ha pc gas
  refine ⟨_, hs, ?_⟩
  have hsame := same_extRun prog (hostOf (execute kind fns)) (gas + 1) (gas + 1) { vm with pc := pc, gas := (gas : Int) } (x, false)
  have hspec := extRun_spec prog (hostOf (execute kind fns)) (gas + 1) (gas + 1) { vm with pc := pc, gas := (gas : Int) }
    (x, false) (by simp) (by simp)
  rcases er : extRun prog (hostOf (execute kind fns)) (gas + 1) (gas + 1) { vm with pc := pc, gas := (gas : Int) } (x, false)
    with ⟨r0, vm', x'⟩
  rw [er] at hsame hspec
  obtain ⟨⟨r, hr⟩, hgas⟩ := hspec
  simp only at hr hgas hsame
  subst hr
  refine ⟨r, vm', x', rfl, ?_⟩
  intro exit he hlow h7
  subst he
  obtain ⟨o, u, h1, h2⟩ := ending_returns hg hgas (hsame.wf wf) (hsame.zone.trans hz) hlow h7
  refine ⟨o, u, ?_, h2⟩
  rw [psiM_eq hc]
  dsimp only
  rw [e, invoke_ending hg er, h1]
  rfl

/-- A hash that is the identity never collides. -/
theorem id_cache (blob : Bytes) : (cachedLoad id [] blob).1 = loadStd blob := by
  rcases C61_cache id [] blob with h | ⟨_, h, _⟩
  · exact h
  · cases h

def exProg : Prog := match loadProgram exParts.code with | .ok p => p | .error _ => ⟨[], [], [], [], [], [], []⟩

theorem exProg_load : loadProgram exParts.code = .ok exProg := rfl

/-- One step of the example: it jumps to the address that halts the machine. -/
theorem exProg_run {σ : Type} (host : Host σ) (vm : VM) (s : σ) (n : Nat) (hpc : vm.pc = 0)
    (hg : vm.gas = ((n + 1 : Nat) : Int)) (h0 : (vm.r 0).toNat = 4294901760) :
    extRun exProg host (n + 2) (n + 2) vm s = (.done (.ok .halt), { vm with gas := (n : Int) }, s) := by
  have hi : exProg.instructionAt 0 = some { op := .jumpInd, rs1 := 0, rs2 := 0, rd := 0, imm1 := 0, imm2 := 0 } := by rfl
  have h1 : singleStep vm exProg { op := .jumpInd, rs1 := 0, rs2 := 0, rd := 0, imm1 := 0, imm2 := 0 } =
      (.ok (.halt, { newPc := 0 }), vm.mem) := by
    have : addr32 (vm.r 0 + 0) = 2 ^ 32 - 2 ^ 16 := by
      unfold addr32; rw [show vm.r 0 + 0 = vm.r 0 from BitVec.add_zero _, h0]
    unfold singleStep
    dsimp only
    unfold djump
    rw [this, if_pos rfl, hpc]
  have h2 : iter exProg vm = (some (.ok .halt), { vm with gas := (n : Int) }) := by
    unfold iter
    rw [hpc, hi]
    dsimp only
    rw [h1]
    cases vm
    simp only at hpc hg
    subst hpc; subst hg
    have e : ((n + 1 : Nat) : Int) - ((1 : Nat) : Int) = (n : Int) := by omega
    have hn : ¬ (n : Int) < 0 := by omega
    have hm : ¬ (n : Int) < -9223372036854775808 := by omega
    simp [VM.apply, VM.charge, INST_GAS, Exit.changesState, e, hn, hm]
  unfold extRun extIter runFuel
  rw [h2]

/-- The example program, given any gas, uses one unit and returns its arguments. -/
theorem exProg_returns {σ : Type} (c : Kind) (args : Bytes) (ha : args.length ≤ 2 ^ 24)
    (fns : Nat → VM → σ → Refine.Out × σ) (n : Nat) (hn : n + 1 < 2 ^ 63) (x : σ) :
    ∃ o, psiM id [] exParts.layout c fns 0 (n + 1) args x = (.ok (o, 1), x, (cachedLoad id [] exParts.layout).2) ∧
      resOf o = .bytes args := by
  obtain ⟨vm0, hs, r, vm', x', hr, hend⟩ := C61_invoke_partial id [] c fns 0 (n + 1) args x exParts exParts_ok exProg exProg_load
    (id_cache _) ha hn
  rw [exProg_run _ vm0 _ n hs.pc hs.gas (hs.regs 0 (by decide))] at hr
  injection hr with hr hv
  injection hr with hr
  injection hv with hv hx
  subst hr; subst hv; subst hx
  obtain ⟨rg, h1, h2, h3⟩ := hs.memory
  have r7 := hs.regs 7 (by decide)
  have r8 := hs.regs 8 (by decide)
  have r7' : (({ vm0 with gas := (n : Int) } : VM).r 7).toNat = 4278124544 := r7
  have r8' : (({ vm0 with gas := (n : Int) } : VM).r 8).toNat = args.length := r8
  obtain ⟨po, zo, pw, ps, pa, _, _, _, _, hpa, e1, e2, e3, e4⟩ := h1
  have sep := h2
  unfold Regions.Separate at sep
  have eas : rg.args.start = 4278124544 := by rw [e4]
  have eat : rg.args.stop = 4278124544 + pa := by rw [e4]
  have hargs : ∀ i, i < args.length → rg.args.Has (4278124544 + i) := fun i hi => by
    have := hpa.2.1
    exact ⟨by omega, by omega⟩
  obtain ⟨o, u, ho, hR⟩ := hend .halt rfl
    (fun a h => h3.other a (fun k => by have := k.1; omega) (fun k => by have := k.1; omega)
      (fun k => by have := k.1; omega) (fun k => by have := k.1; omega))
    (fun _ => by rw [r7']; decide)
  rw [ho]
  have hu := hR.used
  have hd := hR.data rfl (by
    rw [r7', r8']
    intro y h4 h5
    have := h3.args y (by have := hargs (y - 4278124544) (by omega); rwa [show 4278124544 + (y - 4278124544) = y by omega] at this)
    rw [this.1]; decide)
  rw [r7', r8'] at hd
  have hb : (List.range args.length).map (fun i => ({ vm0 with gas := (n : Int) } : VM).mem.abs.byte (4278124544 + i)) = args := by
    apply List.ext_getElem?
    intro i
    rw [List.getElem?_map]
    by_cases hi : i < args.length
    · rw [List.getElem?_range hi, List.getElem?_eq_getElem hi]
      have := (h3.args _ (hargs i hi)).2
      simp only [Option.map_some]
      rw [this, eas, show 4278124544 + i - 4278124544 = i by omega, List.getD_eq_getElem?_getD, List.getElem?_eq_getElem hi]
      rfl
    · rw [List.getElem?_eq_none (by simp; omega), List.getElem?_eq_none (by omega)]
      rfl
  rw [hb] at hd
  have hu' : u = 1 := by
    have e : (u : Int) = ((n + 1 : Nat) : Int) - max 0 (n : Int) := hu
    omega
  subst hu'
  exact ⟨o, rfl, hd⟩

example : ∃ o, (psiM id [] exParts.layout .refine (fun _ _ (x : Nat) => (.ok (ret WHAT), x)) 0 10 [5, 6] 7).1 = .ok (o, 1) ∧
    resOf o = .bytes [5, 6] := by
  obtain ⟨o, h1, h2⟩ := exProg_returns .refine [5, 6] (by decide) (fun _ _ (x : Nat) => (.ok (ret WHAT), x)) 9 (by decide) 7
  exact ⟨o, by rw [h1], h2⟩

end Fastroll.Entry
