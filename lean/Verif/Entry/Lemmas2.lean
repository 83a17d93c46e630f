import Verif.Entry.Lemmas
import Verif.Pvm.MemLemmas2
/-!
# Lemmas about the entry points: the start and the end of an invocation
-/
namespace Fastroll.Entry
open Fastroll.Codec Fastroll.Pvm Fastroll.Svc

/-- What the code's output says in the paper's terms. -/
def resOf : Output → Paper.Res
  | .bytes b => .bytes b
  | .unavailable => .bytes []
  | .outOfGas => .outOfGas
  | .panic => .panic

theorem init_starts (p : Paper.Parts) (hp : p.Ok) (prog : Prog) (args : Bytes) (ha : args.length ≤ 16777216) (pc gas : Nat) :
    ∃ vm, initVM { std := stdOf p, prog := prog } args = some vm ∧
      Paper.Starts p args pc gas { vm with pc := pc, gas := gas } ∧ vm.mem.WF ∧ vm.mem.data.length = 4294967296 ∧
      vm.mem.zone = 65536 := by
  have hv := stdOf_valid p hp
  have hf := fits_of_valid (stdOf p).fp args.length hv ha
  obtain ⟨h1, h2, h3, h4⟩ := new_abs (2 ^ 32) PAGE ZONE (by decide) ⟨2 ^ 20, by decide⟩
  obtain ⟨m, e, wf, hd, hl, _, hz, _⟩ := setup_ok (stdOf p).fp args hf rfl rfl (Mem.new (2 ^ 32) PAGE ZONE) h1 h4 rfl rfl h2 h3
  have e' := (init_eq _ args hv ha).trans e
  have ei : initVM { std := stdOf p, prog := prog } args = some
      { regs := (List.range 13).map fun i => BitVec.ofNat 64 (initReg args.length i), mem := m, pc := 0, gas := 0 } := by
    unfold initVM; rw [e']
  refine ⟨_, ei, ⟨rfl, rfl, by simp, ?_, _, theRegions_prescribed _ _, theRegions_separate hf, hd⟩, wf, hl, hz⟩
  intro i hi
  have hlt : args.length < 2 ^ 64 := by omega
  have key : (BitVec.ofNat 64 (initReg args.length i)).toNat = Paper.startReg args.length i := by
    have : i = 0 ∨ i = 1 ∨ i = 2 ∨ i = 3 ∨ i = 4 ∨ i = 5 ∨ i = 6 ∨ i = 7 ∨ i = 8 ∨ i = 9 ∨ i = 10 ∨ i = 11 ∨ i = 12 := by omega
    rcases this with rfl | rfl | rfl | rfl | rfl | rfl | rfl | rfl | rfl | rfl | rfl | rfl | rfl
    case inr.inr.inr.inr.inr.inr.inr.inr.inl =>
      show (BitVec.ofNat 64 args.length).toNat = args.length
      rw [BitVec.toNat_ofNat]; exact Nat.mod_eq_of_lt hlt
    all_goals rfl
  rw [← key]
  show (((List.range 13).map fun i => BitVec.ofNat 64 (initReg args.length i)).getD i 0).toNat = _
  rw [List.getD_eq_getElem?_getD, List.getElem?_map, List.getElem?_range hi]
  rfl

theorem readable_iff {m : Mem} (h : m.WF) (a n : Nat) :
    m.rangeReadable a n = true ↔ Paper.Readable m.abs a n := by
  unfold Mem.rangeReadable Paper.Readable
  by_cases hn : n = 0
  · subst hn
    unfold Mem.rangeTest
    rw [if_pos rfl]
    exact ⟨fun _ x h1 h2 => absurd h2 (by omega), fun _ => rfl⟩
  · rw [rangeTest_iff h _ a n (by omega)]
    constructor
    · intro ⟨h1, h2⟩ x hx hx'
      exact (perm_readable x (by omega)).mpr (h2 x hx hx')
    · intro H
      have hx := H (a + n - 1) (by omega) (by omega)
      have hlt : a + n - 1 < m.data.length := by
        by_cases c : a + n - 1 < m.data.length
        · exact c
        · exact absurd (perm_out _ c) hx
      exact ⟨by omega, fun x h1 h2 => (perm_readable x (by omega)).mp (H x h1 h2)⟩

/-- What the invocation answers, from where the run ended. -/
def ending (limit : Nat) (exit : Exit) (vm : VM) : Except VmErr (Output × Nat) :=
  let used := (limit + 2 ^ 64 - (max 0 vm.gas).toNat) % 2 ^ 64
  if exit = .outOfGas then .ok (.outOfGas, used)
  else if exit = .halt then
    if (vm.r 7).toNat ≥ 2 ^ 32 then .error .regVal
    else if !vm.mem.rangeReadable (vm.r 7).toNat (vm.r 8).toNat then .ok (.unavailable, used)
    else
      match vm.mem.readBytes (vm.r 7).toNat (vm.r 8).toNat with
      | .error e => .error (.mem e)
      | .ok bs => .ok (.bytes bs, used)
  else .ok (.panic, used)

theorem invoke_ending {σ : Type} {p : Prog} {host : Host σ} {vm vm' : VM} {pc limit : Nat} {s s' : σ} {exit : Exit}
    (hl : limit < 2 ^ 63)
    (h : extRun p host (limit + 1) (limit + 1) { vm with pc := pc, gas := (limit : Int) } s = (.done (.ok exit), vm', s')) :
    invokeWithArgs p host (some vm) pc limit s = (ending limit exit vm', s') := by
  have ha : asI64 limit = (limit : Int) := by unfold asI64; rw [if_pos hl]
  unfold invokeWithArgs ending
  dsimp only
  rw [ha, show ((limit : Int).toNat) = limit from rfl, h]
  dsimp only
  split
  · rfl
  · split
    · split
      · rfl
      · split
        · rfl
        · cases vm'.mem.readBytes (vm'.r 7).toNat (vm'.r 8).toNat <;> rfl
    · rfl

theorem ending_returns {limit : Nat} {exit : Exit} {vm : VM} (hl : limit < 2 ^ 63) (hg : vm.gas ≤ limit) (wf : vm.mem.WF)
    (hz : vm.mem.zone = 65536) (hlow : ∀ x, x < 65536 → vm.mem.abs.perm x = .inaccessible)
    (h7 : exit = .halt → (vm.r 7).toNat < 2 ^ 32) :
    ∃ o u, ending limit exit vm = .ok (o, u) ∧ Paper.Returns limit exit vm u (resOf o) := by
  have hu : (((limit + 2 ^ 64 - (max 0 vm.gas).toNat) % 2 ^ 64 : Nat) : Int) = limit - max 0 vm.gas := by omega
  unfold ending
  dsimp only
  generalize (limit + 2 ^ 64 - (max 0 vm.gas).toNat) % 2 ^ 64 = u at hu
  by_cases c1 : exit = .outOfGas
  · subst c1
    rw [if_pos rfl]
    exact ⟨_, _, rfl, hu, fun _ => rfl, nofun, nofun, fun h => absurd rfl h⟩
  · rw [if_neg c1]
    by_cases c2 : exit = .halt
    · subst c2
      rw [if_pos rfl, if_neg (by have := h7 rfl; omega)]
      have hr := readable_iff wf (vm.r 7).toNat (vm.r 8).toNat
      cases c3 : vm.mem.rangeReadable (vm.r 7).toNat (vm.r 8).toNat with
      | false =>
        rw [c3] at hr
        exact ⟨_, _, rfl, hu, nofun, fun _ h => absurd (hr.mpr h) (by decide), fun _ _ => rfl, fun _ h => absurd rfl h⟩
      | true =>
        have hR := hr.mp c3
        rcases readBytes_spec wf (vm.r 7).toNat (vm.r 8).toNat with ⟨_, e⟩ | ⟨hn, _⟩
        · rw [e]
          exact ⟨_, _, rfl, hu, nofun, fun _ _ => rfl, fun _ h => absurd hR h, fun _ h => absurd rfl h⟩
        · refine absurd ?_ hn
          by_cases c4 : (vm.r 8).toNat = 0
          · exact .inl c4
          · refine .inr ⟨?_, hR⟩
            rw [hz]
            by_cases c5 : (vm.r 7).toNat < 65536
            · exact absurd (hlow _ c5) (hR _ (Nat.le_refl _) (by omega))
            · omega
    · rw [if_neg c2]
      exact ⟨_, _, rfl, hu, fun h => absurd h c1, fun h => absurd h c2, fun h => absurd h c2, fun _ _ => rfl⟩

theorem load_layout {p : Paper.Parts} (hp : p.Ok) {prog : Prog} (h : loadProgram p.code = .ok prog) :
    loadStd p.layout = .ok { std := stdOf p, prog := prog } := by
  have hs : fromStandard p.layout = some (stdOf p) := (fromStandard_iff _ _).mpr ⟨p, hp, rfl, rfl⟩
  unfold loadStd
  rw [hs]
  dsimp only
  rw [stdOf_valid p hp, show (stdOf p).code = p.code from rfl, h]
  rfl

/-- An invocation whose program the cache serves faithfully. -/
theorem psiM_eq {σ : Type} {H : Bytes → Bytes} {c : Cache} {blob : Bytes} {l : Loaded}
    (hc : (cachedLoad H c blob).1 = .ok l) (kind : Kind) (fns : Nat → VM → σ → Refine.Out × σ) (pc gas : Nat)
    (args : Bytes) (x : σ) :
    psiM H c blob kind fns pc gas args x =
      ((finish (invokeWithArgs l.prog (hostOf (execute kind fns)) (initVM l args) pc gas (x, false))).1,
       (finish (invokeWithArgs l.prog (hostOf (execute kind fns)) (initVM l args) pc gas (x, false))).2,
       (cachedLoad H c blob).2) := by
  unfold psiM
  rcases e : cachedLoad H c blob with ⟨r, c'⟩
  rw [e] at hc
  simp only [] at hc
  subst hc
  rfl

end Fastroll.Entry
