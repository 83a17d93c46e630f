import Verif.Refine.Lemmas

/-! Lemmas: the calls that do not run an inner machine are the paper's. -/
namespace Fastroll.Refine
open Fastroll.Pvm Fastroll.Svc
open Paper (CanRead CanWrite octets PMem.wrote Answers)

/-- The paper's registers. -/
def φ (vm : VM) (i : Nat) : Nat := VM.n vm i

/-- Every inner machine has a sound memory. -/
def Healthy (x : RCtx) : Prop := ∀ n i, x.machines n = some i → Sound i.mem

/-- Ranges have a 32-bit address, or are not empty. -/
def Sized (h : Nat) (vm : VM) : Prop :=
  if h = 7 ∨ h = 8 then VM.n vm 7 < 2 ^ 32 ∨ VM.n vm 8 ≠ 0
  else if h = 9 ∨ h = 10 then VM.n vm 8 < 2 ^ 32 ∧ VM.n vm 9 < 2 ^ 32 ∨ VM.n vm 10 ≠ 0
  else True

theorem enough {vm : VM} (h : 10 ≤ vm.gas) : noGas vm = false := by
  unfold noGas BASE_GAS; simp; omega

/-- The paper's relation with the code's notion of well-formed code. -/
abbrev Call (env : REnv) (Ψ : Paper.Invocation) (nx : Paper.NextPos) (vm : VM) (x : RCtx) (h : Nat) (r : Paper.Res) (c : Paper.Ctx) : Prop :=
  Answers env.exportOffset (fun code => ∃ q, deblob code = .ok q) Ψ nx (φ vm) vm.mem.abs x.abs h r c

/-- The outcome of a call is the paper's. -/
def Follows (env : REnv) (Ψ : Paper.Invocation) (nx : Paper.NextPos) (vm : VM) (x : RCtx) (h : Nat) (o : Out × RCtx) : Prop :=
  ∃ r c, Call env Ψ nx vm x h r c ∧ o.1 = .ok r.result ∧ o.2.abs = c

theorem export_follows (env : REnv) (Ψ : Paper.Invocation) (nx : Paper.NextPos) (vm : VM) (x : RCtx) (hg : 10 ≤ vm.gas)
    (hm : Sound vm.mem) (hs : Sized 7 vm) : Follows env Ψ nx vm x 7 (hostExport env vm x) := by
  have hs' : VM.n vm 7 < 2 ^ 32 ∨ min (VM.n vm 8) SEGMENT ≠ 0 := by
    unfold Sized at hs
    rw [if_pos (.inl rfl)] at hs
    unfold SEGMENT
    omega
  unfold hostExport
  rw [enough hg]
  simp only [Bool.false_eq_true, if_false]
  rcases readMem_spec hm 7 (min (VM.n vm 8) SEGMENT) hs' with ⟨e, hc⟩ | ⟨e, hc⟩
  · cases hu : u32? vm 7 with
    | none => rw [hu] at e; cases e
    | some a =>
      rw [hu] at e
      simp only [Option.bind_some] at e
      simp only [e]
      by_cases hf : x.exports.length + env.exportOffset ≥ MAX_EXPORTS
      · rw [if_pos hf]
        exact ⟨_, _, .exportFull hc (by unfold MAX_EXPORTS at hf; show 3072 ≤ env.exportOffset + x.exports.length; omega), rfl, rfl⟩
      · rw [if_neg hf]
        rw [padBlock_spec SEGMENT _ (by decide) (by rw [octets_length]; exact Nat.min_le_right _ _)]
        simp only []
        refine ⟨_, _, .export (x := x.abs) (seg := octets vm.mem.abs (VM.n vm 7) (min (VM.n vm 8) SEGMENT) ++
          List.replicate (SEGMENT - (octets vm.mem.abs (VM.n vm 7) (min (VM.n vm 8) SEGMENT)).length) 0) hc
          (by unfold MAX_EXPORTS at hf; show env.exportOffset + x.exports.length < 3072; omega) ?_ ?_, ?_, rfl⟩
        · rw [List.length_append, List.length_replicate, octets_length]
          unfold SEGMENT; omega
        · intro i hi
          by_cases c : i < VM.n vm 8
          · rw [if_pos (show i < φ vm 8 from c), List.getElem?_append_left (by rw [octets_length]; unfold SEGMENT; omega),
              octets_get _ _ _ _ (by unfold SEGMENT; omega)]
            rfl
          · rw [if_neg (show ¬ i < φ vm 8 from c), List.getElem?_append_right (by rw [octets_length]; unfold SEGMENT; omega),
              List.getElem?_replicate, if_pos (by rw [octets_length]; unfold SEGMENT; omega)]
        · show Out.ok (ret (x.exports.length + env.exportOffset)) = Out.ok (ret (env.exportOffset + x.exports.length))
          rw [Nat.add_comm]
  · cases hu : u32? vm 7 with
    | none => exact ⟨_, _, .exportPanic hc, rfl, rfl⟩
    | some a =>
      rw [hu] at e
      simp only [Option.bind_some] at e
      simp only [e]
      exact ⟨_, _, .exportPanic hc, rfl, rfl⟩

theorem machine_follows (env : REnv) (Ψ : Paper.Invocation) (nx : Paper.NextPos) (vm : VM) (x : RCtx) (hg : 10 ≤ vm.gas)
    (hm : Sound vm.mem) (hs : Sized 8 vm) (hn : x.machines x.nextId = none)
    (hp : deblob (octets vm.mem.abs (VM.n vm 7) (VM.n vm 8)) ≠ .error .panic) :
    Follows env Ψ nx vm x 8 (hostMachine vm x) := by
  have hs' : VM.n vm 7 < 2 ^ 32 ∨ VM.n vm 8 ≠ 0 := by
    unfold Sized at hs
    rwa [if_pos (.inr rfl)] at hs
  unfold hostMachine
  rw [enough hg]
  simp only [Bool.false_eq_true, if_false]
  rcases readMem_spec hm 7 (VM.n vm 8) hs' with ⟨e, hc⟩ | ⟨e, hc⟩
  · cases hu : u32? vm 7 with
    | none => rw [hu] at e; cases e
    | some a =>
      rw [hu] at e
      simp only [Option.bind_some] at e
      simp only [e]
      cases hd : deblob (octets vm.mem.abs (VM.n vm 7) (VM.n vm 8)) with
      | error er =>
        have hk : ¬ ∃ q, deblob (octets vm.mem.abs (VM.n vm 7) (VM.n vm 8)) = .ok q := by
          rintro ⟨q, hq⟩; rw [hq] at hd; cases hd
        cases er with
        | panic => exact absurd hd hp
        | codec => exact ⟨_, _, .machineHuh hc hk, rfl, rfl⟩
        | invalidProgram => exact ⟨_, _, .machineHuh hc hk, rfl, rfl⟩
        | invalidFormat => exact ⟨_, _, .machineHuh hc hk, rfl, rfl⟩
      | ok q =>
        simp only [RCtx.add]
        refine ⟨_, _, .machine (n := x.nextId) hc ⟨q, hd⟩ (abs_mach_none hn), rfl, ?_⟩
        show (x.put x.nextId (some _)).abs = _
        rw [abs_put]
        rfl
  · cases hu : u32? vm 7 with
    | none => exact ⟨_, _, .machinePanic hc, rfl, rfl⟩
    | some a =>
      rw [hu] at e
      simp only [Option.bind_some] at e
      simp only [e]
      exact ⟨_, _, .machinePanic hc, rfl, rfl⟩

/-- An address register that is too large leaves no non-empty accessible range. -/
theorem big_addr {m : Mem} (h : Sound m) (vm : VM) (r n : Nat) (hu : u32? vm r = none) (hn : VM.n vm r < 2 ^ 32 ∨ n ≠ 0) :
    ¬ CanRead m.abs (VM.n vm r) n ∧ ¬ CanWrite m.abs (VM.n vm r) n := by
  unfold u32? at hu
  split at hu
  · cases hu
  · rename_i c
    unfold U32 at c
    have hn' : n ≠ 0 := by omega
    refine ⟨fun hc => ?_, fun hc => ?_⟩
    · have := sound_bound h _ (hc (VM.n vm r) (Nat.le_refl _) (by omega)); omega
    · have := sound_bound h (VM.n vm r) (by rw [hc (VM.n vm r) (Nat.le_refl _) (by omega)]; decide); omega

theorem u32_eq {vm : VM} {r a : Nat} (h : u32? vm r = some a) : VM.n vm r = a := by
  unfold u32? at h
  split at h
  · cases h; rfl
  · cases h

theorem peek_follows (env : REnv) (Ψ : Paper.Invocation) (nx : Paper.NextPos) (vm : VM) (x : RCtx) (hg : 10 ≤ vm.gas)
    (hm : Sound vm.mem) (hx : Healthy x) (hs : Sized 9 vm) : Follows env Ψ nx vm x 9 (hostPeek vm x) := by
  have hs' : VM.n vm 8 < 2 ^ 32 ∧ VM.n vm 9 < 2 ^ 32 ∨ VM.n vm 10 ≠ 0 := by
    unfold Sized at hs
    rwa [if_neg (by decide), if_pos (.inl rfl)] at hs
  unfold hostPeek
  rw [enough hg]
  simp only [Bool.false_eq_true, if_false]
  cases hu : u32? vm 8 with
  | none => exact ⟨_, _, .peekPanic (big_addr hm vm 8 (VM.n vm 10) hu (by omega)).2, rfl, rfl⟩
  | some o =>
    have ho := u32_eq hu
    subst ho
    simp only []
    by_cases hw : vm.mem.rangeWritable (VM.n vm 8) (VM.n vm 10) = true
    · have hc := (sound_write hm _ _).1.1 hw
      rw [hw]
      simp only [Bool.not_true, Bool.false_eq_true, if_false]
      cases hi : x.machines (VM.n vm 7) with
      | none => exact ⟨_, _, .peekWho hc (abs_mach_none hi), rfl, rfl⟩
      | some i =>
        simp only []
        have hsi := hx _ i hi
        cases hv : u32? vm 9 with
        | none => exact ⟨_, _, .peekOob hc (abs_mach_some hi) (big_addr hsi vm 9 (VM.n vm 10) hv (by omega)).1, rfl, rfl⟩
        | some s =>
          have := u32_eq hv
          subst this
          simp only []
          obtain ⟨h1, h2⟩ := sound_read hsi (VM.n vm 9) (VM.n vm 10)
          by_cases hr : i.mem.rangeReadable (VM.n vm 9) (VM.n vm 10) = true
          · rw [hr, h2 (h1.1 hr)]
            simp only [Bool.not_true, Bool.false_eq_true, if_false]
            exact ⟨_, _, .peek hc (abs_mach_some hi) (h1.1 hr), rfl, rfl⟩
          · have hr' : i.mem.rangeReadable (VM.n vm 9) (VM.n vm 10) = false := by simpa using hr
            rw [hr']
            simp only [Bool.not_false, if_true]
            exact ⟨_, _, .peekOob hc (abs_mach_some hi) (fun e => hr (h1.2 e)), rfl, rfl⟩
    · have hw' : vm.mem.rangeWritable (VM.n vm 8) (VM.n vm 10) = false := by simpa using hw
      rw [hw']
      simp only [Bool.not_false, if_true]
      exact ⟨_, _, .peekPanic (fun e => hw ((sound_write hm _ _).1.2 e)), rfl, rfl⟩

theorem poke_follows (env : REnv) (Ψ : Paper.Invocation) (nx : Paper.NextPos) (vm : VM) (x : RCtx) (hg : 10 ≤ vm.gas)
    (hm : Sound vm.mem) (hx : Healthy x) (hs : Sized 10 vm) : Follows env Ψ nx vm x 10 (hostPoke vm x) := by
  have hs' : VM.n vm 8 < 2 ^ 32 ∧ VM.n vm 9 < 2 ^ 32 ∨ VM.n vm 10 ≠ 0 := by
    unfold Sized at hs
    rwa [if_neg (by decide), if_pos (.inr rfl)] at hs
  unfold hostPoke
  rw [enough hg]
  simp only [Bool.false_eq_true, if_false]
  rcases readMem_spec hm 8 (VM.n vm 10) (by omega) with ⟨e, hc⟩ | ⟨e, hc⟩
  · cases hu : u32? vm 8 with
    | none => rw [hu] at e; cases e
    | some a =>
      rw [hu] at e
      simp only [Option.bind_some] at e
      simp only [e]
      cases hi : x.machines (VM.n vm 7) with
      | none => exact ⟨_, _, .pokeWho hc (abs_mach_none hi), rfl, rfl⟩
      | some i =>
        simp only []
        have hsi := hx _ i hi
        cases hv : u32? vm 9 with
        | none => exact ⟨_, _, .pokeOob hc (abs_mach_some hi) (big_addr hsi vm 9 (VM.n vm 10) hv (by omega)).2, rfl, rfl⟩
        | some s =>
          have := u32_eq hv
          subst this
          simp only []
          obtain ⟨h1, h2⟩ := sound_write hsi (VM.n vm 9) (VM.n vm 10)
          by_cases hr : i.mem.rangeWritable (VM.n vm 9) (VM.n vm 10) = true
          · obtain ⟨m', e', ha, _⟩ := h2 (h1.1 hr) _ (octets_length vm.mem.abs (VM.n vm 8) (VM.n vm 10))
            rw [hr, e']
            simp only [Bool.not_true, Bool.false_eq_true, if_false]
            refine ⟨_, _, .poke hc (abs_mach_some hi) (h1.1 hr), rfl, ?_⟩
            rw [abs_put, Option.map_some, ha]
            rfl
          · have hr' : i.mem.rangeWritable (VM.n vm 9) (VM.n vm 10) = false := by simpa using hr
            rw [hr']
            simp only [Bool.not_false, if_true]
            exact ⟨_, _, .pokeOob hc (abs_mach_some hi) (fun e => hr (h1.2 e)), rfl, rfl⟩
  · cases hu : u32? vm 8 with
    | none => exact ⟨_, _, .pokePanic hc, rfl, rfl⟩
    | some a =>
      rw [hu] at e
      simp only [Option.bind_some] at e
      simp only [e]
      exact ⟨_, _, .pokePanic hc, rfl, rfl⟩

theorem expunge_follows (env : REnv) (Ψ : Paper.Invocation) (nx : Paper.NextPos) (vm : VM) (x : RCtx) (hg : 10 ≤ vm.gas) :
    Follows env Ψ nx vm x 13 (hostExpunge vm x) := by
  unfold hostExpunge
  rw [enough hg]
  simp only [Bool.false_eq_true, if_false]
  cases hi : x.machines (VM.n vm 7) with
  | none => exact ⟨_, _, .expungeWho (abs_mach_none hi), rfl, rfl⟩
  | some i => exact ⟨_, _, .expunge (abs_mach_some hi), rfl, abs_put x _ none⟩

end Fastroll.Refine
