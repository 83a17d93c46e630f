import Verif.Refine.Model
import Verif.Refine.Spec
import Verif.Pvm.MemLemmas2

/-! Lemmas: memories and the octet-level reading of the refinement host functions. -/
namespace Fastroll.Refine
open Fastroll.Pvm Fastroll.Svc
open Paper (CanRead CanWrite octets PMem.wrote)

/-- A proper memory: whole pages, at most `2^32` octets, nothing accessible below the zone. -/
structure Good (m : Mem) : Prop where
  wf : m.WF
  len : m.data.length ≤ 2 ^ 32
  zone : ∀ x, x < m.zone → m.abs.perm x = .inaccessible

/-- A memory the code can have: a proper one, or none at all. -/
def Sound (m : Mem) : Prop := Good m ∨ m = noMem

theorem noMem_perm (x : Nat) : noMem.abs.perm x = .inaccessible := rfl

theorem noMem_abs : noMem.abs = Paper.fresh := rfl

theorem sound_read {m : Mem} (h : Sound m) (a n : Nat) :
    (m.rangeReadable a n = true ↔ CanRead m.abs a n) ∧ (CanRead m.abs a n → m.readBytes a n = .ok (octets m.abs a n)) := by
  by_cases hn : n = 0
  · subst hn
    refine ⟨⟨(fun _ x h1 h2 => absurd h2 (by omega)), fun _ => ?_⟩, fun _ => ?_⟩
    · unfold Mem.rangeReadable Mem.rangeTest; rw [if_pos rfl]
    · unfold Mem.readBytes; rw [if_pos rfl]; rfl
  · rcases h with h | h
    · have e1 : m.rangeReadable a n = true ↔ CanRead m.abs a n := by
        unfold Mem.rangeReadable
        rw [rangeTest_iff h.wf _ _ _ (by omega)]
        constructor
        · rintro ⟨h1, h2⟩ x hx1 hx2
          exact (perm_readable x (by omega)).2 (h2 x hx1 hx2)
        · intro h1
          have hb : a + n ≤ m.data.length := by
            have := h1 (a + n - 1) (by omega) (by omega)
            refine Nat.le_of_not_lt fun hlt => this (perm_out _ (by omega))
          exact ⟨hb, fun x hx1 hx2 => (perm_readable x (by omega)).1 (h1 x hx1 hx2)⟩
      refine ⟨e1, fun hc => ?_⟩
      rcases readBytes_spec h.wf a n with ⟨_, e⟩ | ⟨hx, _⟩
      · exact e
      · exact absurd (.inr ⟨Nat.le_of_not_lt fun hlt => hc a (Nat.le_refl _) (by omega) (h.zone a hlt), hc⟩) hx
    · subst h
      have hno : ¬ CanRead noMem.abs a n := fun hc => hc a (Nat.le_refl _) (by omega) (noMem_perm a)
      refine ⟨⟨fun hc => ?_, fun hc => absurd hc hno⟩, fun hc => absurd hc hno⟩
      unfold Mem.rangeReadable Mem.rangeTest at hc
      rw [if_neg hn, if_pos (by simp [noMem])] at hc
      cases hc

theorem sound_write {m : Mem} (h : Sound m) (a n : Nat) :
    (m.rangeWritable a n = true ↔ CanWrite m.abs a n) ∧
    (CanWrite m.abs a n → ∀ bs : Bytes, bs.length = n →
      ∃ m', m.writeBytes a bs = (.ok (), m') ∧ m'.abs = PMem.wrote m.abs a bs ∧ Sound m') := by
  by_cases hn : n = 0
  · subst hn
    refine ⟨⟨(fun _ x h1 h2 => absurd h2 (by omega)), fun _ => ?_⟩, fun _ bs hb => ?_⟩
    · unfold Mem.rangeWritable Mem.rangeTest; rw [if_pos rfl]
    · refine ⟨m, ?_, ?_, h⟩
      · unfold Mem.writeBytes; rw [if_pos hb]
      · refine pmem_ext (fun x => ?_) (fun x => rfl)
        simp only [PMem.wrote]
        rw [if_neg (by omega)]
  · rcases h with h | h
    · have e1 : m.rangeWritable a n = true ↔ CanWrite m.abs a n := by
        unfold Mem.rangeWritable
        rw [rangeTest_iff h.wf _ _ _ (by omega)]
        constructor
        · rintro ⟨h1, h2⟩ x hx1 hx2
          exact (perm_writable x (by omega)).2 (h2 x hx1 hx2)
        · intro h1
          have hb : a + n ≤ m.data.length := by
            have := h1 (a + n - 1) (by omega) (by omega)
            refine Nat.le_of_not_lt fun hlt => ?_
            rw [perm_out _ (by omega)] at this; cases this
          exact ⟨hb, fun x hx1 hx2 => (perm_writable x (by omega)).1 (h1 x hx1 hx2)⟩
      refine ⟨e1, fun hc bs hb => ?_⟩
      subst hb
      rcases writeBytes_spec h.wf a bs with ⟨_, d, e, hd, hx⟩ | ⟨hx, _⟩
      · refine ⟨_, e, pmem_ext (fun x => hx x) (fun x => ?_), .inl ⟨⟨h.wf.ps, ?_⟩, ?_, fun x hz => ?_⟩⟩
        · simp only [Mem.abs, hd, PMem.wrote]
        · simp only [hd]; exact h.wf.len
        · simp only [hd]; exact h.len
        · have := h.zone x hz
          simp only [Mem.abs, hd] at this ⊢
          exact this
      · refine absurd (.inr ⟨Nat.le_of_not_lt fun hlt => ?_, hc⟩) hx
        have := hc a (Nat.le_refl _) (by omega)
        rw [h.zone a hlt] at this; cases this
    · subst h
      have hno : ¬ CanWrite noMem.abs a n := fun hc => by
        have := hc a (Nat.le_refl _) (by omega)
        rw [noMem_perm] at this; cases this
      refine ⟨⟨fun hc => ?_, fun hc => absurd hc hno⟩, fun hc => absurd hc hno⟩
      unfold Mem.rangeWritable Mem.rangeTest at hc
      rw [if_neg hn, if_pos (by simp [noMem])] at hc
      cases hc

/-- An accessible range of a sound memory lies below `2^32`. -/
theorem sound_bound {m : Mem} (h : Sound m) (x : Nat) (hx : m.abs.perm x ≠ .inaccessible) : x < 2 ^ 32 := by
  rcases h with h | h
  · refine Nat.lt_of_lt_of_le (Nat.lt_of_not_le fun hle => hx (perm_out x (by omega))) h.len
  · subst h; exact absurd (noMem_perm x) hx

theorem octets_length (m : PMem) (a n : Nat) : (octets m a n).length = n := by simp [octets]

theorem octets_get (m : PMem) (a n i : Nat) (h : i < n) : (octets m a n)[i]? = some (m.byte (a + i)) := by
  simp [octets, h]

/-- Reading host memory at the address in a register. -/
theorem readMem_spec {vm : VM} (h : Sound vm.mem) (r n : Nat) (hs : VM.n vm r < 2 ^ 32 ∨ n ≠ 0) :
    (u32? vm r).bind (fun a => readMem vm a n) = some (octets vm.mem.abs (VM.n vm r) n) ∧ CanRead vm.mem.abs (VM.n vm r) n ∨
    (u32? vm r).bind (fun a => readMem vm a n) = none ∧ ¬ CanRead vm.mem.abs (VM.n vm r) n := by
  unfold u32?
  by_cases c : VM.n vm r < U32
  · rw [if_pos c]
    simp only [Option.bind_some, readMem]
    obtain ⟨h1, h2⟩ := sound_read h (VM.n vm r) n
    by_cases hc : CanRead vm.mem.abs (VM.n vm r) n
    · left
      rw [if_pos (h1.2 hc), h2 hc]
      exact ⟨rfl, hc⟩
    · right
      rw [if_neg (fun e => hc (h1.1 e))]
      exact ⟨rfl, hc⟩
  · right
    rw [if_neg c]
    refine ⟨rfl, fun hc => ?_⟩
    have hn : n ≠ 0 := hs.resolve_left (by unfold U32 at c; omega)
    have := sound_bound h _ (hc (VM.n vm r) (Nat.le_refl _) (by omega))
    unfold U32 at c; omega

/-- The paper's view of the context. -/
def RCtx.abs (x : RCtx) : Paper.Ctx where
  mach k := (x.machines k).map fun i => { code := i.code, ram := i.mem.abs, pc := i.pc }
  exports := x.exports

/-- The machine change of a result. -/
def Paper.Res.result : Paper.Res → HostResult
  | .panic => hpanic
  | .ret r7 r8 w => { Svc.ret r7 with r8 := r8.map reg, mem := w }

theorem abs_put (x : RCtx) (n : Nat) (v : Option Inner) :
    (x.put n v).abs = x.abs.put n (v.map fun i => { code := i.code, ram := i.mem.abs, pc := i.pc }) := by
  unfold RCtx.abs RCtx.put Paper.Ctx.put
  congr 1
  funext k
  dsimp only
  split <;> rfl

theorem abs_mach_none {x : RCtx} {n : Nat} (h : x.machines n = none) : x.abs.mach n = none := by
  simp only [RCtx.abs, h]; rfl

theorem abs_mach_some {x : RCtx} {n : Nat} {i : Inner} (h : x.machines n = some i) :
    x.abs.mach n = some { code := i.code, ram := i.mem.abs, pc := i.pc } := by
  simp only [RCtx.abs, h]; rfl

theorem padBlock_spec (size : Nat) (bs : Bytes) (hs : 0 < size) (h : bs.length ≤ size) :
    padBlock size bs = some (bs ++ List.replicate (size - bs.length) 0) := by
  unfold padBlock
  rw [if_neg (by omega)]
  have ho : (if bs = [] then size else (bs.length + size - 1) / size * size) = size := by
    by_cases c : bs = []
    · rw [if_pos c]
    · rw [if_neg c]
      have hl : 0 < bs.length := List.length_pos_iff.2 c
      have : (bs.length + size - 1) / size = 1 := by
        apply Nat.div_eq_of_lt_le <;> omega
      rw [this, Nat.one_mul]
  simp only [ho]
  rw [List.take_of_length_le h, if_neg]
  simp; omega

end Fastroll.Refine
