import Verif.Abort.Spec
import Verif.Pvm.InterpLemmas3

/-! # Lemmas: which errors the interpreter returns -/
namespace Fastroll.Abort
open Fastroll.Pvm Fastroll.Svc

theorem Laid.data {m : Mem} (L : Laid m) {d : List UInt8} (h : d.length = m.data.length) : Laid { m with data := d } :=
  ⟨⟨⟨L.heap.wf.ps, by rw [← L.heap.wf.len]; exact h⟩, L.heap.start, L.heap.lo, L.heap.hi, by rw [h]; exact L.heap.inside, L.heap.ro⟩, L.zone, L.above, L.aligned, by rw [h]; exact L.size⟩

theorem Laid.write {m : Mem} (L : Laid m) (a : Nat) (bs : List UInt8) : Laid (m.writeBytes a bs).2 := by
  unfold Mem.writeBytes
  split
  · exact L
  split
  · exact L
  · rename_i h0 _ h
    refine L.data ?_
    unfold Mem.validate at h
    split at h
    · cases h
    dsimp only at h
    split at h
    · cases h
    · simp only [List.length_append, List.length_take, List.length_drop]; omega

theorem Laid.sbrk {m : Mem} (L : Laid m) {n : Nat} (hn : m.heapEnd + n < m.stackStart) : ∃ m', m.sbrk n = (.ok m.heapEnd, m') ∧ Laid m' := by
  have hi := L.heap.inside
  have hs := L.size
  have h1 : n < 2 ^ 32 := by omega
  have h2 : m.heapEnd + n < 2 ^ 32 := by omega
  have K := sbrk_keeps L.heap n h1 h2
  rcases sbrk_spec L.heap n h1 h2 with ⟨h, _⟩ | ⟨_, acc', e, hl, ha⟩
  · omega
  · refine ⟨_, e, ?_⟩
    rw [e] at K
    refine ⟨K.1, fun x hx => ?_, L.above, L.aligned, hs⟩
    show acc'[x / m.pageSize]? = _
    rw [ha, if_neg]
    · exact L.zone x hx
    · rintro ⟨_, h, _⟩
      obtain ⟨k, hk⟩ := L.aligned
      have hps := L.heap.wf.ps
      have hlo := L.heap.lo
      have hab := L.above
      have h3 : k ≤ m.heapEnd / m.pageSize := (Nat.le_div_iff_mul_le hps).mpr (by rw [Nat.mul_comm]; omega)
      have h4 : x / m.pageSize < k := (Nat.div_lt_iff_lt_mul hps).mpr (by rw [Nat.mul_comm]; have hx' : x < m.zone := hx; omega)
      omega

theorem validate_err {m : Mem} {test : Nat → Bool} {a n : Nat} {e : MemErr} (h : m.validate test a n = .error e) :
    (e = .forbidden a ∧ a < m.zone) ∨ m.data.length < a + n ∨ ∃ b, e = .accessViolation b := by
  unfold Mem.validate at h
  dsimp only at h
  split at h
  · cases h; exact .inl ⟨rfl, by assumption⟩
  split at h
  · exact .inr (.inl (by omega))
  split at h
  · cases h; exact .inr (.inr ⟨_, rfl⟩)
  · cases h

theorem loadRaw_err {m : Mem} {a : Nat} {k : LoadK} {e : MemErr} (h : loadRaw m a k = .error e) :
    (∃ b, e = .forbidden b) ∨ m.data.length < a + k.size ∨ ∃ b, e = .accessViolation b := by
  unfold loadRaw at h
  split at h
  · rename_i h1
    unfold Mem.readByte at h
    split at h
    · cases h; exact .inl ⟨_, rfl⟩
    split at h
    · exact .inr (.inl (by omega))
    split at h
    · cases h
    · cases h; exact .inr (.inr ⟨_, rfl⟩)
  · unfold Mem.readBytes at h
    split at h
    · cases h
    split at h
    · rename_i e' h'
      cases h
      rcases validate_err h' with ⟨rfl, _⟩ | h | h
      · exact .inl ⟨_, rfl⟩
      · exact .inr (.inl h)
      · exact .inr (.inr h)
    · cases h

theorem loadStep_err {vm : VM} {p : Prog} {a : Nat} {k : LoadK} {rd : Nat} {f : Nat → Reg} {e : VmErr}
    (h : loadStep vm p a k rd f = .error e) : vm.mem.data.length < a + k.size := by
  unfold loadStep at h
  split at h
  · cases h
  · cases h
  · cases h
  · rename_i e' h1 h2 h'
    rcases loadRaw_err h' with ⟨b, rfl⟩ | h | ⟨b, rfl⟩
    · exact absurd rfl (h1 b)
    · exact h
    · exact absurd rfl (h2 b)

theorem djump_err {p : Prog} {pc a : Nat} {e : VmErr} : djump p pc a ≠ .error e := by
  unfold djump
  intro h
  split at h
  · cases h
  split at h
  · cases h
  split at h
  · rename_i h1 h2
    rw [List.getElem?_eq_none_iff] at h2
    omega
  · split at h <;> cases h

/-- Executing an instruction fails only on a load past the end of memory and on a heap that is full. -/
theorem singleStep_err {p : Prog} {vm : VM} {ins : Instr} {e : VmErr} {m : Mem} (L : Laid vm.mem) (h : singleStep vm p ins = (.error e, m)) :
    (∃ a w, Touches vm ins a w ∧ vm.mem.data.length < a + w) ∨ (ins.op = .sbrk ∧ vm.mem.stackStart ≤ vm.mem.heapEnd + (vm.r ins.rs1).toNat) := by
  unfold singleStep at h
  dsimp only at h
  split at h
  case h_9 k hop => exact .inl ⟨_, _, .load k hop, loadStep_err (congrArg Prod.fst h)⟩
  case h_17 k hop => exact .inl ⟨_, _, .loadInd k hop, loadStep_err (congrArg Prod.fst h)⟩
  case h_14 hop =>
    by_cases hc : vm.mem.stackStart ≤ vm.mem.heapEnd + (vm.r ins.rs1).toNat
    · exact .inr ⟨hop, hc⟩
    · obtain ⟨m', hm, _⟩ := L.sbrk (n := (vm.r ins.rs1).toNat) (by omega)
      rw [hm] at h
      cases h
  all_goals first
    | cases h
    | (have h1 := congrArg Prod.fst h
       dsimp only at h1
       split at h1
       · exact absurd ‹_› djump_err
       · cases h1)

theorem singleStep_mem {p : Prog} {vm : VM} {ins : Instr} {r} {m : Mem} (L : Laid vm.mem) (h : singleStep vm p ins = (r, m)) :
    (ins.op = .sbrk ∧ vm.mem.stackStart ≤ vm.mem.heapEnd + (vm.r ins.rs1).toNat) ∨ (Laid m ∧ m.data.length = vm.mem.data.length ∧ m.zone = vm.mem.zone) := by
  unfold singleStep at h
  dsimp only at h
  split at h
  case h_14 hop =>
    by_cases hc : vm.mem.stackStart ≤ vm.mem.heapEnd + (vm.r ins.rs1).toNat
    · exact .inl ⟨hop, hc⟩
    · obtain ⟨m', hm, L'⟩ := L.sbrk (n := (vm.r ins.rs1).toNat) (by omega)
      have hi := L.heap.inside
      have hs := L.size
      have K := sbrk_keeps L.heap (vm.r ins.rs1).toNat (by omega) (by omega)
      rw [hm] at h K
      cases h
      exact .inr ⟨L', by rw [K.2.2.1], K.2.2.2.2.1⟩
  all_goals (cases h; exact .inr ⟨L, rfl, rfl⟩)

/-- The octets an instruction stores. -/
theorem singleStep_store {p : Prog} {vm : VM} {ins : Instr} {ex : Exit} {c : Change} {m : Mem} {off : Nat} {bs : List UInt8}
    (h : singleStep vm p ins = (.ok (ex, c), m)) (hc : c.mem = some (off, bs)) : Touches vm ins off bs.length := by
  have hl : ∀ w v, (storeBytes w v).length = w := fun w v => by simp [storeBytes, Codec.leBytes]
  unfold singleStep at h
  dsimp only at h
  split at h
  case h_5 w hop => cases h; cases hc; rw [hl]; exact .storeImm w hop
  case h_10 w hop => cases h; cases hc; rw [hl]; exact .store w hop
  case h_11 w hop => cases h; cases hc; rw [hl]; exact .storeImmInd w hop
  case h_16 w hop => cases h; cases hc; rw [hl]; exact .storeInd w hop
  case h_14 =>
    split at h
    · cases h
    · cases h; cases hc
  case h_9 =>
    have h1 := congrArg Prod.fst h
    dsimp only [loadStep] at h1
    split at h1 <;> cases h1 <;> cases hc
  case h_17 =>
    have h1 := congrArg Prod.fst h
    dsimp only [loadStep] at h1
    split at h1 <;> cases h1 <;> cases hc
  all_goals first
    | (cases h; cases hc)
    | (have h1 := congrArg Prod.fst h
       dsimp only at h1
       split at h1
       · cases h1
       · cases h1; cases hc)

theorem write_err {m : Mem} {a : Nat} {bs : List UInt8} {e : MemErr} {m' : Mem} (h : m.writeBytes a bs = (.error e, m')) :
    (e = .forbidden a ∧ a < m.zone) ∨ m.data.length < a + bs.length ∨ ∃ b, e = .accessViolation b := by
  unfold Mem.writeBytes at h
  split at h
  · cases h
  split at h
  · cases h; exact validate_err ‹_›
  · cases h

/-- **Errors of one instruction.** -/
theorem iter_err {p : Prog} {vm vm' : VM} {e : VmErr} {x : Ctx Global} (L : Laid vm.mem) (h : Pvm.iter p vm = (some (.error e), vm')) : Offends p vm x := by
  unfold Pvm.iter at h
  split at h
  · cases h
  rename_i ins hi
  split at h
  · rename_i e' m hs
    rcases singleStep_err L hs with ⟨a, w, ht, hl⟩ | ⟨ho, hl⟩
    · exact .past ins a w hi ht hl
    · exact .heap ins hi ho hl
  · rename_i ex c m hs
    rcases singleStep_mem L hs with ⟨ho, hl⟩ | ⟨Lm, hlen, hz⟩
    · exact .heap ins hi ho hl
    split at h
    · cases h
    · cases h
    · rename_i e' vm2 ha
      cases h
      unfold VM.apply at ha
      split at ha
      · rename_i e2 vm3 hc
        unfold VM.charge at hc
        split at hc
        · rename_i hbig; exact absurd hbig (by decide)
        split at hc
        · rename_i _ hlow
          have : (INST_GAS.toNat : Int) = 1 := rfl
          have hlow' : vm.gas - (INST_GAS.toNat : Int) < -2 ^ 63 := hlow
          exact .debt (by omega)
        · cases hc
      · rename_i post vm3 hc
        have hm3 : vm3.mem = m := by
          unfold VM.charge at hc
          split at hc
          · cases hc
          split at hc <;> cases hc
          rfl
        split at ha
        · cases ha
        dsimp only at ha
        split at ha
        · split at ha <;> cases ha
        · rename_i off bs hmem
          split at ha
          · cases ha
          rename_i hzone
          split at ha
          · split at ha <;> cases ha
          · cases ha
          · rename_i e3 m3 hne hw
            cases ha
            rcases write_err hw with ⟨rfl, hz'⟩ | hl | ⟨b, rfl⟩
            · exact absurd hz' hzone
            · refine .past ins off bs.length hi (singleStep_store hs hmem) ?_
              rw [hm3, hlen] at hl
              exact hl
            · exact absurd rfl (hne b)
    · split at h
      · cases h
      split at h <;> cases h

theorem charge_mem {vm vm' : VM} {n : Nat} {r} (h : vm.charge n = (r, vm')) : vm'.mem = vm.mem := by
  unfold VM.charge at h
  split at h
  · cases h; rfl
  split at h <;> cases h <;> rfl

theorem apply_laid {vm vm' : VM} {c : Change} {b : Bool} {r : Applied} (L : Laid vm.mem) (h : vm.apply c b = (r, vm')) : Laid vm'.mem := by
  unfold VM.apply at h
  split at h
  · rename_i hc; cases h; rw [charge_mem hc]; exact L
  · rename_i post vm3 hc
    have L3 : Laid vm3.mem := by rw [charge_mem hc]; exact L
    split at h
    · cases h; exact L3
    dsimp only at h
    split at h
    · split at h <;> cases h <;> exact L3
    · rename_i off bs _
      split at h
      · cases h; exact L3
      have Lw := L3.write off bs
      split at h
      all_goals (rename_i hw; rw [hw] at Lw)
      · split at h <;> cases h <;> exact Lw
      · cases h; exact Lw
      · cases h; exact Lw

theorem iter_laid {p : Prog} {vm vm' : VM} {r} {x : Ctx Global} (L : Laid vm.mem) (h : Pvm.iter p vm = (r, vm')) : Offends p vm x ∨ Laid vm'.mem := by
  unfold Pvm.iter at h
  split at h
  · cases h; exact .inr L
  rename_i ins hi
  split at h
  · rename_i e m hs
    rcases singleStep_mem L hs with ⟨ho, hl⟩ | ⟨Lm, _⟩
    · exact .inl (.heap ins hi ho hl)
    · cases h; exact .inr Lm
  · rename_i ex c m hs
    rcases singleStep_mem L hs with ⟨ho, hl⟩ | ⟨Lm, _⟩
    · exact .inl (.heap ins hi ho hl)
    right
    split at h
    all_goals (rename_i ha; have La := apply_laid (vm := { vm with mem := m }) Lm ha)
    · cases h; exact La
    · cases h; exact La
    · cases h; exact La
    · split at h
      · cases h; exact La
      split at h <;> cases h <;> exact La

/-- A range found readable or writable can be read or written. -/
theorem range_zone {m : Mem} (L : Laid m) {test : Nat → Bool} (ht : ∀ p, m.acc[p]? = some .inaccessible → test p = false) {a n : Nat} (hn : 0 < n)
    (h : m.rangeTest test a n = true) : m.validate test a n = .ok () := by
  have h' := (rangeTest_iff L.heap.wf test a n hn).mp h
  unfold Mem.rangeTest at h
  rw [if_neg (by omega)] at h
  dsimp only at h
  split at h
  · cases h
  rename_i hlen
  have hz : ¬ a < m.zone := by
    intro hz
    have h0 := ht _ (L.zone a hz)
    rw [allPages_iff] at h
    have := h (m.page a) (Nat.le_refl _) (by
      have := Nat.div_le_div_right (c := m.pageSize) (show a ≤ a + n - 1 by omega)
      unfold Mem.page; omega)
    unfold Mem.page at this
    rw [h0] at this; cases this
  unfold Mem.validate
  rw [if_neg hz]
  dsimp only
  rw [if_neg (by omega)]
  have : m.firstBad test (m.page a) (m.page (a + n - 1) + 1 - m.page a) = none := by
    rw [firstBad_none]
    rw [allPages_iff] at h
    exact h
  rw [this]

theorem write_of_writable {m : Mem} (L : Laid m) {a : Nat} {bs : List UInt8} (h : m.rangeWritable a bs.length = true) : ∃ m', m.writeBytes a bs = (.ok (), m') := by
  unfold Mem.writeBytes
  split
  · exact ⟨_, rfl⟩
  · rw [range_zone L (fun p hp => by simp [Mem.pageWritable, hp]) (by omega) h]
    exact ⟨_, rfl⟩

theorem read_of_readable {m : Mem} (L : Laid m) {a n : Nat} (h : m.rangeReadable a n = true) : ∃ bs, m.readBytes a n = .ok bs := by
  unfold Mem.readBytes
  split
  · exact ⟨_, rfl⟩
  · rw [range_zone L (fun p hp => by simp [Mem.pageReadable, hp]) (by omega) h]
    exact ⟨_, rfl⟩

/-- The inner loop passes through configurations and ends in one whose next instruction is the last. -/
theorem runFuel_last {σ : Type} {p : Prog} {host : Host σ} (s : σ) : ∀ (n : Nat) {vm vm' : VM} {r}, runFuel p n vm = (some r, vm') →
    ∃ vm1, Pvm.iter p vm1 = (some r, vm') ∧ Visits p host vm s vm1 s ∧
      ∀ vm2 t, Visits p host vm1 s vm2 t → Visits p host vm s vm2 t
  | 0, vm, vm', r, h => by cases h
  | n + 1, vm, vm', r, h => by
    rw [runFuel] at h
    split at h
    · rename_i vm1 hi
      obtain ⟨v, h1, h2, h3⟩ := runFuel_last s n h
      exact ⟨v, h1, .step hi h2, fun vm2 t ht => .step hi (h3 vm2 t ht)⟩
    · rename_i r' vm1 hi
      cases h
      exact ⟨vm, hi, .here _ _, fun _ _ h => h⟩

theorem runFuel_laid {σ : Type} {p : Prog} {host : Host σ} (s : σ) (x : Ctx Global) : ∀ (n : Nat) {vm vm' : VM} {r}, Laid vm.mem → runFuel p n vm = (r, vm') →
    (∃ vm1, Visits p host vm s vm1 s ∧ Offends p vm1 x) ∨ Laid vm'.mem
  | 0, vm, vm', r, L, h => by cases h; exact .inr L
  | n + 1, vm, vm', r, L, h => by
    rw [runFuel] at h
    split at h
    · rename_i vm1 hi
      rcases iter_laid (x := x) L hi with ho | L1
      · exact .inl ⟨vm, .here _ _, ho⟩
      · rcases runFuel_laid s x n L1 h with ⟨v, h1, h2⟩ | L2
        · exact .inl ⟨v, .step hi h1, h2⟩
        · exact .inr L2
    · rename_i r' vm1 hi
      cases h
      rcases iter_laid (x := x) L hi with ho | L1
      · exact .inl ⟨vm, .here _ _, ho⟩
      · exact .inr L1

end Fastroll.Abort
