import Verif.Host.Spec
import Verif.Refine.Lemmas
import Verif.Svc.PropsAcc

/-! Lemmas: the paper's view of a context, footprints, memory areas. -/
namespace Fastroll.Host
open Fastroll.Pvm Fastroll.Svc
open Refine (Sound sound_read sound_write sound_bound octets_length octets_get readMem_spec)
open Refine.Paper (CanRead CanWrite octets)
open Pvm.Paper (word)
open Paper (Acct Holds Needs Const Res Acts Answers Offers FirstFree Listed cells little named fresh)

/-- The account `s` of plain maps, without its counters. -/
def acct (a : Global) (s : Nat) : Option Acct := (a.metas s).map fun m =>
  { code := m.codeHash, balance := m.balance, minAcc := m.gasAcc, minMemo := m.gasXfer, gratis := m.gratis,
    created := m.created, last := m.lastAcc, parent := m.parent, storage := a.storage s, preimages := a.preimages s,
    requests := fun h z => a.lookups s (h, z) }

/-- The paper's view of a context. -/
def paper (x : Svc.Ctx Global) : Paper.Ctx where
  self := x.host
  accts := acct x.p.boxes
  manager := x.p.manager
  assigner := x.p.assign.current
  delegator := x.p.designate.current
  registrar := x.p.registrar.current
  always := assocGet x.p.always
  queue := fun c => x.p.authQueue[c]?
  staged := x.p.staging
  next := x.nextId
  transfers := x.transfers.map fun t => ⟨t.src, t.dst, t.amount, t.memo, t.gas⟩
  yielded := x.yielded
  provided := fun s d => (s, d) ∈ x.provided

def consts (env : Env) : Const where
  cores := env.par.cores
  validators := env.par.validators
  expiry := env.par.expiry
  queueLen := env.par.authQueue
  keyLen := env.par.keySize
  memoLen := env.par.memo
  slot := env.slot
  hash := env.hash

/-- The machine change a result stands for. What is left of the gas when it runs out is not told. -/
def Means : Res → HostResult → Prop
  | .outOfGas, r => r.exit = .outOfGas
  | .panic, r => r = hpanic
  | .ret r7 r8 w e, r => r = ⟨.cont, BASE_GAS + e, some (reg r7), r8.map reg, w⟩

/-- The call `h` was answered, and as the paper says. -/
def Follows (env : Env) (vm : VM) (q : Pair Global) (h : Nat) (out : Except VmErr HostResult × Pair Global) : Prop :=
  ∃ res r, out.1 = .ok r ∧ Means res r ∧
    Answers (consts env) (env.fetch vm) (VM.n vm) vm.mem.abs vm.gas (paper q.x) (paper q.y) h res (paper out.2.x) (paper out.2.y)

/-- The same for a function of the regular context. -/
def ActsAs (env : Env) (vm : VM) (x : Svc.Ctx Global) (h : Nat) (out : Except VmErr HostResult × Svc.Ctx Global) : Prop :=
  ∃ res r, out.1 = .ok r ∧ Means res r ∧
    Acts (consts env) (env.fetch vm) (VM.n vm) vm.mem.abs vm.gas (paper x) h res (paper out.2)

theorem means_ret (n : Nat) : Means (.just n) (ret n) := rfl
theorem means_panic : Means .panic hpanic := rfl

/-! ## Accounts -/

theorem acct_some {a : Global} {s : Nat} {m : Meta} (h : a.metas s = some m) : acct a s = some
    { code := m.codeHash, balance := m.balance, minAcc := m.gasAcc, minMemo := m.gasXfer, gratis := m.gratis,
      created := m.created, last := m.lastAcc, parent := m.parent, storage := a.storage s, preimages := a.preimages s,
      requests := fun h z => a.lookups s (h, z) } := by
  simp only [acct, h, Option.map_some]

theorem acct_none {a : Global} {s : Nat} (h : a.metas s = none) : acct a s = none := by
  simp only [acct, h, Option.map_none]

theorem acct_isSome (a : Global) (s : Nat) : (acct a s).isSome = (a.metas s).isSome := by
  simp [acct]

theorem holds_iff (f : Bytes → Option Bytes) (l : LKey → Option (List Nat)) (ks : List Bytes) (ls : List LKey) (h1 : Enum f ks) :
    total storWeight f ks + total lookWeight l ls =
      total lookWeight l ls + (ks.map fun k => 34 + k.length + ((f k).getD []).length).sum := by
  rw [Nat.add_comm]
  congr 1
  unfold total
  congr 1
  refine List.map_congr_left fun k hk => ?_
  obtain ⟨v, hv⟩ := Option.isSome_iff_exists.1 ((h1.2 k).1 hk)
  simp only [wt, hv, storWeight, Option.getD_some]

theorem look_total (l : LKey → Option (List Nat)) (ls : List LKey) (h : Enum l ls) :
    total lookWeight l ls = (ls.map fun k => 81 + k.2).sum := by
  unfold total
  congr 1
  refine List.map_congr_left fun k hk => ?_
  obtain ⟨v, hv⟩ := Option.isSome_iff_exists.1 ((h.2 k).1 hk)
  simp only [wt, hv, lookWeight]

/-- What an account uses is what the paper counts. -/
theorem holds_of {a : Global} {s i o : Nat} {p : Acct} (U : Usage a s i o) (hs : p.storage = a.storage s)
    (hl : p.requests = fun h z => a.lookups s (h, z)) : Holds p i o := by
  obtain ⟨ks, ls, h1, h2, h3, h4⟩ := U
  refine ⟨ks, ls, h1.1, h2.1, fun k => by rw [hs]; exact h1.2 k, fun h z => by rw [hl]; exact h2.2 (h, z), by omega, ?_⟩
  rw [h4, holds_iff _ _ _ _ h1, look_total _ _ h2, hs]

theorem needs_of {a : Global} {s i o : Nat} {p : Acct} (U : Usage a s i o) (hs : p.storage = a.storage s)
    (hl : p.requests = fun h z => a.lookups s (h, z)) : Needs p (deposit i o - p.gratis) :=
  ⟨i, o, holds_of U hs hl, rfl⟩

/-- Room in the counters for what one call can add. -/
def Roomy (a : Global) : Prop := ∀ s m, a.metas s = some m → m.items + 2 < U32 ∧ m.octets < 2 ^ 63

theorem roomy_deposit {m : Meta} (h : m.items + 2 < U32 ∧ m.octets < 2 ^ 63) : deposit m.items m.octets < U64 := by
  unfold deposit U32 U64 at *; omega

theorem put_eq (x : Svc.Ctx Global) (bs : Global) (s : Nat)
    (h : ∀ k, k ≠ s → acct bs k = acct x.p.boxes k) : paper (x.setBoxes bs) = (paper x).put s (acct bs s) := by
  unfold paper Paper.Ctx.put Ctx.setBoxes
  congr 1
  funext k
  dsimp only
  split
  · rename_i e; rw [e]
  · exact h k ‹_›

theorem same_boxes (x : Svc.Ctx Global) : x.setBoxes x.p.boxes = x := rfl

theorem acct_congr {a b : Global} {k : Nat} (h1 : a.metas k = b.metas k) (h2 : a.storage k = b.storage k)
    (h3 : a.preimages k = b.preimages k) (h4 : a.lookups k = b.lookups k) : acct a k = acct b k := by
  unfold acct; rw [h1, h2, h3, h4]

/-! ## Memory -/

theorem readHash_spec {vm : VM} (h : Sound vm.mem) (r : Nat) :
    readHash vm r = some (octets vm.mem.abs (VM.n vm r) 32) ∧ CanRead vm.mem.abs (VM.n vm r) 32 ∨
    readHash vm r = none ∧ ¬ CanRead vm.mem.abs (VM.n vm r) 32 := by
  have e : readHash vm r = (u32? vm r).bind (fun a => readMem vm a 32) := by
    unfold readHash
    cases u32? vm r <;> rfl
  rw [e]
  exact readMem_spec h r 32 (.inr (by decide))

theorem u32_cases (vm : VM) (r : Nat) : (u32? vm r = some (VM.n vm r) ∧ VM.n vm r < 2 ^ 32) ∨ (u32? vm r = none ∧ 2 ^ 32 ≤ VM.n vm r) := by
  unfold u32?
  by_cases c : VM.n vm r < U32
  · exact .inl ⟨if_pos c, c⟩
  · exact .inr ⟨if_neg c, by unfold U32 at c; omega⟩

/-- Reading at a register that holds an address. -/
theorem read_at {vm : VM} (h : Sound vm.mem) (r n : Nat) :
    readMem vm (VM.n vm r) n = some (octets vm.mem.abs (VM.n vm r) n) ∧ CanRead vm.mem.abs (VM.n vm r) n ∨
    readMem vm (VM.n vm r) n = none ∧ ¬ CanRead vm.mem.abs (VM.n vm r) n := by
  obtain ⟨h1, h2⟩ := sound_read h (VM.n vm r) n
  unfold readMem
  by_cases hc : CanRead vm.mem.abs (VM.n vm r) n
  · left; rw [if_pos (h1.2 hc), h2 hc]; exact ⟨rfl, hc⟩
  · right; rw [if_neg (fun e => hc (h1.1 e))]; exact ⟨rfl, hc⟩

/-- No wide address starts a readable area. -/
theorem wide_unreadable {vm : VM} (h : Sound vm.mem) {a n : Nat} (hn : n ≠ 0) (ha : 2 ^ 32 ≤ a) : ¬ CanRead vm.mem.abs a n := fun hc =>
  absurd (sound_bound h a (hc a (Nat.le_refl _) (by omega))) (by omega)

theorem serve_offers {vm : VM} (h : Sound vm.mem) (v : Bytes) (b f l : Nat) (hb : VM.n vm b < 2 ^ 32) :
    ∃ res, Means res (serve vm v b f l) ∧ Offers vm.mem.abs (VM.n vm b) (VM.n vm f) (VM.n vm l) (some v) res := by
  unfold serve
  rcases u32_cases vm b with ⟨e, _⟩ | ⟨_, e⟩
  · simp only [e]
    generalize hn : min (VM.n vm l) (v.length - min (VM.n vm f) v.length) = n
    by_cases c : CanWrite vm.mem.abs (VM.n vm b) n
    · have e2 := (sound_write h (VM.n vm b) n).1.2 c
      refine ⟨_, ?_, .some (by rw [hn]; exact c)⟩
      simp only [e2, Bool.not_true, Bool.false_eq_true, if_false, hn]
      rfl
    · have e2 : vm.mem.rangeWritable (VM.n vm b) n = false := by
        cases hc : vm.mem.rangeWritable (VM.n vm b) n with
        | false => rfl
        | true => exact absurd ((sound_write h (VM.n vm b) n).1.1 hc) c
      refine ⟨.panic, ?_, .panic (by rw [hn]; exact c)⟩
      simp only [e2, Bool.not_false, if_true]
      rfl
  · omega

theorem octets_append (m : PMem) (a n k : Nat) : octets m a (n + k) = octets m a n ++ octets m (a + n) k := by
  unfold octets
  rw [List.range_add, List.map_append, List.map_map]
  congr 1
  refine List.map_congr_left fun i _ => ?_
  simp only [Function.comp, Nat.add_assoc]

theorem octets_take (m : PMem) (a n k : Nat) : (octets m a (n + k)).take n = octets m a n := by
  rw [octets_append, List.take_left' (octets_length m a n)]

theorem octets_drop (m : PMem) (a n k : Nat) : (octets m a (n + k)).drop n = octets m (a + n) k := by
  rw [octets_append, List.drop_left' (octets_length m a n)]

theorem chunks_octets (m : PMem) (z : Nat) : ∀ (n a : Nat), chunks z n (octets m a (z * n)) = cells m a z n := by
  intro n
  induction n with
  | zero => intro a; rfl
  | succ n ih =>
    intro a
    have e : z * (n + 1) = z + z * n := by rw [Nat.mul_succ, Nat.add_comm]
    rw [e]
    show (octets m a (z + z * n)).take z :: chunks z n ((octets m a (z + z * n)).drop z) = _
    rw [octets_take, octets_drop, ih]
    unfold cells
    rw [List.range_succ_eq_map, List.map_cons, List.map_map]
    congr 1
    refine List.map_congr_left fun i _ => ?_
    simp only [Function.comp]
    congr 1
    rw [Nat.mul_succ]; omega

theorem fromLE_word (m : PMem) (n : Nat) : ∀ a, Svc.fromLE (octets m a n) = word m a n := by
  induction n with
  | zero => intro a; rfl
  | succ n ih =>
    intro a
    have e : octets m a (n + 1) = m.byte a :: octets m (a + 1) n := by
      rw [Nat.add_comm n 1, octets_append]; rfl
    rw [e]
    show (m.byte a).toNat + 256 * Svc.fromLE (octets m (a + 1) n) = _
    rw [ih]
    unfold word
    rw [List.range_succ_eq_map, List.map_cons, List.sum_cons, List.map_map]
    congr 1
    · simp
    · have : ∀ l : List Nat, 256 * (l.map fun k => (m.byte (a + 1 + k)).toNat * 256 ^ k).sum =
          (l.map ((fun k => (m.byte (a + k)).toNat * 256 ^ k) ∘ Nat.succ)).sum := by
        intro l
        induction l with
        | nil => rfl
        | cons k l ihl =>
          simp only [List.map_cons, List.sum_cons, Nat.mul_add, ihl, Function.comp]
          congr 1
          rw [Nat.succ_eq_add_one, Nat.pow_succ, show a + 1 + k = a + (k + 1) by omega]
          rw [Nat.mul_comm 256, Nat.mul_assoc]
      exact this _

theorem le_leBytes (n x : Nat) : Codec.leBytes n x = little n x := by
  unfold Codec.leBytes little
  refine List.map_congr_left fun i _ => ?_
  rw [Nat.shiftRight_eq_div_pow, Nat.pow_mul, show (0xFF : Nat) = 2 ^ 8 - 1 from rfl, Nat.and_two_pow_sub_one_eq_mod,
    show (2 : Nat) ^ 8 = 256 from rfl]
  apply UInt8.toNat_inj.1
  simp

end Fastroll.Host
