import Verif.Pvm.InterpSpec
import Verif.Pvm.AluSpec
import Verif.Pvm.MemSpec
/-!
# What one PVM instruction should do, from its bytes to the new state

Written from the Gray Paper's appendix A.5: instruction numbers, operand formats read from the code
as if it continued with zeros, and the effect of each instruction on registers, memory and the
program counter as a relation. Nothing here uses the model's decoder or executor.
-/
namespace Fastroll.Pvm.Paper

/-- `ζ`: the code, continued with zeros. -/
def oct (code : List UInt8) (i : Nat) : Nat := (code.getD i 0).toNat

/-- The little-endian number in `n` octets from `i`. -/
def le (code : List UInt8) (i n : Nat) : Nat := ((List.range n).map fun k => oct code (i + k) * 256 ^ k).sum

/-- `X_n`: sign extension of `n` octets to 64 bits. -/
def X (n x : Nat) : Nat := if n = 0 then 0 else x + x / 2 ^ (8 * n - 1) * (2 ^ 64 - 2 ^ (8 * n))

/-- A sign-extended immediate of `n` octets at `i`. -/
def imm (code : List UInt8) (i n : Nat) : Nat := X n (le code i n)

/-- A signed offset of `n` octets at `i`. -/
def off (code : List UInt8) (i n : Nat) : Int := if n = 0 then 0 else Z (8 * n) (le code i n)

/-- What an instruction number stands for. Loads and stores carry their width in octets, loads whether
they extend the sign. -/
inductive Inst where
  | trap | fallthrough | ecalli | loadImm64 | storeImm (w : Nat) | jump | jumpInd | loadImm
  | load (w : Nat) (signed : Bool) | store (w : Nat) | storeImmInd (w : Nat) | loadImmJump | branchImm (c : Cond)
  | sbrk | two (o : Op2) | storeInd (w : Nat) | loadInd (w : Nat) (signed : Bool) | imm (o : OpImm)
  | branch (c : Cond) | loadImmJumpInd | three (o : Op3)
deriving DecidableEq, Repr

/-- The instruction numbers of appendix A.5. -/
def table : List (Nat × Inst) :=
  [(0, .trap), (1, .fallthrough), (10, .ecalli), (20, .loadImm64),
   (30, .storeImm 1), (31, .storeImm 2), (32, .storeImm 4), (33, .storeImm 8), (40, .jump),
   (50, .jumpInd), (51, .loadImm), (52, .load 1 false), (53, .load 1 true), (54, .load 2 false), (55, .load 2 true),
   (56, .load 4 false), (57, .load 4 true), (58, .load 8 false), (59, .store 1), (60, .store 2), (61, .store 4), (62, .store 8),
   (70, .storeImmInd 1), (71, .storeImmInd 2), (72, .storeImmInd 4), (73, .storeImmInd 8),
   (80, .loadImmJump), (81, .branchImm .eq), (82, .branchImm .ne), (83, .branchImm .ltU), (84, .branchImm .leU),
   (85, .branchImm .geU), (86, .branchImm .gtU), (87, .branchImm .ltS), (88, .branchImm .leS), (89, .branchImm .geS),
   (90, .branchImm .gtS),
   (100, .two .moveReg), (101, .sbrk), (102, .two .countSetBits64), (103, .two .countSetBits32),
   (104, .two .leadingZeroBits64), (105, .two .leadingZeroBits32), (106, .two .trailingZeroBits64),
   (107, .two .trailingZeroBits32), (108, .two .signExtend8), (109, .two .signExtend16), (110, .two .zeroExtend16),
   (111, .two .reverseBytes),
   (120, .storeInd 1), (121, .storeInd 2), (122, .storeInd 4), (123, .storeInd 8), (124, .loadInd 1 false),
   (125, .loadInd 1 true), (126, .loadInd 2 false), (127, .loadInd 2 true), (128, .loadInd 4 false), (129, .loadInd 4 true),
   (130, .loadInd 8 false),
   (131, .imm .addImm32), (132, .imm .andImm), (133, .imm .xorImm), (134, .imm .orImm), (135, .imm .mulImm32),
   (136, .imm .setLtUImm), (137, .imm .setLtSImm), (138, .imm .shloLImm32), (139, .imm .shloRImm32), (140, .imm .sharRImm32),
   (141, .imm .negAddImm32), (142, .imm .setGtUImm), (143, .imm .setGtSImm), (144, .imm .shloLImmAlt32),
   (145, .imm .shloRImmAlt32), (146, .imm .sharRImmAlt32), (147, .imm .cmovIzImm), (148, .imm .cmovNzImm),
   (149, .imm .addImm64), (150, .imm .mulImm64), (151, .imm .shloLImm64), (152, .imm .shloRImm64), (153, .imm .sharRImm64),
   (154, .imm .negAddImm64), (155, .imm .shloLImmAlt64), (156, .imm .shloRImmAlt64), (157, .imm .sharRImmAlt64),
   (158, .imm .rotR64Imm), (159, .imm .rotR64ImmAlt), (160, .imm .rotR32Imm), (161, .imm .rotR32ImmAlt),
   (170, .branch .eq), (171, .branch .ne), (172, .branch .ltU), (173, .branch .ltS), (174, .branch .geU), (175, .branch .geS),
   (180, .loadImmJumpInd),
   (190, .three .add32), (191, .three .sub32), (192, .three .mul32), (193, .three .divU32), (194, .three .divS32),
   (195, .three .remU32), (196, .three .remS32), (197, .three .shloL32), (198, .three .shloR32), (199, .three .sharR32),
   (200, .three .add64), (201, .three .sub64), (202, .three .mul64), (203, .three .divU64), (204, .three .divS64),
   (205, .three .remU64), (206, .three .remS64), (207, .three .shloL64), (208, .three .shloR64), (209, .three .sharR64),
   (210, .three .and), (211, .three .xor), (212, .three .or), (213, .three .mulUpperSS), (214, .three .mulUpperUU),
   (215, .three .mulUpperSU), (216, .three .setLtU), (217, .three .setLtS), (218, .three .cmovIz), (219, .three .cmovNz),
   (220, .three .rotL64), (221, .three .rotL32), (222, .three .rotR64), (223, .three .rotR32), (224, .three .andInv),
   (225, .three .orInv), (226, .three .xnor), (227, .three .max), (228, .three .maxU), (229, .three .min),
   (230, .three .minU)]

/-- The instruction with a given number; numbers without one trap. -/
def inst (c : Nat) : Inst :=
  match table.find? fun e => e.1 == c with
  | some e => e.2
  | none => .trap

/-- The comparison of a branch. -/
def holds : Cond → (a b : Nat) → Prop
  | .eq, a, b => a = b
  | .ne, a, b => a ≠ b
  | .ltU, a, b => a < b
  | .leU, a, b => a ≤ b
  | .geU, a, b => b ≤ a
  | .gtU, a, b => b < a
  | .ltS, a, b => Z 64 a < Z 64 b
  | .leS, a, b => Z 64 a ≤ Z 64 b
  | .geS, a, b => Z 64 b ≤ Z 64 a
  | .gtS, a, b => Z 64 b < Z 64 a

/-- What an instruction wants done, its operands filled in. -/
inductive Eff where
  /-- Go on. -/
  | next
  | trap
  /-- Ask the host. -/
  | host (n : Nat)
  /-- Put into a register a number with a property. -/
  | set (r : Nat) (ok : Nat → Prop)
  /-- Load `w` octets at `a`. -/
  | load (r a w : Nat) (signed : Bool)
  /-- Store the low `w` octets of `v` at `a`. -/
  | store (a w v : Nat)
  /-- Go to `t` if the condition holds, writing a register first. -/
  | branch (cond : Prop) (t : Int) (link : Option (Nat × Nat))
  /-- Go through the jump table, writing a register first. -/
  | djump (a : Nat) (link : Option (Nat × Nat))
  /-- Grow the heap. -/
  | grow

/-- The operands and effect of the instruction at `i` with skip `ℓ`, for registers `φ`. -/
def effect (code : List UInt8) (i ℓ : Nat) (φ : Nat → Nat) : Eff :=
  let b := oct code (i + 1)
  let lo := min 12 (b % 16)
  let hi := min 12 (b / 16)
  match inst (oct code i) with
  | .trap => .trap
  | .fallthrough => .next
  | .ecalli => .host (imm code (i + 1) (min 4 ℓ))
  | .loadImm64 => .set lo (· = le code (i + 2) 8)
  | .storeImm w =>
    let lx := min 4 (b % 8)
    .store (imm code (i + 2) lx) w (imm code (i + 2 + lx) (min 4 (ℓ - lx - 1)))
  | .jump => .branch True (i + off code (i + 1) (min 4 ℓ)) none
  | .jumpInd => .djump ((φ lo + imm code (i + 2) (min 4 (ℓ - 1))) % 2 ^ 32) none
  | .loadImm => .set lo (· = imm code (i + 2) (min 4 (ℓ - 1)))
  | .load w s => .load lo (imm code (i + 2) (min 4 (ℓ - 1))) w s
  | .store w => .store (imm code (i + 2) (min 4 (ℓ - 1))) w (φ lo)
  | .storeImmInd w =>
    let lx := min 4 (b / 16 % 8)
    .store (φ lo + imm code (i + 2) lx) w (imm code (i + 2 + lx) (min 4 (ℓ - lx - 1)))
  | .loadImmJump =>
    let lx := min 4 (b / 16 % 8)
    .branch True (i + off code (i + 2 + lx) (min 4 (ℓ - lx - 1))) (some (lo, imm code (i + 2) lx))
  | .branchImm c =>
    let lx := min 4 (b / 16 % 8)
    .branch (holds c (φ lo) (imm code (i + 2) lx)) (i + off code (i + 2 + lx) (min 4 (ℓ - lx - 1))) none
  | .sbrk => .grow
  | .two o => .set lo (o.Spec (φ hi))
  | .storeInd w => .store (φ hi + imm code (i + 2) (min 4 (ℓ - 1))) w (φ lo)
  | .loadInd w s => .load lo (φ hi + imm code (i + 2) (min 4 (ℓ - 1))) w s
  | .imm o => .set lo (· = o.spec (φ lo) (φ hi) (imm code (i + 2) (min 4 (ℓ - 1))))
  | .branch c => .branch (holds c (φ lo) (φ hi)) (i + off code (i + 2) (min 4 (ℓ - 1))) none
  | .loadImmJumpInd =>
    let lx := min 4 (oct code (i + 2) % 8)
    .djump ((φ hi + imm code (i + 3 + lx) (min 4 (ℓ - lx - 2))) % 2 ^ 32) (some (lo, imm code (i + 3) lx))
  | .three o =>
    let rd := min 12 (oct code (i + 2))
    .set rd (· = o.spec (φ rd) (φ lo) (φ hi))

/-- A machine state: registers, memory and program counter. -/
structure State where
  reg : Nat → Nat
  mem : PMem
  pc : Nat

/-- How a step ends. -/
inductive Out where
  | cont | halt | panic | fault (a : Nat) | host (n : Nat)

/-- Writing a register. -/
def put (φ : Nat → Nat) (r v : Nat) : Nat → Nat := fun x => if x = r then v else φ x

def link (φ : Nat → Nat) : Option (Nat × Nat) → Nat → Nat
  | some (r, v) => put φ r v
  | none => φ

/-- The number in `w` octets of memory. -/
def word (m : PMem) (a w : Nat) : Nat := ((List.range w).map fun k => (m.byte (a + k)).toNat * 256 ^ k).sum

/-- The first address of a range without a permission. -/
structure FirstWithout (ok : Nat → Prop) (a w y : Nat) : Prop where
  lo : a ≤ y
  hi : y < a + w
  bad : ¬ ok y
  first : ∀ z, a ≤ z → z < y → ok z

/-- The state transition for an effect: `nxt` is the position after the instruction, `starts` the basic
blocks, `jt` the jump table, `zone` the size of the forbidden area at the bottom of memory. Addresses
are taken modulo `2^32`. -/
inductive Does (starts : Nat → Prop) (jt : List Nat) (zone nxt : Nat) (s : State) : Eff → Out → State → Prop
  | next : Does starts jt zone nxt s .next .cont { s with pc := nxt }
  | trap : Does starts jt zone nxt s .trap .panic s
  | host {n} : Does starts jt zone nxt s (.host n) (.host n) s
  | set {r ok v} (h : ok v) : Does starts jt zone nxt s (.set r ok) .cont { s with reg := put s.reg r v, pc := nxt }
  | loadZone {r a w sg} (h : a % 2 ^ 32 < zone) : Does starts jt zone nxt s (.load r a w sg) .panic s
  | loadFault {r a w sg y} (h : zone ≤ a % 2 ^ 32)
      (hy : FirstWithout (fun x => s.mem.perm x ≠ .inaccessible) (a % 2 ^ 32) w y) :
      Does starts jt zone nxt s (.load r a w sg) (.fault y) s
  | load {r a w sg} (h : zone ≤ a % 2 ^ 32)
      (hp : ∀ x, a % 2 ^ 32 ≤ x → x < a % 2 ^ 32 + w → s.mem.perm x ≠ .inaccessible) :
      Does starts jt zone nxt s (.load r a w sg) .cont
        { s with
          reg := put s.reg r (if sg = true then X w (word s.mem (a % 2 ^ 32) w) else word s.mem (a % 2 ^ 32) w)
          pc := nxt }
  | storeZone {a w v} (h : a % 2 ^ 32 < zone) : Does starts jt zone nxt s (.store a w v) .panic s
  | storeFault {a w v y} (h : zone ≤ a % 2 ^ 32)
      (hy : FirstWithout (fun x => s.mem.perm x = .readWrite) (a % 2 ^ 32) w y) :
      Does starts jt zone nxt s (.store a w v) (.fault y) s
  | store {a w v} (h : zone ≤ a % 2 ^ 32)
      (hp : ∀ x, a % 2 ^ 32 ≤ x → x < a % 2 ^ 32 + w → s.mem.perm x = .readWrite) :
      Does starts jt zone nxt s (.store a w v) .cont
        { s with
          mem := { s.mem with
            byte := fun x => if a % 2 ^ 32 ≤ x ∧ x < a % 2 ^ 32 + w then UInt8.ofNat (v / 256 ^ (x - a % 2 ^ 32) % 256) else s.mem.byte x }
          pc := nxt }
  | notTaken {c} {t : Int} {l} (h : ¬ c) : Does starts jt zone nxt s (.branch c t l) .cont { s with reg := link s.reg l, pc := nxt }
  | taken {c} {t : Int} {l} (n : Nat) (h : c) (ht : t = n) (hs : starts n) :
      Does starts jt zone nxt s (.branch c t l) .cont { s with reg := link s.reg l, pc := n }
  | badTarget {c} {t : Int} {l} (h : c) (ht : ∀ n : Nat, t = n → ¬ starts n) :
      Does starts jt zone nxt s (.branch c t l) .panic { s with reg := link s.reg l }
  | halt {a l} (h : a = 2 ^ 32 - 2 ^ 16) : Does starts jt zone nxt s (.djump a l) .halt { s with reg := link s.reg l }
  | djump {a l} (h : a ≠ 2 ^ 32 - 2 ^ 16) (k t : Nat) (ha : a = 2 * (k + 1)) (hk : jt[k]? = some t) (hs : starts t) :
      Does starts jt zone nxt s (.djump a l) .cont { s with reg := link s.reg l, pc := t }
  | badJump {a l} (h : a ≠ 2 ^ 32 - 2 ^ 16) (hk : ∀ k t : Nat, a = 2 * (k + 1) → jt[k]? = some t → ¬ starts t) :
      Does starts jt zone nxt s (.djump a l) .panic { s with reg := link s.reg l }

/-- The positions an effect can send control to. -/
def Eff.Target (jt : List Nat) (n : Nat) : Eff → Prop
  | .branch _ t _ => t = n
  | .djump a _ => ∃ k : Nat, a = 2 * (k + 1) ∧ jt[k]? = some n
  | _ => False

/-- Effects for which the code's step is the paper's: heap growth is treated elsewhere, a host function
number is kept only modulo 256, and a range reaching past the end of memory is an error instead of a
fault. -/
def Eff.Regular (size : Nat) : Eff → Prop
  | .grow => False
  | .host n => n < 256
  | .load _ a w _ => a % 2 ^ 32 + w ≤ size
  | .store a w _ => a % 2 ^ 32 + w ≤ size
  | _ => True

instance (size : Nat) (e : Eff) : Decidable (e.Regular size) := by
  cases e <;> simp only [Eff.Regular] <;> infer_instance

/-- `n` steps of a program with instruction positions `mask`, none of which ends the execution. -/
inductive Runs (code : List UInt8) (mask : List Bool) (jt : List Nat) (zone : Nat) : Nat → State → State → Prop
  | done {s} : Runs code mask jt zone 0 s s
  | step {n ℓ s s1 s2} (hs : StartsAt mask s.pc) (hℓ : IsSkip mask code.length s.pc ℓ)
      (h : Does (IsBlockStart code mask) jt zone (s.pc + 1 + ℓ) s (effect code s.pc ℓ s.reg) .cont s1)
      (hr : Runs code mask jt zone n s1 s2) : Runs code mask jt zone (n + 1) s s2

end Fastroll.Pvm.Paper
