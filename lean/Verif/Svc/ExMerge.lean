import Verif.Svc.LemmasSave
import Verif.Svc.LemmasPriv
import Verif.Svc.Ex

/-! # Concrete rounds, used only by the examples beside the theorems -/
namespace Fastroll.Svc.ExM
open Fastroll.Pvm

/-- A program that makes the given host calls and then halts through register 0. -/
def code (calls : List Nat) : List UInt8 × List Bool :=
  ([0, 0, 0, 0, 0] ++ (calls.map fun c => [10, UInt8.ofNat c]).flatten ++ [50, 0],
   List.replicate 5 true ++ (calls.map fun _ => [true, false]).flatten ++ [true, false])

def prog (calls : List Nat) : Option Prog :=
  match loadParts (code calls).1 (code calls).2 [] with
  | .ok p => some p
  | .error _ => none

/-- Memory: 32 zeros, `1, 9, 8, 7`, then at 40 the assigners 1 and 5, at 48 the assigners 9 and 9. -/
def mem : Mem := { data := List.replicate 32 0 ++ [1, 9, 8, 7] ++ List.replicate 4 0 ++ [1, 0, 0, 0, 5, 0, 0, 0] ++ [9, 0, 0, 0, 9, 0, 0, 0] ++ List.replicate 200 0, acc := [.readWrite], pageSize := 256, zone := 0 }

def vm (r7 r8 r9 r10 r11 r12 : Nat) : VM :=
  { regs := [reg 0xFFFF0000, 0, 0, 0, 0, 0, 0, reg r7, reg r8, reg r9, reg r10, reg r11, reg r12], mem := mem, pc := 0, gas := 0 }

/-- The code of each service is one octet, its program is in this table: the calls and the registers. -/
def machine (t : Nat → List Nat × VM) : Machine where
  decode := some
  load := fun c =>
    match c with
    | [n] => (prog (t n.toNat).1).map fun p => (p, some (t n.toNat).2)
    | _ => none

def codeHash (n : Nat) : Bytes := List.replicate 32 (UInt8.ofNat n)
def metaN (n : Nat) : Meta := { codeHash := codeHash n, balance := 10000, octets := 0, items := 0 }

/-- Services 1, 5 and 6 with their code. -/
def g : Global where
  metas := fun s => if s = 1 ∨ s = 5 ∨ s = 6 then some (metaN s) else none
  storage := fun _ _ => none
  preimages := fun s h => if (s = 1 ∨ s = 5 ∨ s = 6) ∧ h = codeHash s then some [UInt8.ofNat s] else none
  lookups := fun _ _ => none

/-- Service 1 is the manager and the designate, and assigns core 0; service 5 assigns core 1. -/
def start : PState Boxes :=
  { boxes := [], staging := none, authQueue := [[[0]], [[1]]], manager := 1, assign := { confirmed := [1, 5] },
    designate := { confirmed := 1 }, registrar := { confirmed := 5 }, always := [] }

/-- Service 1 blesses 9 as manager, 6 as designate, 5 as registrar, the assigners as they are.
Service 5 gives core 1 away to 9. Service 6 makes itself manager. -/
def table : Nat → List Nat × VM
  | 1 => ([14], vm 9 40 6 5 0 0)
  | 5 => ([15], vm 1 0 9 0 0 0)
  | _ => ([14, 18], vm 6 48 6 6 48 0)

def args (s : Nat) : AccArgs := { host := s, gasLimit := 1000, incoming := [], seed := s }
def result (s : Nat) : Option AccResult :=
  match accumulate g Ex.env (machine table) start (args s) with
  | .ok r => r
  | .error _ => none

/-- As `table`, for the impostor `s` alone. -/
def impostor (s : Nat) : Nat → List Nat × VM := fun _ => ([14, 18], vm s 48 s s 48 0)
def impostorResult (s : Nat) : Option AccResult :=
  match accumulate g Ex.env (machine (impostor s)) start (args s) with
  | .ok r => r
  | .error _ => none

/-! ## Hand-made results over `Ex.g` -/

def box (e : Entry Meta) : Box := { info := e, storage := fun _ => none, preimages := fun _ => none, lookups := fun _ => none }
def base : PState Boxes := (Ex.ctx []).p

/-- Service 7 pays 1000 to the new account 9. -/
def r7 : AccResult := { host := 7, p := { base with boxes :=
  [(7, box { value := some { Ex.meta7 with balance := 9000 }, status := .updated, snap := none }),
   (9, box { value := some (metaN 9), status := .added, snap := none })] } }
/-- Service 8 loses 10 and has looked at service 7. -/
def r8 : AccResult := { host := 8, p := { base with boxes :=
  [(8, box { value := some { Ex.meta8 with balance := 290 }, status := .updated, snap := none }),
   (7, box (Entry.fromClean Ex.meta7))] } }
/-- Service 8 creates 9 too. -/
def r8' : AccResult := { r8 with p := { r8.p with boxes := r8.p.boxes ++ [(9, box { value := some (metaN 9), status := .added, snap := none })] } }

theorem box_good {s : Nat} {e : Entry Meta} (h1 : e.status = .removed ↔ e.value = none) (h2 : e.status = .added ↔ Ex.g.metas s = none)
    (h3 : e.status = .clean → e.value = Ex.g.metas s) (h4 : ¬ (s = 7 ∨ s = 8) → e.cleanVal = Ex.g.metas s) :
    BoxGood Ex.g (fun s => s = 7 ∨ s = 8) s (box e) :=
  ⟨h1, h4, h2, h3, (fun _ _ h => by cases h), (fun _ _ h => by cases h), (fun _ _ h => by cases h)⟩

theorem boxes_good {bs : Boxes} (h : ∀ e ∈ bs, BoxGood Ex.g (fun s => s = 7 ∨ s = 8) e.1 e.2) :
    ∀ s b, boxGet bs s = some b → BoxGood Ex.g (fun s => s = 7 ∨ s = 8) s b := by
  induction bs with
  | nil => intro s b h; cases h
  | cons e bs ih =>
    intro s b hb
    unfold boxGet at hb
    by_cases c : e.1 = s
    · rw [if_pos c] at hb; cases hb; exact c ▸ h e (List.mem_cons_self ..)
    · rw [if_neg c] at hb; exact ih (fun e he => h e (List.mem_cons_of_mem _ he)) s b hb

theorem good7 : ∀ e ∈ r7.p.boxes, BoxGood Ex.g (fun s => s = 7 ∨ s = 8) e.1 e.2 := by
  intro e he
  simp only [r7, List.mem_cons, List.not_mem_nil, or_false] at he
  rcases he with h | h <;> subst h <;> exact box_good (by decide) (by decide) (by decide) (by decide)
theorem good8 : ∀ e ∈ r8'.p.boxes, BoxGood Ex.g (fun s => s = 7 ∨ s = 8) e.1 e.2 := by
  intro e he
  simp only [r8', r8, List.cons_append, List.nil_append, List.mem_cons, List.not_mem_nil, or_false] at he
  rcases he with h | h | h <;> subst h <;> exact box_good (by decide) (by decide) (by decide) (by decide)

theorem roundOk : RoundOk Ex.g (fun s => s = 7 ∨ s = 8) base [r7, r8] where
  base := fun _ _ h => by cases h
  good := by
    intro r hr
    simp only [List.mem_cons, List.not_mem_nil, or_false] at hr
    rcases hr with h | h <;> subst h
    · exact boxes_good good7
    · exact boxes_good fun e he => good8 e (List.mem_append_left _ he)
  hosts := by decide
  own := by decide
  alive := by decide
  stay := by decide
  lost := fun _ _ _ h1 h2 => absurd h2 h1

theorem roundOk' : RoundOk Ex.g (fun s => s = 7 ∨ s = 8) base [r7, r8'] where
  base := fun _ _ h => by cases h
  good := by
    intro r hr
    simp only [List.mem_cons, List.not_mem_nil, or_false] at hr
    rcases hr with h | h <;> subst h
    · exact boxes_good good7
    · exact boxes_good good8
  hosts := by decide
  own := by decide
  alive := by decide
  stay := by decide
  lost := fun _ _ _ h1 h2 => absurd h2 h1

end Fastroll.Svc.ExM
