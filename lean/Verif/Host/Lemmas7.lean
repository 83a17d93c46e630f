import Verif.Host.Spec

/-! Lemmas: the paper gives every call one answer. -/
namespace Fastroll.Host.Paper
open Fastroll.Pvm
open Fastroll.Refine.Paper (CanRead CanWrite octets)
open Fastroll.Pvm.Paper (word)

theorem holds_unique {a : Acct} {i o i' o' : Nat} (h : Holds a i o) (h' : Holds a i' o') : i = i' ∧ o = o' := by
  obtain ⟨ks, ls, n1, n2, m1, m2, e1, e2⟩ := h
  obtain ⟨ks', ls', n1', n2', m1', m2', e1', e2'⟩ := h'
  have p1 : ks.Perm ks' := (List.perm_ext_iff_of_nodup n1 n1').2 fun k => by rw [m1, m1']
  have p2 : ls.Perm ls' := (List.perm_ext_iff_of_nodup n2 n2').2 fun k => by obtain ⟨k, z⟩ := k; rw [m2, m2']
  rw [e1, e1', e2, e2', p1.length_eq, p2.length_eq, (p1.map _).sum_nat, (p2.map _).sum_nat]
  exact ⟨rfl, rfl⟩

theorem needs_unique {a : Acct} {t t' : Nat} (h : Needs a t) (h' : Needs a t') : t = t' := by
  obtain ⟨i, o, h, e⟩ := h
  obtain ⟨i', o', h', e'⟩ := h'
  obtain ⟨a, b⟩ := holds_unique h h'
  rw [e, e', a, b]

theorem offers_unique {μ : PMem} {o f l : Nat} {d : Option Bytes} {r r' : Res} (h : Offers μ o f l d r) (h' : Offers μ o f l d r') : r = r' := by
  cases h <;> cases h' <;> first | rfl | contradiction

theorem first_unique {d : Nat → Option Acct} {i j j' : Nat} (h : FirstFree d i j) (h' : FirstFree d i j') : j = j' := by
  obtain ⟨n, e, f, m⟩ := h
  obtain ⟨n', e', f', m'⟩ := h'
  rcases Nat.lt_trichotomy n n' with c | c | c
  · have := m' n c; rw [← e, f] at this; cases this
  · rw [e, e', c]
  · have := m n' c; rw [← e', f'] at this; cases this

variable {P : Const} {datum : Option Bytes} {φ : Nat → Nat} {μ : PMem} {ϱ : Int} {x : Ctx}

/-- The balance a fresh account must have does not depend on the balance it has. -/
theorem fresh_needs {c : Bytes} {l g m f t u u' v : Nat} (h : Needs (fresh P x c l g m f t) u) (h' : Needs (fresh P x c l g m f v) u') : u = u' := by
  obtain ⟨i, o, h, e⟩ := h
  obtain ⟨i', o', h', e'⟩ := h'
  obtain ⟨a, b⟩ := holds_unique (a := fresh P x c l g m f t) h h'
  rw [e, e', a, b]; rfl

theorem some_ext {f g : Nat → Option Nat} (h : ∀ s v, f s = some v ↔ g s = some v) : f = g := by
  funext s
  cases hf : f s with
  | none =>
    cases hg : g s with
    | none => rfl
    | some v => have := (h s v).2 hg; rw [hf] at this; cases this
  | some v => exact ((h s v).1 hf).symm

theorem acts_unique {h : Nat} {r r' : Res} {x1 x2 : Ctx} (h1 : Acts P datum φ μ ϱ x h r x1) (h2 : Acts P datum φ μ ϱ x h r' x2) :
    r = r' ∧ x1 = x2 := by
  cases h1 <;> cases h2
  all_goals first | exact ⟨rfl, rfl⟩ | contradiction | skip
  all_goals try grind [needs_unique, holds_unique, offers_unique]
  case bless.bless as zs _ _ ha hz as' zs' _ _ ha' hz' =>
    have e : as = as' := funext fun c => (ha c).trans (ha' c).symm
    have e' : zs = zs' := some_ext fun s v => (hz s v).trans (hz' s v).symm
    subst e e'
    exact ⟨rfl, rfl⟩
  all_goals grind [needs_unique, fresh_needs, first_unique]

theorem answers_unique {y x1 y1 x2 y2 : Ctx} {h : Nat} {r r' : Res} (h1 : Answers P datum φ μ ϱ x y h r x1 y1)
    (h2 : Answers P datum φ μ ϱ x y h r' x2 y2) : r = r' ∧ x1 = x2 ∧ y1 = y2 := by
  cases h1 with
  | acts a =>
    cases h2 with
    | acts b => obtain ⟨e1, e2⟩ := acts_unique a b; exact ⟨e1, e2, rfl⟩
    | checkpoint => cases a
    | unknown hh hn => cases a <;> omega
  | checkpoint =>
    cases h2 with
    | acts b => cases b
    | checkpoint => exact ⟨rfl, rfl, rfl⟩
    | unknown hh hn => omega
  | unknown hh hn =>
    cases h2 with
    | acts b => cases b <;> omega
    | checkpoint => omega
    | unknown => exact ⟨rfl, rfl, rfl⟩

end Fastroll.Host.Paper
