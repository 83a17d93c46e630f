import Verif.Restart.Model
import Verif.Store.Props
/-
The trie does not read its root.
-/
namespace Fastroll.Trie
variable (env : Env) (db : Db) (r : Bytes)

theorem addBranches_root (H : Bytes → Bytes) (n : Nat) : ∀ (fuel : Nat) (cs : ChangeSet) (bp : Path) (x y : Bytes),
    addBranches H { db with root := r } n fuel cs bp x y = addBranches H db n fuel cs bp x y
  | 0, _, _, _, _ => rfl
  | fuel + 1, cs, bp, x, y => by
    unfold addBranches
    simp only [addBranches_root H n fuel]
    rfl

theorem promote_root (cs : ChangeSet) : ∀ (fuel : Nat) (p : Path) (acc : List Path),
    promote { db with root := r } cs fuel p acc = promote db cs fuel p acc
  | 0, _, _ => rfl
  | fuel + 1, p, acc => by
    unfold promote
    simp only [promote_root cs fuel]
    rfl

theorem insertEntry_root (cs : ChangeSet) (e : Entry) : insertEntry env { db with root := r } cs e = insertEntry env db cs e := by
  unfold insertEntry addEntry removeEntry splitLeaf removeBesideLeaf
  simp only [addBranches_root, promote_root]
  rfl

theorem insertEntries_root : ∀ (es : List Entry) (cs : ChangeSet),
    insertEntries env { db with root := r } cs es = insertEntries env db cs es
  | [], _ => rfl
  | e :: es, cs => by
    unfold insertEntries
    rw [insertEntry_root]
    simp only [insertEntries_root es]

theorem processPaths_root (H : Bytes → Bytes) : ∀ (ps : List Path) (cs : ChangeSet),
    processPaths H { db with root := r } cs ps = processPaths H db cs ps
  | [], _ => rfl
  | p :: ps, cs => by
    unfold processPaths
    have : processPath H { db with root := r } cs p = processPath H db cs p := rfl
    rw [this]
    simp only [processPaths_root H ps]

theorem prepare_root (cs : ChangeSet) (es : List Entry) : prepare env { db with root := r } cs es = prepare env db cs es := by
  unfold prepare finish
  rw [insertEntries_root]
  simp only [processPaths_root]

end Fastroll.Trie

namespace Fastroll.Restart
open Fastroll Store StateCache

variable {V : Type} {env : Trie.Env} {C : Codec V}

/-- The store with another root in memory. -/
def withRoot (r : Trie.Bytes) (S : Store.Sys V) : Store.Sys V := { S with trie := { S.trie with db := { S.trie.db with root := r } } }

theorem withRoot_own (S : Store.Sys V) : withRoot S.trie.db.root S = S := rfl

theorem atKey_root (r : Trie.Bytes) (S : Store.Sys V) (k : Key) (o : StateCache.Op Key V) :
    atKey C (withRoot r S) k o = ((atKey C S k o).1, withRoot r (atKey C S k o).2) := by
  have hf : fetch C (withRoot r S) k = fetch C S k := rfl
  unfold atKey
  rw [hf]
  show (if (S.cache k).isSome = true then _ else _) = _
  split
  · rfl
  · split <;> rfl

theorem refused_root (r : Trie.Bytes) (S : Store.Sys V) (x : Trie.Err) (cs : Trie.ChangeSet) :
    refused (withRoot r S) x { (withRoot r S).trie with cs := cs } =
      ((refused S x { S.trie with cs := cs }).1, withRoot r (refused S x { S.trie with cs := cs }).2) := by
  unfold refused
  split <;> rfl

theorem commit_root (r : Trie.Bytes) (S : Store.Sys V) :
    ∃ r', Store.commit env C (withRoot r S) = ((Store.commit env C S).1, withRoot r' (Store.commit env C S).2) := by
  unfold Store.commit
  have hc : collectDirty (Store.over (withRoot r S) none) = collectDirty (Store.over S none) := rfl
  rw [hc]
  cases collectDirty (Store.over S none) with
  | nil => exact ⟨r, rfl⟩
  | cons p ps =>
    dsimp only
    show ∃ r', (if S.alive = true then _ else _) = _
    by_cases ha : S.alive = true
    · rw [if_pos ha, if_pos ha]
      unfold Trie.step
      dsimp only
      have hp : Trie.prepare env (withRoot r S).trie.db (withRoot r S).trie.cs ((p :: ps).filterMap (toTrie C)) =
        Trie.prepare env S.trie.db S.trie.cs ((p :: ps).filterMap (toTrie C)) := Trie.prepare_root env S.trie.db r _ _
      rw [hp]
      generalize Trie.prepare env S.trie.db S.trie.cs ((p :: ps).filterMap (toTrie C)) = q
      obtain ⟨res, cs⟩ := q
      cases res with
      | error x => exact ⟨r, refused_root r S x cs⟩
      | ok w =>
        cases w with
        | none => exact ⟨r, rfl⟩
        | some w => exact ⟨w.root, rfl⟩
    · rw [if_neg ha, if_neg ha]
      exact ⟨r, rfl⟩

theorem stage_root (r : Trie.Bytes) (S : Store.Sys V) :
    Store.stage env C (withRoot r S) = ((Store.stage env C S).1, withRoot r (Store.stage env C S).2) := by
  unfold Store.stage
  have hc : collectDirty (Store.over (withRoot r S) none) = collectDirty (Store.over S none) := rfl
  rw [hc]
  cases collectDirty (Store.over S none) with
  | nil => rfl
  | cons p ps =>
    dsimp only
    show (if S.alive = true then _ else _) = _
    by_cases ha : S.alive = true
    · rw [if_pos ha, if_pos ha]
      have hp : Trie.prepare env (withRoot r S).trie.db (withRoot r S).trie.cs ((p :: ps).filterMap (toTrie C)) =
        Trie.prepare env S.trie.db S.trie.cs ((p :: ps).filterMap (toTrie C)) := Trie.prepare_root env S.trie.db r _ _
      rw [hp]
      generalize Trie.prepare env S.trie.db S.trie.cs ((p :: ps).filterMap (toTrie C)) = q
      obtain ⟨res, cs⟩ := q
      cases res with
      | error x => exact refused_root r S x cs
      | ok w => cases w <;> rfl
    · rw [if_neg ha, if_neg ha]

theorem finalize_root (r : Trie.Bytes) (S : Store.Sys V) (i : Nat) :
    ∃ r', Store.finalize env (withRoot r S) i = ((Store.finalize env S i).1, withRoot r' (Store.finalize env S i).2) := by
  unfold Store.finalize
  have hg : (withRoot r S).staged[i]? = S.staged[i]? := rfl
  rw [hg]
  cases S.staged[i]? with
  | none => exact ⟨r, rfl⟩
  | some es =>
    dsimp only
    show ∃ r', (if S.alive = true then _ else _) = _
    by_cases ha : S.alive = true
    · rw [if_pos ha, if_pos ha]
      have hs : (withRoot r S).trie.staged[S.staged.length - 1 - i]? = S.trie.staged[S.staged.length - 1 - i]? := rfl
      have hl : (withRoot r S).staged.length = S.staged.length := rfl
      unfold Trie.step
      dsimp only
      rw [hl, hs]
      cases S.trie.staged[S.staged.length - 1 - i]? with
      | none => exact ⟨r, rfl⟩
      | some w =>
        cases w with
        | none => exact ⟨r, rfl⟩
        | some w => exact ⟨w.root, rfl⟩
    · rw [if_neg ha, if_neg ha]
      exact ⟨r, rfl⟩

theorem step_root (r : Trie.Bytes) (S : Store.Sys V) (o : Store.Op V) :
    ∃ r', Store.step env C (withRoot r S) o = ((Store.step env C S o).1, withRoot r' (Store.step env C S o).2) := by
  cases o with
  | get k => exact ⟨r, atKey_root r S k _⟩
  | getClean k => exact ⟨r, atKey_root r S k _⟩
  | add k v => exact ⟨r, atKey_root r S k _⟩
  | update k f => exact ⟨r, atKey_root r S k _⟩
  | remove k => exact ⟨r, atKey_root r S k _⟩
  | commit => exact commit_root r S
  | stage => exact ⟨r, stage_root r S⟩
  | finalize i => exact finalize_root r S i
  | rollback => exact ⟨r, rfl⟩
  | evict k => exact ⟨r, rfl⟩

/-- Whatever the root in memory, a history gives the same answers and leaves the same but the root. -/
theorem run_root : ∀ (os : List (Store.Op V)) (r : Trie.Bytes) (S : Store.Sys V),
    ∃ r', Store.run env C (withRoot r S) os = ((Store.run env C S os).1, withRoot r' (Store.run env C S os).2)
  | [], r, S => ⟨r, rfl⟩
  | o :: os, r, S => by
    obtain ⟨r1, h1⟩ := step_root (env := env) (C := C) r S o
    obtain ⟨r2, h2⟩ := run_root os r1 (Store.step env C S o).2
    refine ⟨r2, ?_⟩
    show ((Store.step env C (withRoot r S) o).1 :: (Store.run env C (Store.step env C (withRoot r S) o).2 os).1,
      (Store.run env C (Store.step env C (withRoot r S) o).2 os).2) = _
    rw [h1]
    dsimp only
    rw [h2]
    rfl

end Fastroll.Restart
