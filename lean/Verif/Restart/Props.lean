import Verif.Restart.Lemmas2
/-
C80: starting a node, for the first time and again.
-/
namespace Fastroll.Restart
open Fastroll Store StateCache

/-! ### Examples -/

/-- A genesis state of three entries. -/
def exGenesis : Genesis Nat := ⟨[7], [(exA, 1), (exB, 2), (exC, 5)]⟩

theorem exGenesis_ok : exGenesis.Ok := ⟨fun h => (by cases h), by decide +kernel⟩

/-- A run that changes an entry, commits, and ends with another change not committed. -/
def exRun : List (Op Nat) := [.update exA (fun _ => some 11), .commit, .update exB (fun _ => some 3)]

/-- A later one that reads both and changes the third. -/
def exLater : List (Op Nat) := [.get exA, .get exB, .update exC (fun _ => some 6)]

theorem exTyped (k : Key) (n : Nat) (h : n < 256) : Typed exType (.update k fun _ => some n) := by
  intro v v' _ e
  injection e with e
  show v' < 256
  omega

theorem exRun_proper : Proper exType exA empty (genesisOps exGenesis ++ exRun) := by
  refine ⟨by decide +kernel, by decide +kernel, by show 1 < 256; decide, .inl fun _ => rfl, ?_⟩
  refine ⟨by decide +kernel, by decide +kernel, by show 2 < 256; decide, .inl fun _ => rfl, ?_⟩
  refine ⟨by decide +kernel, by decide +kernel, by show 5 < 256; decide, .inl fun _ => rfl, ?_⟩
  refine ⟨by decide +kernel, by decide +kernel, trivial, .inl fun _ => rfl, ?_⟩
  refine ⟨by decide +kernel, by decide +kernel, exTyped _ _ (by decide), .inr (by decide +kernel), ?_⟩
  refine ⟨by decide +kernel, by decide +kernel, trivial, .inr (by decide +kernel), ?_⟩
  exact ⟨by decide +kernel, by decide +kernel, exTyped _ _ (by decide), .inr (by decide +kernel), trivial⟩

theorem exLater_proper : Proper exType exA (resumed (genesisOps exGenesis ++ exRun)) exLater := by
  refine ⟨by decide +kernel, by decide +kernel, trivial, .inr (by decide +kernel), ?_⟩
  refine ⟨by decide +kernel, by decide +kernel, trivial, .inr (by decide +kernel), ?_⟩
  exact ⟨by decide +kernel, by decide +kernel, exTyped _ _ (by decide), .inr (by decide +kernel), trivial⟩

/-- The answer of a run, without the error. -/
def exOk (a : Except Store.Err Unit) : Bool := match a with | .ok () => true | .error _ => false

variable {V : Type} {env : Trie.Env} {C : Codec V} {T : Key → V → Prop} {k0 : Key}

/-! ### The first start -/

/-- **C80** On empty databases a node starts, whatever the genesis state: every entry is added, the best header is the
genesis header, the committed map is the genesis state and nothing else, the root served and recorded for the genesis
header is the Gray Paper's Merklization of it, and the store goes on from there as after the same history (C76). -/
theorem C80_first_start (hfair : env.fair) (hH : ∀ x, (env.H x).length = 32) (g : Genesis V) (hg : g.Ok)
    (hC : ∀ e ∈ g.entries, C.dec e.1 (C.enc e.2) = some e.2) :
    ∃ s, start env C g Disk.fresh.reopen =
        (.ok (), ⟨s, some g.hash, [g.hash], [(g.hash, Trie.Spec.root env.H (g.encoded C.enc))]⟩) ∧
      root s = .ok (Trie.Spec.root env.H (g.encoded C.enc)) ∧
      s = (run env C Store.Sys.init (genesisOps g)).2 ∧
      ∀ k v, (after (genesisOps g)).2.committed k = some v ↔ (k, v) ∈ g.entries := by
  obtain ⟨_, _, h2, h3⟩ := writeGenesis_first hfair hH g hg hC
  exact ⟨_, start_first hfair hH g hg hC, h2, rfl, h3⟩

example : exGenesis.Ok ∧ (∀ e ∈ exGenesis.entries, exCodec.dec e.1 (exCodec.enc e.2) = some e.2) ∧
    (start Trie.exEnv exCodec exGenesis Disk.fresh.reopen).2.roots =
      [([7], Trie.Spec.root Trie.exHash [(exC.1, [5]), (exB.1, [2]), (exA.1, [1])])] :=
  ⟨exGenesis_ok, by decide +kernel, by decide +kernel⟩

/-! ### What is on disk survives -/

/-- **C80** (partial: the root is not on disk, see `C80_root_lost_partial`) However a process ends after a proper
history, the next one that opens its databases finds exactly what was committed: through every further proper history
every answer is the one of a transaction opened on the committed map, writes that were pending and blocks that were
only staged are gone, and the first commit that writes serves the right root again - or two different values of the
state database have the same hash. -/
theorem C80_durable_partial (hfair : env.fair) (hH : ∀ x, (env.H x).length = 32)
    (hC : ∀ k v, T k v → C.dec k (C.enc v) = some v) (os os' : List (Op V)) (hp : Proper T k0 empty os)
    (hp' : Proper T k0 (resumed os) os') (s : Store.Sys V) (hs : s = reopenStore (run env C Store.Sys.init os).2) :
    ((run env C s os').1 = (StateCache.Spec.run (resumed os) (os'.map Op.plain)).1.map Out.ofCache ∧
      ∀ b, b = (StateCache.Spec.run (resumed os) (os'.map Op.plain)).2 → b.staged = [] → b.touched = true → b.clash = false →
        (∀ k, b.committed k = none) ∨ (b.committed k0).isSome = true ∧ (StateCache.Spec.visible b k0).isSome = true →
        (step env C (run env C s os').2 .commit).1 = .done ∧
        ∀ kv, Represents C.enc kv (StateCache.Spec.visible b) →
          root (step env C (run env C s os').2 .commit).2 = .ok (Trie.Spec.root env.H kv)) ∨
    Collision env.H (run env C s os').2 := by
  by_cases hc : Collision env.H (run env C s os').2
  · exact .inr hc
  · subst hs
    obtain ⟨h1, S, s, a, r, h2, h3, h4⟩ := resume hfair hH hC os os' hp hp' hc
    refine .inl ⟨h1, fun b hb hst ht hcl hk => ?_⟩
    subst hb
    rw [h4]
    exact commit_heals hfair hH h2 h3 r hst ht hcl hk

example : Proper exType exA empty (genesisOps exGenesis ++ exRun) ∧
    Proper exType exA (resumed (genesisOps exGenesis ++ exRun)) exLater ∧
    (run Trie.exEnv exCodec (reopenStore (run Trie.exEnv exCodec Store.Sys.init (genesisOps exGenesis ++ exRun)).2) exLater).1 =
      [.value (some 11), .value (some 2), .done] ∧
    ((match root (step Trie.exEnv exCodec (run Trie.exEnv exCodec
        (reopenStore (run Trie.exEnv exCodec Store.Sys.init (genesisOps exGenesis ++ exRun)).2) exLater).2 .commit).2 with
      | .ok r => r | .error _ => []) = Trie.Spec.root Trie.exHash [(exA.1, [11]), (exB.1, [2]), (exC.1, [6])]) :=
  ⟨exRun_proper, exLater_proper, by decide +kernel, by decide +kernel⟩

/-- **C80** (negation) The root is not on disk: whatever was committed, the store of a new process serves the root of an
empty state until something is committed. -/
theorem C80_root_lost_partial (s : Store.Sys V) : root (reopenStore s) = .ok (Trie.Spec.root env.H []) := rfl

example : (match root (run Trie.exEnv exCodec Store.Sys.init (genesisOps exGenesis)).2 with | .ok r => r | .error _ => []) ≠
    Trie.Spec.root Trie.exHash [] := by decide +kernel

/-! ### The second start -/

/-- **C80** (negation) A node whose databases have an entry of the genesis state does not start, whatever else they hold
and however they got there - also when a crash tore the first commit apart: starting fails before the first write to
the state, and the databases stay as they are but for the genesis header. -/
theorem C80_second_start_partial (g : Genesis V) (d : Disk V) (k : Key) (hk : k ∈ g.entries.map Prod.fst)
    (hr : Trie.retrieve d.store.trie k.1 ≠ .absent) :
    (∃ x, (start env C g d.reopen).1 = .error x) ∧ SameData (start env C g d.reopen).2.store d.store ∧
    (start env C g d.reopen).2.roots = d.roots := by
  obtain ⟨h1, h2, h3⟩ := start_fails (env := env) (C := C) g d k hk hr
  refine ⟨h1, ?_, h3⟩
  unfold SameData
  rw [h2]
  exact ⟨rfl, rfl, rfl⟩

example : Trie.retrieve (life Trie.exEnv exCodec exGenesis Disk.fresh exRun).2.store.trie exA.1 ≠ .absent ∧
    exA ∈ exGenesis.entries.map Prod.fst := ⟨by decide +kernel, by decide +kernel⟩

/-- **C80** (negation) A node starts once in the life of its databases: after a first run of any proper history that
ends with an entry of the genesis state still committed, every later start fails, however many are tried, and none of
them changes the data - or two different values of the state database have the same hash. -/
theorem C80_one_life_partial (hfair : env.fair) (hH : ∀ x, (env.H x).length = 32)
    (hC : ∀ k v, T k v → C.dec k (C.enc v) = some v) (g : Genesis V) (hg : g.Ok) (os : List (Op V))
    (hp : Proper T k0 empty (genesisOps g ++ os)) (k : Key) (hk : k ∈ g.entries.map Prod.fst)
    (hc : (after (genesisOps g ++ os)).2.committed k ≠ none) (hT : ∀ e ∈ g.entries, T e.1 e.2)
    (oss : List (List (Op V))) (d : Disk V) (hd : d = (life env C g Disk.fresh os).2) :
    ((life env C g Disk.fresh os).1 = .ok () ∧ (∀ a ∈ (lives env C g d oss).1, ∃ x, a = .error x) ∧
      SameData (lives env C g d oss).2.store d.store ∧ (lives env C g d oss).2.roots = d.roots) ∨
    Collision env.H d.store := by
  have hstart := start_first (env := env) (C := C) hfair hH g hg (fun e he => hC _ _ (hT e he))
  have hlife : life env C g Disk.fresh os = (.ok (), ⟨(run env C Store.Sys.init (genesisOps g ++ os)).2, some g.hash, [g.hash],
      [(g.hash, Trie.Spec.root env.H (g.encoded C.enc))]⟩) := by
    unfold life
    rw [hstart, run_append]
  rw [hlife] at hd ⊢
  by_cases hcol : Collision env.H d.store
  · exact .inr hcol
  · refine .inl ⟨rfl, lives_fail g k hk oss d ?_⟩
    have hap := apart_of _ hcol
    subst hd
    obtain ⟨_, s, a, hs, hr⟩ := run_sim hfair hH hC _ (sim_init env C) (rel_opened _) (typed_init T) hp hap
    have ht : AllTyped T (after (genesisOps g ++ os)).2 := run_typed _ (typed_init T) hp
    have hdb : s.db = (after (genesisOps g ++ os)).2.committed := hr.db
    have hf := fetch_sim hs hap (fun k v hv => hC k v (ht.committed k v (by rw [← hdb]; exact hv))) k
    rw [hdb] at hf
    intro habs
    unfold fetch at hf
    rw [if_pos hs.alive, habs] at hf
    injection hf with hf
    exact hc hf.symm

example : (after (genesisOps exGenesis ++ exRun)).2.committed exA ≠ none ∧
    (∀ e ∈ exGenesis.entries, e.2 < 256) ∧
    (lives Trie.exEnv exCodec exGenesis Disk.fresh [exRun, exRun, []]).1.map exOk = [true, false, false] :=
  ⟨by decide +kernel, by decide +kernel, by decide +kernel⟩

end Fastroll.Restart
