import Verif.Trie.Binding
/-
C32: the state trie kept up to date by incremental commits is the Merklization of the state map.
-/
namespace Fastroll.Trie

/-! ### Examples -/

/-- Results can be compared. -/
instance : DecidableEq (Except Err Unit)
  | .ok (), .ok () => isTrue rfl
  | .ok (), .error _ => isFalse (fun h => by cases h)
  | .error _, .ok () => isFalse (fun h => by cases h)
  | .error a, .error b => if h : a = b then isTrue (by rw [h]) else isFalse (fun g => by injection g with g; exact h g)

/-- A function of 32 bytes that tells the examples' strings apart. -/
def exHash (x : Bytes) : Bytes :=
  (List.range 32).map fun i => UInt8.ofNat (x.foldl (fun a b => (a * 1000003 + b.toNat + 7) % (2 ^ 256 - 189)) 5 / 256 ^ i)

theorem exHash_length (x : Bytes) : (exHash x).length = 32 := by
  unfold exHash
  rw [List.length_map, List.length_range]

/-- An environment for examples. -/
def exEnv : Env := ⟨exHash, fun l => l⟩

theorem exEnv_fair : exEnv.fair := fun _ => List.Perm.refl _

/-- A 248-bit key that starts with the given bits. -/
def exKey (p : Path) : Path := p ++ List.replicate (248 - p.length) false

/-- A value that does not fit into a leaf. -/
def exLong : Bytes := List.replicate 40 7

/-- Two keys with a common prefix, a third elsewhere. -/
def exAdds : List Entry :=
  [⟨exKey [true, false, true], .add, [1]⟩, ⟨exKey [true, false, false], .add, exLong⟩, ⟨exKey [false, true], .add, []⟩]

/-- A change of every kind. -/
def exChanges : List Entry :=
  [⟨exKey [true, false, false], .remove, []⟩, ⟨exKey [false, true], .update, [2, 3]⟩, ⟨exKey [true, true], .add, exLong⟩]

/-- Two blocks staged on the same state, the second finalized, and another commit. -/
def exOps : List Op :=
  [.commit exAdds, .stage [⟨exKey [true, true], .add, [9]⟩], .stage exChanges, .finalize 1,
   .commit [⟨exKey [true, true], .remove, []⟩]]

/-! ### The trie is the Merklization of the map -/

/-- After any legal history of immediate commits, staged blocks and finalizations, with batches of added, updated
and removed entries of any size, whatever the iteration order of the hash sets: every operation succeeded, the root
is that of the map computed from scratch, the database holds at every path exactly the node the Merklization has there
(and none elsewhere), every value is found under its key - unless the value read has the same hash as the stored one -
and nothing is found under other keys.  Partial: batches that remove the last key are left out (see
`C32_only_key_cannot_be_removed`). -/
theorem C32_history_partial (env : Env) (hfair : env.fair) (hH : ∀ x, (env.H x).length = 32) (ops : List Op) (a : Spec.Abs)
    (h : Spec.run ⟨[], []⟩ ops = some a) :
    (∀ x ∈ (run env Sys.init ops).1, x = .ok ()) ∧
    (run env Sys.init ops).2.db.root = Spec.root env.H a.kv ∧
    (∀ p, (get (run env Sys.init ops).2.db.nodes p).map Node.encode = Spec.nodeAt env.H a.kv p) ∧
    (∀ k v, (k, v) ∈ a.kv → ∃ w, retrieve (run env Sys.init ops).2 k = .value w ∧ (w = v ∨ (w ≠ v ∧ env.H w = env.H v))) ∧
    (∀ k, Spec.has a.kv k = false → retrieve (run env Sys.init ops).2 k = .absent) := by
  obtain ⟨h1, h2⟩ := run_ok hfair hH ops (sysOk_init env.H) h
  refine ⟨h1, ?_, fun p => nodeAt_spec hH h2.db.toStored p, fun k v hm => retrieve_present h2.db.toStored hm, fun k hk => ?_⟩
  · rw [h2.db.root, hashAt_root]
  · apply retrieve_absent h2.db.toStored
    rw [← has_iff, hk]; decide

example : Spec.run ⟨[], []⟩ exOps =
    some ⟨[(exKey [true, false, true], [1]), (exKey [false, true], [2, 3])].reverse, []⟩ := by decide +kernel

example : (run exEnv Sys.init exOps).2.db.root =
    Spec.root exHash [(exKey [false, true], [2, 3]), (exKey [true, false, true], [1])] := by decide +kernel

example : retrieve (run exEnv Sys.init [.commit exAdds]).2 (exKey [true, false, false]) = .value exLong ∧
    retrieve (run exEnv Sys.init exOps).2 (exKey [true, true]) = .absent := by decide +kernel

/-- The root and all nodes depend only on the map: two legal histories that lead to the same entries, with any
iteration orders, leave the same root and the same nodes. -/
theorem C32_same_map_same_trie (env env' : Env) (hfair : env.fair) (hfair' : env'.fair) (hH : ∀ x, (env.H x).length = 32)
    (he : env'.H = env.H) (ops ops' : List Op) (a a' : Spec.Abs) (h : Spec.run ⟨[], []⟩ ops = some a)
    (h' : Spec.run ⟨[], []⟩ ops' = some a') (hkv : a.kv.Perm a'.kv) :
    (run env Sys.init ops).2.db.root = (run env' Sys.init ops').2.db.root ∧
    ∀ p, (get (run env Sys.init ops).2.db.nodes p).map Node.encode = (get (run env' Sys.init ops').2.db.nodes p).map Node.encode := by
  obtain ⟨_, r1, n1, _⟩ := C32_history_partial env hfair hH ops a h
  obtain ⟨_, r2, n2, _⟩ := C32_history_partial env' hfair' (by rw [he]; exact hH) ops' a' h'
  rw [r1, r2, he]
  refine ⟨merkle_perm env.H 248 0 hkv, fun p => ?_⟩
  rw [n1, n2, he]
  exact nodeAt_perm env.H hkv p

example : ((Spec.run ⟨[], []⟩ [.commit exAdds]).map (·.kv)).isSome = true ∧
    ((Spec.run ⟨[], []⟩ [.commit exAdds.reverse]).map (·.kv)).isSome = true ∧
    Spec.run ⟨[], []⟩ [.commit exAdds] ≠ Spec.run ⟨[], []⟩ [.commit exAdds.reverse] ∧
    (run exEnv Sys.init [.commit exAdds]).2.db.root = (run exEnv Sys.init [.commit exAdds.reverse]).2.db.root := by
  decide +kernel

/-- The order of the entries of a batch does not matter: if a batch with one entry per key can be committed in one
order, it can be committed in every order, with the same root and the same nodes.  Partial: some present key must not be
removed by the batch (see `C32_order_matters_for_the_only_key`). -/
theorem C32_batch_order_partial (env : Env) (hfair : env.fair) (hH : ∀ x, (env.H x).length = 32) (ops : List Op) (a a1 : Spec.Abs)
    (es es' : List Entry) (h : Spec.run ⟨[], []⟩ ops = some a) (h1 : Spec.step a (.commit es) = some a1)
    (hd : (es.map (·.key)).Nodup) (hp : es.Perm es') (k0 : Path) (hk0 : Spec.has a.kv k0 = true)
    (hrem : ∀ e ∈ es, e.kind = .remove → e.key ≠ k0) :
    (run env Sys.init (ops ++ [.commit es'])).1.getLast? = some (.ok ()) ∧
    (run env Sys.init (ops ++ [.commit es'])).2.db.root = (run env Sys.init (ops ++ [.commit es])).2.db.root ∧
    ∀ p, (get (run env Sys.init (ops ++ [.commit es'])).2.db.nodes p).map Node.encode =
      (get (run env Sys.init (ops ++ [.commit es])).2.db.nodes p).map Node.encode := by
  have hokrun := run_ok hfair hH ops (sysOk_init env.H) h
  have hn := hokrun.2.db.inv.nodup
  -- both batches are legal
  have hc : a.staged = [] ∧ es.all (fun e => e.key.length == 248) = true ∧ ∃ kv1, Spec.apply a.kv es = some kv1 ∧ a1 = { a with kv := kv1 } := by
    unfold Spec.step at h1
    dsimp only at h1
    by_cases hc : a.staged = [] ∧ es.all (fun e => e.key.length == 248) = true
    · rw [if_pos hc] at h1
      cases h2 : Spec.apply a.kv es with
      | none => rw [h2] at h1; cases h1
      | some kv1 =>
        rw [h2] at h1
        injection h1 with h1
        exact ⟨hc.1, hc.2, kv1, rfl, h1.symm⟩
    · rw [if_neg hc] at h1; cases h1
  obtain ⟨c1, c2, kv1, hkv1, ha1⟩ := hc
  obtain ⟨kv2, hkv2⟩ := apply_some es' k0 hn ((hp.map _).nodup_iff.1 hd) (has_iff.1 hk0)
    (fun e he => hrem e (hp.mem_iff.2 he)) (fun e he => apply_legal es hd hkv1 e (hp.mem_iff.2 he))
  have h2 : Spec.step a (.commit es') = some { a with kv := kv2 } := by
    unfold Spec.step
    dsimp only
    rw [if_pos, hkv2]
    · rfl
    · refine ⟨c1, ?_⟩
      rw [List.all_eq_true] at c2 ⊢
      exact fun e he => c2 e (hp.mem_iff.2 he)
  have runAppend : ∀ (ops : List Op) (b b' : Spec.Abs) (o : Op) (b'' : Spec.Abs), Spec.run b ops = some b' → Spec.step b' o = some b'' →
      Spec.run b (ops ++ [o]) = some b'' := by
    intro ops
    induction ops with
    | nil =>
      intro b b' o b'' e1 e2
      injection e1 with e1
      subst e1
      show (Spec.step b o).bind _ = _
      rw [e2]; rfl
    | cons x ops ih =>
      intro b b' o b'' e1 e2
      unfold Spec.run at e1
      show (Spec.step b x).bind _ = _
      cases hx : Spec.step b x with
      | none => rw [hx] at e1; cases e1
      | some y =>
        rw [hx] at e1
        exact ih y b' o b'' e1 e2
  have r1 := runAppend ops _ a (.commit es) a1 h h1
  have r2 := runAppend ops _ a (.commit es') _ h h2
  obtain ⟨e1, e2⟩ := C32_same_map_same_trie env env hfair hfair hH rfl _ _ _ _ r2 r1 (by
    rw [ha1]
    exact (apply_perm hn hd hp hkv1 hkv2).symm)
  refine ⟨?_, e1, e2⟩
  have hall := (C32_history_partial env hfair hH _ _ r2).1
  have runLen : ∀ (ops : List Op) (s : Sys), (run env s ops).1.length = ops.length := by
    intro ops
    induction ops with
    | nil => intro s; rfl
    | cons o ops ih => intro s; show (_ :: _).length = _; rw [List.length_cons, ih]; rfl
  cases hl : (run env Sys.init (ops ++ [.commit es'])).1.getLast? with
  | none =>
    have := List.getLast?_eq_none_iff.1 hl
    have h3 := runLen (ops ++ [.commit es']) Sys.init
    rw [this, List.length_append] at h3
    simp at h3
  | some x => rw [hall x (List.mem_of_getLast? hl)]

example : (Spec.step ⟨[(exKey [true, false, true], [1]), (exKey [true, false, false], exLong), (exKey [false, true], [])], []⟩
    (.commit exChanges)).isSome = true ∧ (exChanges.map (·.key)).Nodup ∧
    (exChanges.all fun e => e.kind != .remove || e.key != exKey [false, true]) = true := by decide +kernel

/-- The root commits to the map: two legal histories with the same root have the same entries, unless two of the
strings hashed for them - node encodings and long values - are different and have hashes that agree in all but the first
bit, or one of them has a hash that is zero in all but the first bit. -/
theorem C32_root_binds_map (env : Env) (hfair : env.fair) (hH : ∀ x, (env.H x).length = 32) (ops ops' : List Op) (a a' : Spec.Abs)
    (h : Spec.run ⟨[], []⟩ ops = some a) (h' : Spec.run ⟨[], []⟩ ops' = some a')
    (hr : (run env Sys.init ops).2.db.root = (run env Sys.init ops').2.db.root) :
    a.kv.Perm a'.kv ∨ Spec.Clash env.H (Spec.inputs env.H 248 0 a.kv) (Spec.inputs env.H 248 0 a'.kv) := by
  have o1 := (run_ok hfair hH ops (sysOk_init env.H) h).2.db
  have o2 := (run_ok hfair hH ops' (sysOk_init env.H) h').2.db
  rw [o1.root, o2.root, hashAt_root, hashAt_root] at hr
  exact merkle_binds hH 248 (p := []) rfl (below_of_inv o1.inv.nodup o1.inv.flat) (below_of_inv o2.inv.nodup o2.inv.flat)
    (by show Spec.cut (Spec.root env.H a.kv) = Spec.cut (Spec.root env.H a'.kv); rw [hr])

example : (run exEnv Sys.init [.commit exAdds]).2.db.root ≠ (run exEnv Sys.init exOps).2.db.root ∧
    (Spec.inputs exHash 248 0 [(exKey [true, false, false], exLong), (exKey [true, false, true], [1])]).length = 6 := by
  decide +kernel

/-! ### What goes wrong -/

/-- The root is only kept in memory: after the databases are opened again every value is still found, but the root is
zero until the next commit that changes something; that commit sets the right root and nodes. -/
theorem C32_reopened_root (env : Env) (hfair : env.fair) (hH : ∀ x, (env.H x).length = 32) (ops : List Op) (a : Spec.Abs)
    (h : Spec.run ⟨[], []⟩ ops = some a) :
    (run env Sys.init ops).2.reopen.db.root = zeroHash ∧
    (∀ k, retrieve (run env Sys.init ops).2.reopen k = retrieve (run env Sys.init ops).2 k) ∧
    ∀ es kv', es ≠ [] → (∀ e ∈ es, e.key.length = 248) → Spec.apply a.kv es = some kv' →
      (step env (run env Sys.init ops).2.reopen (.commit es)).1 = .ok () ∧
      (step env (run env Sys.init ops).2.reopen (.commit es)).2.db.root = Spec.root env.H kv' ∧
      ∀ p, (get (step env (run env Sys.init ops).2.reopen (.commit es)).2.db.nodes p).map Node.encode = Spec.nodeAt env.H kv' p := by
  have ok := (run_ok hfair hH ops (sysOk_init env.H) h).2.db.toStored
  generalize (run env Sys.init ops).2 = s at *
  refine ⟨rfl, fun _ => rfl, fun es kv' hne hlen hap => ?_⟩
  have hst : Stored env.H s.reopen.db s.reopen.stateDb a.kv := by
    refine ⟨⟨ok.inv.nodup, ok.inv.flat, ok.inv.leaf, ok.inv.branch, ok.inv.none, ok.inv.leafPath, ok.inv.sub, ok.inv.pend, ok.inv.slots,
      ok.inv.root, ok.inv.genuine, ok.inv.stored, ok.inv.noWrites, ok.inv.leafNodup, ok.inv.closed⟩, ok.sorted, ok.genuine⟩
  obtain ⟨p, e1, e2⟩ := prepare_stored hfair hH hst hne hlen hap
  have hcs : s.reopen.cs = .empty := rfl
  unfold step
  dsimp only
  rw [hcs, e1]
  refine ⟨rfl, ?_, fun q => nodeAt_spec hH e2.toStored q⟩
  show (applyPrepared s.reopen.db p).root = _
  rw [e2.root, hashAt_root]

example : (run exEnv Sys.init [.commit exAdds]).2.db.root ≠ zeroHash ∧
    (Spec.apply [(exKey [true, false, true], [1])] [⟨exKey [true, false, true], .update, [2]⟩]).isSome = true := by decide +kernel

/-- The only key of the state cannot be removed: the commit fails and nothing is written. -/
theorem C32_only_key_cannot_be_removed (env : Env) (hfair : env.fair) (hH : ∀ x, (env.H x).length = 32) (ops : List Op)
    (a : Spec.Abs) (k : Path) (v : Bytes) (h : Spec.run ⟨[], []⟩ ops = some a) (hkv : a.kv = [(k, v)]) :
    step env (run env Sys.init ops).2 (.commit [⟨k, .remove, []⟩]) = (.error .notInitialized, (run env Sys.init ops).2) := by
  have ok := (run_ok hfair hH ops (sysOk_init env.H) h).2
  generalize (run env Sys.init ops).2 = s at *
  have I := ok.db.inv
  have hl : Lf (Keys a.kv) [] k := by
    rw [hkv]
    refine ⟨List.mem_cons_self, List.nil_prefix, fun k' hk' _ => ?_, Or.inl rfl⟩
    have : k' ∈ [k] := hk'
    rw [List.mem_singleton] at this
    exact this
  have hlp : getLeafPath s.db .empty k = some [] := (I.leafPath k []).2 hl
  have hrem : removeEntry s.db .empty k = .error .notInitialized := by
    unfold removeEntry
    rw [hlp]
    rfl
  have hprep : prepare env s.db s.cs [⟨k, .remove, []⟩] = (.error .notInitialized, .empty) := by
    rw [ok.cs]
    have e : insertEntry env s.db .empty ⟨k, .remove, []⟩ = .error .notInitialized := hrem
    unfold prepare insertEntries
    rw [if_neg (by simp)]
    rw [e]
  unfold step
  dsimp only
  rw [hprep]
  dsimp only
  rw [← ok.cs]

example : Spec.run ⟨[], []⟩ [.commit [⟨exKey [true], .add, [1]⟩]] = some ⟨[(exKey [true], [1])], []⟩ := by decide +kernel

/-- For a state with one key the order of a batch matters: replacing the key by another works when the addition comes
first and fails when the removal comes first. -/
theorem C32_order_matters_for_the_only_key :
    ∃ (ops : List Op) (es es' : List Entry), es.Perm es' ∧ (es.map (·.key)).Nodup ∧
      (run exEnv Sys.init (ops ++ [.commit es])).1.getLast? = some (.ok ()) ∧
      (run exEnv Sys.init (ops ++ [.commit es'])).1.getLast? = some (.error .notInitialized) :=
  ⟨[.commit [⟨exKey [true], .add, [1]⟩]], [⟨exKey [false], .add, [2]⟩, ⟨exKey [true], .remove, []⟩],
    [⟨exKey [true], .remove, []⟩, ⟨exKey [false], .add, [2]⟩], List.Perm.swap _ _ _, by decide +kernel, by decide +kernel, by decide +kernel⟩

/-- Adding a key that is present panics in the computation of the final leaf paths, in every state. -/
theorem C32_adding_a_present_key_panics (env : Env) (hfair : env.fair) (hH : ∀ x, (env.H x).length = 32) (ops : List Op)
    (a : Spec.Abs) (k : Path) (v : Bytes) (h : Spec.run ⟨[], []⟩ ops = some a) (hk : Spec.has a.kv k = true) :
    (step env (run env Sys.init ops).2 (.commit [⟨k, .add, v⟩])).1 = .error .panic := by
  have ok := (run_ok hfair hH ops (sysOk_init env.H) h).2
  generalize (run env Sys.init ops).2 = s at *
  have I := ok.db.inv
  obtain ⟨lp, hl⟩ := lf_exists I.flat (has_iff.1 hk)
  obtain ⟨v0, hv0⟩ := mem_of_keys (has_iff.1 hk)
  have hadd : addEntry env s.db .empty k v = .error .panic := by
    unfold addEntry
    rcases lcpNode_spec hfair I ok.db.sorted (dbOk_closed ok.db.toStored) k with ⟨q, e1, e2⟩ | ⟨q, n, e1, e2, e3⟩
    · exact absurd (has_iff.1 hk) (e2 k)
    · have hq : q = lp := by
        have hpre : lp <+: q := List.prefix_of_prefix_length_le hl.2.1 e3.pre (e3.max lp hl.2.1 (Or.inr ⟨k, hl⟩))
        rcases (isSome_iff_node I q).1 (by rw [e2]; rfl) with hb | ⟨a', ha'⟩
        · exact absurd (br_prefix hb hpre) (lf_not_br hl)
        · have := hl.2.2.1 a' ha'.1 (hpre.trans ha'.2.1)
          subst this
          exact lf_unique ha' hl
      subst hq
      rw [I.leaf q k v0 hv0 hl] at e2
      injection e2 with e2
      subst e2
      rw [e1]
      dsimp only
      unfold splitLeaf
      rw [mkLeaf_key]
      have hcl : ∀ x : Path, commonLen x x = x.length := by
        intro x
        induction x with
        | nil => rfl
        | cons b x ih => unfold commonLen; rw [if_pos rfl, ih]; rfl
      have : finalPaths k k = .error .panic := by
        unfold finalPaths
        rw [hcl, if_neg (by omega)]
      rw [this]
  have hprep : prepare env s.db s.cs [⟨k, .add, v⟩] = (.error .panic, .empty) := by
    rw [ok.cs]
    have e : insertEntry env s.db .empty ⟨k, .add, v⟩ = .error .panic := hadd
    unfold prepare insertEntries
    rw [if_neg (by simp)]
    rw [e]
  unfold step
  dsimp only
  rw [hprep]

example : (step exEnv (run exEnv Sys.init [.commit exAdds]).2 (.commit [⟨exKey [false, true], .add, [5]⟩])).1 = .error .panic := by
  decide +kernel

/-- A failed commit is not undone: the changes before the failing entry stay in the change set and get into the next
commit.  After a batch that adds one key and updates a missing one has failed, the update of a present key leaves a root
that is not the root of the map, and the key of the failed batch is found. -/
theorem C32_failed_commit_leaks :
    ∃ (ops : List Op) (bad : List Entry) (good : List Entry) (kv : Spec.KV) (k : Path),
      (step exEnv (run exEnv Sys.init ops).2 (.commit bad)).1 = .error .pathUnknown ∧
      Spec.run ⟨[], []⟩ (ops ++ [.commit good]) = some ⟨kv, []⟩ ∧ Spec.has kv k = false ∧
      (run exEnv Sys.init (ops ++ [.commit bad, .commit good])).1.getLast? = some (.ok ()) ∧
      (run exEnv Sys.init (ops ++ [.commit bad, .commit good])).2.db.root ≠ Spec.root exHash kv ∧
      retrieve (run exEnv Sys.init (ops ++ [.commit bad, .commit good])).2 k = .value [4] :=
  ⟨[.commit exAdds], [⟨exKey [true, true], .add, [4]⟩, ⟨exKey [false, false], .update, [5]⟩], [⟨exKey [false, true], .update, [6]⟩],
    [(exKey [false, true], [6]), (exKey [true, false, false], exLong), (exKey [true, false, true], [1])], exKey [true, true],
    by decide +kernel, by decide +kernel, by decide +kernel, by decide +kernel, by decide +kernel, by decide +kernel⟩

/-- The two databases are written one after the other: if the process ends in between, every long value of the batch
that was not stored before is missing, although its leaf is in the trie. -/
theorem C32_torn_commit_loses_long_values (env : Env) (hfair : env.fair) (hH : ∀ x, (env.H x).length = 32) (ops : List Op)
    (a a' : Spec.Abs) (es : List Entry) (h : Spec.run ⟨[], []⟩ ops = some a) (h1 : Spec.step a (.commit es) = some a')
    (k : Path) (v : Bytes) (hm : (k, v) ∈ a'.kv) (hlong : 32 < v.length)
    (hnew : stateGet (run env Sys.init ops).2.stateDb (env.H v) = none) :
    retrieve ((run env Sys.init ops).2.torn (step env (run env Sys.init ops).2 (.commit es)).2) k = .missing := by
  have ok := (run_ok hfair hH ops (sysOk_init env.H) h).2
  obtain ⟨_, ok'⟩ := step_ok hfair hH ok h1
  generalize (run env Sys.init ops).2 = s at *
  generalize (step env s (.commit es)).2 = s' at *
  have I := ok'.db.inv
  obtain ⟨p, hl⟩ := lf_exists I.flat (keys_of_mem hm)
  have h2 : get s'.db.leafPaths k = some p := (I.leafPath k p).2 hl
  have h3 : get s'.db.nodes p = some (.leaf (mkLeaf env.H k v)) := I.leaf p k v hm hl
  unfold retrieve getLeaf Sys.torn
  dsimp only
  rw [h2]
  dsimp only
  rw [h3]
  dsimp only
  unfold mkLeaf
  rw [if_pos hlong]
  dsimp only
  rw [hnew]

example : retrieve ((run exEnv Sys.init []).2.torn (step exEnv (run exEnv Sys.init []).2 (.commit exAdds)).2) (exKey [true, false, false]) = .missing ∧
    retrieve ((run exEnv Sys.init []).2.torn (step exEnv (run exEnv Sys.init []).2 (.commit exAdds)).2) (exKey [true, false, true]) = .value [1] := by
  decide +kernel

end Fastroll.Trie
