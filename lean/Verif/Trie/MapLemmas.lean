import Verif.Trie.Model
namespace Fastroll.Trie

/-! ### Maps -/

variable {α : Type}

@[simp] theorem get_nil (k : Path) : get ([] : List (Path × α)) k = none := rfl

theorem get_cons (k' : Path) (v : α) (m : List (Path × α)) (k : Path) :
    get ((k', v) :: m) k = if k = k' then some v else get m k := rfl

theorem get_put (m : List (Path × α)) (k : Path) (v : α) (k' : Path) :
    get (put m k v) k' = if k' = k then some v else get m k' := by
  induction m with
  | nil => rfl
  | cons e m ih =>
    obtain ⟨k0, v0⟩ := e
    unfold put
    by_cases h : k = k0
    · rw [if_pos h, get_cons, get_cons]
      subst h
      by_cases h1 : k' = k
      · rw [if_pos h1, if_pos h1]
      · rw [if_neg h1, if_neg h1, if_neg h1]
    · rw [if_neg h]
      by_cases h2 : pathLt k k0 = true
      · rw [if_pos h2, get_cons]
      · rw [if_neg h2, get_cons, ih, get_cons]
        by_cases h1 : k' = k0
        · have h3 : k' ≠ k := fun h4 => h (h4 ▸ h1)
          rw [if_pos h1, if_neg h3, if_pos h1]
        · rw [if_neg h1, if_neg h1]

theorem get_filter (m : List (Path × α)) (k k' : Path) :
    get (m.filter fun e => e.1 ≠ k) k' = if k' = k then none else get m k' := by
  induction m with
  | nil => simp
  | cons e m ih =>
    obtain ⟨k0, v0⟩ := e
    rw [List.filter_cons]
    by_cases h : k0 = k
    · rw [if_neg (by simp [h]), ih, get_cons]
      by_cases h1 : k' = k
      · rw [if_pos h1, if_pos h1]
      · rw [if_neg h1, if_neg h1, if_neg (by rw [h]; exact h1)]
    · rw [if_pos (by simp [h]), get_cons, ih, get_cons]
      by_cases h1 : k' = k0
      · rw [if_pos h1, if_pos h1, if_neg (by rw [h1]; exact h)]
      · rw [if_neg h1, if_neg h1]

theorem get_del (m : List (Path × α)) (k k' : Path) : get (del m k) k' = if k' = k then none else get m k' :=
  get_filter m k k'

theorem get_hmPut (m : List (Path × α)) (k : Path) (v : α) (k' : Path) :
    get (hmPut m k v) k' = if k' = k then some v else get m k' := by
  unfold hmPut
  rw [get_cons, get_filter]
  by_cases h : k' = k
  · rw [if_pos h, if_pos h]
  · rw [if_neg h, if_neg h, if_neg h]

theorem get_write (m : List (Path × α)) (w : Path × Option α) (k' : Path) :
    get (write m w) k' = if k' = w.1 then w.2 else get m k' := by
  unfold write
  cases h : w.2 with
  | none => exact get_del m w.1 k'
  | some v => exact get_put m w.1 v k'

theorem mem_keys_of_get {m : List (Path × α)} {k : Path} {v : α} (h : get m k = some v) : (k, v) ∈ m := by
  induction m with
  | nil => cases h
  | cons e m ih =>
    obtain ⟨k0, v0⟩ := e
    rw [get_cons] at h
    by_cases h1 : k = k0
    · rw [if_pos h1] at h
      injection h with h
      subst h1; subst h
      exact List.mem_cons_self
    · rw [if_neg h1] at h
      exact List.mem_cons_of_mem _ (ih h)

theorem get_of_mem_keys {m : List (Path × α)} {k : Path} (h : k ∈ m.map (·.1)) : ∃ v, get m k = some v := by
  induction m with
  | nil => cases h
  | cons e m ih =>
    obtain ⟨k0, v0⟩ := e
    rw [get_cons]
    by_cases h1 : k = k0
    · exact ⟨v0, if_pos h1⟩
    · rw [if_neg h1]
      refine ih ?_
      rw [List.map_cons, List.mem_cons] at h
      exact h.resolve_left h1

theorem mem_keys_iff (m : List (Path × α)) (k : Path) : k ∈ m.map (·.1) ↔ ∃ v, get m k = some v :=
  ⟨get_of_mem_keys, fun ⟨v, h⟩ => List.mem_map.2 ⟨(k, v), mem_keys_of_get h, rfl⟩⟩

/-! ### Order of paths -/

theorem pathLt_irrefl (p : Path) : pathLt p p = false := by
  induction p with
  | nil => rfl
  | cons a p ih => unfold pathLt; rw [if_pos rfl]; exact ih

theorem pathLt_trans : ∀ (p q r : Path), pathLt p q = true → pathLt q r = true → pathLt p r = true
  | [], [], _, h, _ => by cases h
  | [], _ :: _, [], _, h => by cases h
  | [], _ :: _, _ :: _, _, _ => rfl
  | _ :: _, [], _, h, _ => by cases h
  | _ :: _, _ :: _, [], _, h => by cases h
  | a :: p, b :: q, c :: r, h1, h2 => by
    unfold pathLt at h1 h2 ⊢
    by_cases hab : a = b
    · subst hab
      rw [if_pos rfl] at h1
      by_cases hac : a = c
      · rw [if_pos hac] at h2 ⊢
        exact pathLt_trans p q r h1 h2
      · rw [if_neg hac] at h2 ⊢
        exact h2
    · rw [if_neg hab] at h1
      by_cases hbc : b = c
      · subst hbc
        rw [if_neg hab]; exact h1
      · rw [if_neg hbc] at h2
        cases a <;> cases b <;> cases c <;> simp_all

theorem pathLt_total : ∀ (p q : Path), p ≠ q → pathLt p q = false → pathLt q p = true
  | [], [], h, _ => absurd rfl h
  | [], _ :: _, _, h => by cases h
  | _ :: _, [], _, _ => rfl
  | a :: p, b :: q, h, h1 => by
    unfold pathLt at h1 ⊢
    by_cases hab : a = b
    · subst hab
      rw [if_pos rfl] at h1 ⊢
      exact pathLt_total p q (fun h2 => h (by rw [h2])) h1
    · rw [if_neg hab] at h1
      rw [if_neg (Ne.symm hab)]
      cases a <;> cases b <;> simp_all

/-- A path is never greater than an extension of it. -/
theorem pathLt_prefix : ∀ (p q : Path), p <+: q → pathLt q p = false
  | [], [], _ => rfl
  | [], _ :: _, _ => rfl
  | _ :: _, [], h => by simp at h
  | a :: p, b :: q, h => by
    rw [List.cons_prefix_cons] at h
    unfold pathLt
    rw [if_pos h.1.symm]
    exact pathLt_prefix p q h.2

/-- A column family in key order. -/
def Sorted (m : List (Path × α)) : Prop := m.Pairwise fun a b => pathLt a.1 b.1 = true

theorem mem_put {m : List (Path × α)} {k : Path} {v : α} {x : Path × α} (h : x ∈ put m k v) :
    x = (k, v) ∨ x ∈ m := by
  induction m with
  | nil => simpa [put] using h
  | cons e m ih =>
    obtain ⟨k0, v0⟩ := e
    unfold put at h
    by_cases h1 : k = k0
    · rw [if_pos h1] at h
      rcases List.mem_cons.1 h with h | h
      · exact Or.inl h
      · exact Or.inr (List.mem_cons_of_mem _ h)
    · rw [if_neg h1] at h
      by_cases h2 : pathLt k k0 = true
      · rw [if_pos h2] at h
        exact List.mem_cons.1 h
      · rw [if_neg h2] at h
        rcases List.mem_cons.1 h with h | h
        · exact Or.inr (h ▸ List.mem_cons_self)
        · exact (ih h).imp id (List.mem_cons_of_mem _)

theorem sorted_put {m : List (Path × α)} (h : Sorted m) (k : Path) (v : α) : Sorted (put m k v) := by
  induction m with
  | nil => exact List.pairwise_singleton _ _
  | cons e m ih =>
    obtain ⟨k0, v0⟩ := e
    have h' := List.pairwise_cons.1 h
    unfold put
    by_cases h1 : k = k0
    · rw [if_pos h1]
      subst h1
      exact List.pairwise_cons.2 h'
    · rw [if_neg h1]
      by_cases h2 : pathLt k k0 = true
      · rw [if_pos h2]
        refine List.pairwise_cons.2 ⟨fun x hx => ?_, h⟩
        rcases List.mem_cons.1 hx with hx | hx
        · subst hx; exact h2
        · exact pathLt_trans _ _ _ h2 (h'.1 x hx)
      · rw [if_neg h2]
        refine List.pairwise_cons.2 ⟨fun x hx => ?_, ih h'.2⟩
        rcases mem_put hx with hx | hx
        · subst hx
          exact pathLt_total k k0 h1 (by simpa using h2)
        · exact h'.1 x hx

theorem sorted_write {m : List (Path × α)} (h : Sorted m) (w : Path × Option α) : Sorted (write m w) := by
  unfold write
  split
  · exact sorted_put h _ _
  · exact List.Pairwise.filter _ h

theorem sorted_writes {m : List (Path × α)} (h : Sorted m) (ws : List (Path × Option α)) :
    Sorted (ws.foldl write m) := by
  induction ws generalizing m with
  | nil => exact h
  | cons w ws ih => exact ih (sorted_write h w)

theorem get_of_mem_sorted {m : List (Path × α)} (h : Sorted m) {k : Path} {v : α} (hm : (k, v) ∈ m) :
    get m k = some v := by
  induction m with
  | nil => cases hm
  | cons e m ih =>
    obtain ⟨k0, v0⟩ := e
    have h' := List.pairwise_cons.1 h
    rw [get_cons]
    rcases List.mem_cons.1 hm with hm | hm
    · injection hm with h1 h2
      rw [if_pos h1, h2]
    · have := h'.1 _ hm
      have hne : k ≠ k0 := fun hk => by
        rw [hk, pathLt_irrefl] at this; cases this
      rw [if_neg hne]
      exact ih h'.2 hm

/-- Writes with pairwise different keys: a written key has its written value, another its old one. -/
theorem get_writes (m : List (Path × α)) (ws : List (Path × Option α)) (hn : (ws.map (·.1)).Nodup) (k : Path) :
    (∀ w, (k, w) ∈ ws → get (ws.foldl write m) k = w) ∧
    (k ∉ ws.map (·.1) → get (ws.foldl write m) k = get m k) := by
  induction ws generalizing m with
  | nil => exact ⟨(fun w h => by cases h), fun _ => rfl⟩
  | cons e ws ih =>
    rw [List.map_cons, List.nodup_cons] at hn
    have ih' := ih (write m e) hn.2
    rw [List.foldl_cons]
    constructor
    · intro w hw
      rcases List.mem_cons.1 hw with hw | hw
      · have : k ∉ ws.map (·.1) := by rw [← hw] at hn; exact hn.1
        rw [ih'.2 this, get_write, ← hw, if_pos rfl]
      · exact ih'.1 w hw
    · intro hk
      rw [List.map_cons, List.mem_cons, not_or] at hk
      rw [ih'.2 hk.2, get_write, if_neg hk.1]

/-! ### The scan for the longest prefix -/

theorem isPrefixOf_iff {p q : Path} : p.isPrefixOf q = true ↔ p <+: q := List.isPrefixOf_iff_prefix

theorem scan_spec (key : Path) (m : List (Path × Node)) (hs : Sorted m) (init : Path)
    (hi : init <+: key) (hinit : ∀ e ∈ m, e.1 <+: key → init.length < e.1.length) :
    let r := scan key init m
    r <+: key ∧ (r = init ∨ ∃ n, (r, n) ∈ m) ∧ init.length ≤ r.length ∧ ∀ e ∈ m, e.1 <+: key → e.1.length ≤ r.length := by
  induction m generalizing init with
  | nil => exact ⟨hi, Or.inl rfl, Nat.le_refl _, (fun e he => by cases he)⟩
  | cons e m ih =>
    obtain ⟨c, n⟩ := e
    have hs' := List.pairwise_cons.1 hs
    dsimp only
    unfold scan
    by_cases h : pathLt key c = true
    · rw [if_pos h]
      refine ⟨hi, Or.inl rfl, Nat.le_refl _, ?_⟩
      intro e he hp
      have : pathLt key e.1 = true := by
        rcases List.mem_cons.1 he with he | he
        · subst he; exact h
        · exact pathLt_trans _ _ _ h (hs'.1 e he)
      rw [pathLt_prefix _ _ hp] at this
      cases this
    · rw [if_neg h]
      by_cases hc : c.isPrefixOf key = true
      · rw [if_pos hc]
        have hc' := isPrefixOf_iff.1 hc
        have hlt : ∀ e ∈ m, e.1 <+: key → c.length < e.1.length := by
          intro e he hp
          have h1 := hs'.1 e he
          rcases Nat.lt_or_ge c.length e.1.length with h2 | h2
          · exact h2
          · have : e.1 <+: c := List.prefix_of_prefix_length_le hp hc' h2
            have h3 := pathLt_prefix _ _ this
            dsimp only at h1
            rw [h3] at h1; cases h1
        obtain ⟨r1, r2, r3, r4⟩ := ih hs'.2 c hc' hlt
        refine ⟨r1, Or.inr ?_, ?_, ?_⟩
        · rcases r2 with r2 | ⟨x, hx⟩
          · exact ⟨n, by rw [r2]; exact List.mem_cons_self⟩
          · exact ⟨x, List.mem_cons_of_mem _ hx⟩
        · have := hinit (c, n) List.mem_cons_self hc'
          dsimp only at this
          omega
        · intro e he hp
          rcases List.mem_cons.1 he with he | he
          · subst he; exact r3
          · exact r4 e he hp
      · rw [if_neg hc]
        obtain ⟨r1, r2, r3, r4⟩ := ih hs'.2 init hi (fun e he hp => hinit e (List.mem_cons_of_mem _ he) hp)
        refine ⟨r1, ?_, r3, ?_⟩
        · rcases r2 with r2 | ⟨x, hx⟩
          · exact Or.inl r2
          · exact Or.inr ⟨x, List.mem_cons_of_mem _ hx⟩
        · intro e he hp
          rcases List.mem_cons.1 he with he | he
          · subst he
            exact absurd (isPrefixOf_iff.2 hp) hc
          · exact r4 e he hp

theorem mem_dropWhile_of {β : Type} (f : β → Bool) (l : List β) (x : β) (hx : x ∈ l) (hf : f x = false) :
    x ∈ l.dropWhile f := by
  induction l with
  | nil => cases hx
  | cons a l ih =>
    rw [List.dropWhile_cons]
    by_cases h : f a = true
    · rw [if_pos h]
      rcases List.mem_cons.1 hx with hx | hx
      · subst hx; rw [hf] at h; cases h
      · exact ih hx
    · rw [if_neg h]; exact hx

/-- The longest stored nonempty path that is a prefix of the key, or the empty path. -/
theorem dbLongest_spec (db : Db) (hs : Sorted db.nodes) (key : Path) :
    dbLongest db key <+: key ∧
    (dbLongest db key = [] ∨ ∃ n, get db.nodes (dbLongest db key) = some n) ∧
    ∀ p n, p <+: key → get db.nodes p = some n → p.length ≤ (dbLongest db key).length := by
  have hs' : Sorted (db.nodes.dropWhile fun e => pathLt e.1 (key.take 1)) :=
    List.Pairwise.sublist (List.dropWhile_sublist _) hs
  have hne : ∀ e ∈ (db.nodes.dropWhile fun e => pathLt e.1 (key.take 1)), e.1 <+: key → 0 < e.1.length ∨ key = [] := by
    intro e he hp
    cases hk : key with
    | nil => exact Or.inr rfl
    | cons a k =>
      refine Or.inl ?_
      rcases Nat.eq_zero_or_pos e.1.length with h0 | h0
      · exfalso
        have hfirst : ∀ (l : List (Path × Node)) (f : Path × Node → Bool), Sorted l →
            (∀ x y, pathLt x.1 y.1 = true → f y = true → f x = true) → ∀ x ∈ l.dropWhile f, f x = false := by
          intro l f hl hf
          induction l with
          | nil => intro x hx; cases hx
          | cons a l ih =>
            have hl' := List.pairwise_cons.1 hl
            intro x hx
            rw [List.dropWhile_cons] at hx
            by_cases ha : f a = true
            · rw [if_pos ha] at hx
              exact ih hl'.2 x hx
            · rw [if_neg ha] at hx
              rcases List.mem_cons.1 hx with hx | hx
              · subst hx; simpa using ha
              · cases hfx : f x with
                | false => rfl
                | true => exact absurd (hf a x (hl'.1 x hx) hfx) ha
        have h1 := hfirst db.nodes (fun e => pathLt e.1 (key.take 1)) hs
          (fun x y h1 h2 => pathLt_trans _ _ _ h1 h2) e he
        rw [List.length_eq_zero_iff.1 h0, hk] at h1
        cases h1
      · exact h0
  by_cases hk : key = []
  · have hr : dbLongest db key <+: key ∧ dbLongest db key = [] := by
      have : ∀ (m : List (Path × Node)), scan [] [] m = [] := by
        intro m
        induction m with
        | nil => rfl
        | cons e m ih =>
          obtain ⟨c, n⟩ := e
          unfold scan
          cases c with
          | nil => simpa [pathLt] using ih
          | cons a c => simp [pathLt]
      unfold dbLongest
      rw [hk, this]
      exact ⟨List.nil_prefix, rfl⟩
    refine ⟨hr.1, Or.inl hr.2, fun p n hp _ => ?_⟩
    rw [hk] at hp
    rw [List.prefix_nil.1 hp]
    exact Nat.zero_le _
  · obtain ⟨r1, r2, _, r4⟩ := scan_spec key _ hs' [] List.nil_prefix
      (fun e he hp => (hne e he hp).resolve_right hk)
    refine ⟨r1, ?_, ?_⟩
    · rcases r2 with r2 | ⟨n, hn⟩
      · exact Or.inl r2
      · exact Or.inr ⟨n, get_of_mem_sorted hs ((List.dropWhile_sublist _).subset hn)⟩
    · intro p n hp hg
      cases hp0 : p with
      | nil => exact Nat.zero_le _
      | cons a p' =>
        rw [← hp0]
        refine r4 (p, n) (mem_dropWhile_of _ _ _ (mem_keys_of_get hg) ?_) hp
        refine pathLt_prefix _ _ (List.prefix_of_prefix_length_le (List.take_prefix 1 key) hp ?_)
        rw [hp0, List.length_take, List.length_cons]
        omega

theorem mem_allPaths (p x : Path) : x ∈ allPaths p ↔ x <+: p := by
  induction p generalizing x with
  | nil => simp [allPaths]
  | cons b p ih =>
    unfold allPaths
    rw [List.mem_append, List.mem_map, List.mem_singleton]
    constructor
    · rintro (⟨y, hy, rfl⟩ | rfl)
      · exact List.cons_prefix_cons.2 ⟨rfl, (ih y).1 hy⟩
      · exact List.nil_prefix
    · intro h
      cases x with
      | nil => exact Or.inr rfl
      | cons a x =>
        rw [List.cons_prefix_cons] at h
        exact Or.inl ⟨x, (ih x).2 h.2, by rw [h.1]⟩

theorem getNode_setNode (db : Db) (cs : ChangeSet) (p : Path) (w : Option Node) (x : Path) :
    getNode db (cs.setNode p w) x = if x = p then w else getNode db cs x := by
  unfold getNode ChangeSet.setNode
  dsimp only
  rw [get_hmPut]
  by_cases h : x = p
  · rw [if_pos h, if_pos h]
  · rw [if_neg h, if_neg h]

theorem getLeafPath_setLeaf (db : Db) (cs : ChangeSet) (k : Path) (w : Option Path) (x : Path) :
    getLeafPath db (cs.setLeaf k w) x = if x = k then w else getLeafPath db cs x := by
  unfold getLeafPath ChangeSet.setLeaf
  dsimp only
  rw [get_hmPut]
  by_cases h : x = k
  · rw [if_pos h, if_pos h]
  · rw [if_neg h, if_neg h]

/-- The iteration order of a hash set is some permutation of its elements. -/
def Env.fair (env : Env) : Prop := ∀ l, (env.ord l).Perm l

/-- `longestPrefix` is the longest prefix of the key at which there is a node now, or the root. -/
theorem longestPrefix_spec (env : Env) (hf : env.fair) (db : Db) (cs : ChangeSet) (hs : Sorted db.nodes) (key : Path)
    (hdb : ∀ p q, q <+: p → (get db.nodes p).isSome = true → (get db.nodes q).isSome = true) :
    let q := longestPrefix env db cs key
    q <+: key ∧ (q = [] ∨ (getNode db cs q).isSome = true) ∧
    ∀ p, p <+: key → (getNode db cs p).isSome = true → p.length ≤ q.length := by
  have hmem : ∀ x, x ∈ candidates env db cs key ↔
      x <+: dbLongest db key ∨ (x <+: key ∧ ∃ w, get cs.nodes x = some w) := by
    intro x
    unfold candidates
    rw [(hf _).mem_iff, List.mem_eraseDups, List.mem_append, mem_allPaths, List.mem_filter, mem_keys_iff]
    constructor
    · rintro (h | h)
      · exact Or.inl h
      · exact Or.inr ⟨isPrefixOf_iff.1 h.2, h.1⟩
    · rintro (h | h)
      · exact Or.inl h
      · exact Or.inr ⟨h.2, isPrefixOf_iff.2 h.1⟩
  obtain ⟨d1, d2, d3⟩ := dbLongest_spec db hs key
  have hcand : ∀ x ∈ candidates env db cs key, x <+: key ∧
      (x = [] ∨ get cs.nodes x = some none ∨ (getNode db cs x).isSome = true) := by
    intro x hx
    rcases (hmem x).1 hx with h | ⟨h, w, hw⟩
    · refine ⟨h.trans d1, ?_⟩
      cases hc : get cs.nodes x with
      | some w =>
        cases w with
        | none => exact Or.inr (Or.inl rfl)
        | some n => exact Or.inr (Or.inr (by unfold getNode; rw [hc]; rfl))
      | none =>
        rcases d2 with d2 | ⟨n, hn⟩
        · rw [d2] at h
          exact Or.inl (List.prefix_nil.1 h)
        · refine Or.inr (Or.inr ?_)
          unfold getNode
          rw [hc]
          exact hdb _ x h (by rw [hn]; rfl)
    · refine ⟨h, ?_⟩
      cases w with
      | none => exact Or.inr (Or.inl hw)
      | some n => exact Or.inr (Or.inr (by unfold getNode; rw [hw]; rfl))
  have hcov : ∀ p, p <+: key → (getNode db cs p).isSome = true → p ∈ candidates env db cs key := by
    intro p hp hg
    rw [hmem]
    unfold getNode at hg
    cases hc : get cs.nodes p with
    | some w => exact Or.inr ⟨hp, w, rfl⟩
    | none =>
      rw [hc] at hg
      dsimp only at hg
      obtain ⟨n, hn⟩ := Option.isSome_iff_exists.1 hg
      exact Or.inl (List.prefix_of_prefix_length_le hp d1 (d3 p n hp hn))
  have hfold : ∀ (l : List Path) (init : Path),
      (∀ x ∈ l, x <+: key ∧ (x = [] ∨ get cs.nodes x = some none ∨ (getNode db cs x).isSome = true)) →
      init <+: key → (init = [] ∨ (getNode db cs init).isSome = true) →
      l.foldl (pickLonger cs) init <+: key ∧
      (l.foldl (pickLonger cs) init = [] ∨ (getNode db cs (l.foldl (pickLonger cs) init)).isSome = true) ∧
      init.length ≤ (l.foldl (pickLonger cs) init).length ∧
      ∀ p ∈ l, (getNode db cs p).isSome = true → p.length ≤ (l.foldl (pickLonger cs) init).length := by
    intro l
    induction l with
    | nil => intro init _ h1 h2; exact ⟨h1, h2, Nat.le_refl _, (fun p hp => by cases hp)⟩
    | cons c l ih =>
      intro init hl h1 h2
      rw [List.foldl_cons]
      have hc := hl c List.mem_cons_self
      have key1 : pickLonger cs init c <+: key ∧
          (pickLonger cs init c = [] ∨ (getNode db cs (pickLonger cs init c)).isSome = true) ∧
          init.length ≤ (pickLonger cs init c).length ∧
          ((getNode db cs c).isSome = true → c.length ≤ (pickLonger cs init c).length) := by
        unfold pickLonger
        by_cases hlen : c.length > init.length
        · rw [if_pos hlen]
          cases hg : get cs.nodes c with
          | none =>
            dsimp only
            refine ⟨hc.1, ?_, by omega, fun _ => Nat.le_refl _⟩
            rcases hc.2 with h | h | h
            · exact Or.inl h
            · rw [hg] at h; cases h
            · exact Or.inr h
          | some w =>
            cases w with
            | none =>
              dsimp only
              refine ⟨h1, h2, Nat.le_refl _, fun h => ?_⟩
              unfold getNode at h
              rw [hg] at h; cases h
            | some n =>
              dsimp only
              exact ⟨hc.1, Or.inr (by unfold getNode; rw [hg]; rfl), by omega, fun _ => Nat.le_refl _⟩
        · rw [if_neg hlen]
          exact ⟨h1, h2, Nat.le_refl _, fun _ => by omega⟩
      obtain ⟨k1, k2, k3, k4⟩ := key1
      obtain ⟨r1, r2, r3, r4⟩ := ih (pickLonger cs init c) (fun x hx => hl x (List.mem_cons_of_mem _ hx)) k1 k2
      refine ⟨r1, r2, by omega, ?_⟩
      intro p hp hg
      rcases List.mem_cons.1 hp with hp | hp
      · subst hp
        have := k4 hg
        omega
      · exact r4 p hp hg
  obtain ⟨r1, r2, _, r4⟩ := hfold (candidates env db cs key) [] hcand List.nil_prefix (Or.inl rfl)
  exact ⟨r1, r2, fun p hp hg => r4 p (hcov p hp hg) hg⟩

end Fastroll.Trie
