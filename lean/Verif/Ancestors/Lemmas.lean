import Verif.Ancestors.Model
/-!
# Lemmas on the ancestor set
-/
namespace Fastroll.Ancestors

theorem lt_iff (a b : Entry) : lt a b = true ↔ a.1 < b.1 ∨ (a.1 = b.1 ∧ a.2 < b.2) := by
  simp [lt]

theorem lt_trans' {a b c : Entry} (h1 : lt a b = true) (h2 : lt b c = true) : lt a c = true := by
  rw [lt_iff] at *
  omega

theorem lt_total {a b : Entry} (h : a ≠ b) (h1 : lt a b = false) : lt b a = true := by
  have h1 : ¬ lt a b = true := by simp [h1]
  rw [lt_iff] at *
  obtain ⟨a1, a2⟩ := a
  obtain ⟨b1, b2⟩ := b
  have : ¬ (a1 = b1 ∧ a2 = b2) := fun e => h (by rw [e.1, e.2])
  dsimp only at h1 ⊢
  omega

theorem lt_irrefl (a : Entry) : lt a a = false := by
  cases h : lt a a with
  | false => rfl
  | true => rw [lt_iff] at h; omega

/-- The heap and the set hold the same entries, once each. -/
structure Agree (s : Set') : Prop where
  nodup : s.heap.Nodup
  same : ∀ e, e ∈ s.set ↔ e ∈ s.heap
  bound : s.heap.length ≤ s.capacity

/-- The entries are the greatest of those added. -/
structure Kept (added : List Entry) (s : Set') : Prop where
  agree : Agree s
  sub : ∀ e ∈ s.heap, e ∈ added
  room : s.heap.length < s.capacity → ∀ e ∈ added, e ∈ s.heap
  top : ∀ d ∈ added, d ∉ s.heap → ∀ k ∈ s.heap, lt d k = true

theorem agree_new (c : Nat) : Agree (new c) :=
  ⟨List.nodup_nil, fun _ => Iff.rfl, Nat.zero_le _⟩

theorem kept_new (c : Nat) : Kept [] (new c) :=
  ⟨agree_new c, fun _ h => h, fun _ _ h => h, fun _ h => by cases h⟩

theorem agree_add (H : Heap) {s : Set'} (h : Agree s) (e : Entry) : Agree (s.add H e) := by
  unfold Set'.add
  split
  · exact h
  · rename_i hc
    have hn : e ∉ s.heap := by
      intro hm
      exact hc (by simpa [Set'.contains] using (h.same e).2 hm)
    split
    · rename_i hf
      have hf : s.heap.length ≠ s.capacity := by simpa [Set'.isFull] using hf
      refine ⟨List.nodup_cons.2 ⟨hn, h.nodup⟩, ?_, ?_⟩
      · intro x
        simp only [List.mem_cons, h.same]
      · have := h.bound
        simp only [List.length_cons]
        omega
    · split
      · exact h
      · rename_i m hm
        have hmem := H.mem _ _ hm
        split
        · refine ⟨List.nodup_cons.2 ⟨fun hx => hn (List.mem_of_mem_erase hx), h.nodup.erase m⟩, ?_, ?_⟩
          · intro x
            simp only [List.mem_cons, List.mem_filter, h.same, decide_eq_true_eq, h.nodup.mem_erase_iff,
              and_comm]
          · have := h.bound
            have hl := List.length_pos_of_mem hmem
            simp only [List.length_cons, List.length_erase_of_mem hmem]
            omega
        · exact h

theorem add_capacity (H : Heap) (s : Set') (e : Entry) : (s.add H e).capacity = s.capacity := by
  unfold Set'.add
  repeat' (first | rfl | split)

theorem kept_add (H : Heap) {s : Set'} {added : List Entry} (h : Kept added s) (e : Entry) :
    Kept (added ++ [e]) (s.add H e) := by
  have ha := agree_add H h.agree e
  unfold Set'.add at ha ⊢
  by_cases hc : s.contains e = true
  · rw [if_pos hc] at ha ⊢
    have he : e ∈ s.heap := (h.agree.same e).1 (by simpa [Set'.contains] using hc)
    refine ⟨ha, fun x hx => List.mem_append_left _ (h.sub x hx), ?_, ?_⟩
    · intro hr x hx
      rcases List.mem_append.1 hx with hx | hx
      · exact h.room hr x hx
      · rw [List.mem_singleton.1 hx]; exact he
    · intro d hd hn k hk
      rcases List.mem_append.1 hd with hd | hd
      · exact h.top d hd hn k hk
      · rw [List.mem_singleton.1 hd] at hn
        exact absurd he hn
  · rw [if_neg hc] at ha ⊢
    have hn : e ∉ s.heap := fun hm => hc (by simpa [Set'.contains] using (h.agree.same e).2 hm)
    by_cases hf : (!s.isFull) = true
    · rw [if_pos hf] at ha ⊢
      have hf : s.heap.length ≠ s.capacity := by simpa [Set'.isFull] using hf
      have hlt : s.heap.length < s.capacity := by have := h.agree.bound; omega
      refine ⟨ha, ?_, ?_, ?_⟩
      · intro x hx
        rcases List.mem_cons.1 hx with hx | hx
        · rw [hx]; simp
        · exact List.mem_append_left _ (h.sub x hx)
      · intro _ x hx
        rcases List.mem_append.1 hx with hx | hx
        · exact List.mem_cons_of_mem _ (h.room hlt x hx)
        · rw [List.mem_singleton.1 hx]; exact List.mem_cons_self ..
      · intro d hd hnd
        rcases List.mem_append.1 hd with hd | hd
        · exact absurd (List.mem_cons_of_mem _ (h.room hlt d hd)) hnd
        · rw [List.mem_singleton.1 hd] at hnd
          exact absurd (List.mem_cons_self ..) hnd
    · rw [if_neg hf] at ha ⊢
      have hfull : s.heap.length = s.capacity := by simpa [Set'.isFull] using hf
      cases hp : H.peek s.heap with
      | none =>
        rw [hp] at ha
        have hnil := H.empty _ hp
        refine ⟨ha, fun x hx => List.mem_append_left _ (h.sub x hx), ?_, ?_⟩
        · intro hr; dsimp only at hr; omega
        · intro d _ _ k hk
          dsimp only at hk
          rw [hnil] at hk; cases hk
      | some m =>
        rw [hp] at ha
        dsimp only at ha ⊢
        have hm := H.mem _ _ hp
        by_cases hl : lt m e = true
        · rw [if_pos hl] at ha ⊢
          have hlen : (e :: s.heap.erase m).length = s.capacity := by
            have := List.length_pos_of_mem hm
            simp only [List.length_cons, List.length_erase_of_mem hm]
            omega
          refine ⟨ha, ?_, ?_, ?_⟩
          · intro x hx
            rcases List.mem_cons.1 hx with hx | hx
            · rw [hx]; simp
            · exact List.mem_append_left _ (h.sub x (List.mem_of_mem_erase hx))
          · intro hr
            dsimp only at hr
            omega
          · intro d hd hnd k hk
            have hmk : lt m k = true := by
              rcases List.mem_cons.1 hk with hk | hk
              · rw [hk]; exact hl
              · have hk' := (h.agree.nodup.mem_erase_iff).1 hk
                exact lt_total hk'.1 (H.least _ _ _ hp hk'.2)
            rcases List.mem_append.1 hd with hd | hd
            · by_cases hdm : d = m
              · rw [hdm]; exact hmk
              · have hdn : d ∉ s.heap := by
                  intro hx
                  exact hnd (List.mem_cons_of_mem _ ((h.agree.nodup.mem_erase_iff).2 ⟨hdm, hx⟩))
                exact lt_trans' (h.top d hd hdn m hm) hmk
            · rw [List.mem_singleton.1 hd] at hnd
              exact absurd (List.mem_cons_self ..) hnd
        · rw [if_neg hl] at ha ⊢
          have hem : lt e m = true :=
            lt_total (fun hx => hn (hx ▸ hm)) (by simpa using hl)
          refine ⟨ha, fun x hx => List.mem_append_left _ (h.sub x hx), ?_, ?_⟩
          · intro hr; omega
          · intro d hd hnd k hk
            rcases List.mem_append.1 hd with hd | hd
            · exact h.top d hd hnd k hk
            · rw [List.mem_singleton.1 hd]
              by_cases hkm : k = m
              · rw [hkm]; exact hem
              · exact lt_trans' hem (lt_total hkm (H.least _ _ _ hp hk))

theorem kept_addMany (H : Heap) (es : List Entry) : ∀ {s : Set'} {added : List Entry}, Kept added s →
    Kept (added ++ es) (s.addMany H es) := by
  induction es with
  | nil => intro s added h; simpa [Set'.addMany] using h
  | cons e es ih =>
    intro s added h
    have := ih (kept_add H h e)
    simpa [Set'.addMany] using this

theorem addMany_capacity (H : Heap) (es : List Entry) : ∀ (s : Set'),
    (s.addMany H es).capacity = s.capacity := by
  induction es with
  | nil => intro s; rfl
  | cons e es ih => intro s; simp only [Set'.addMany]; rw [ih, add_capacity]

theorem nodup_eraseDups (l : List Entry) : l.eraseDups.Nodup := by
  suffices ∀ n, ∀ l : List Entry, l.length ≤ n → l.eraseDups.Nodup from this _ l (Nat.le_refl _)
  intro n
  induction n with
  | zero => intro l h; rw [List.length_eq_zero_iff.1 (Nat.le_zero.1 h)]; exact List.nodup_nil
  | succ n ih =>
    intro l h
    cases l with
    | nil => exact List.nodup_nil
    | cons a l =>
      rw [List.eraseDups_cons]
      refine List.nodup_cons.2 ⟨?_, ih _ ?_⟩
      · rw [List.mem_eraseDups]
        simp
      · have := List.length_filter_le (fun b => !b == a) l
        simp only [List.length_cons] at h
        omega

theorem kept_length {added : List Entry} {s : Set'} (h : Kept added s) :
    s.heap.length = min s.capacity added.eraseDups.length := by
  have h1 : s.heap.length ≤ added.eraseDups.length :=
    List.Nodup.length_le_of_subset h.agree.nodup (fun e he => (List.mem_eraseDups).2 (h.sub e he))
  have h2 := h.agree.bound
  rcases Nat.lt_or_ge s.heap.length s.capacity with hlt | hge
  · have h3 : added.eraseDups.length ≤ s.heap.length :=
      List.Nodup.length_le_of_subset (nodup_eraseDups added)
        (fun e he => h.room hlt e ((List.mem_eraseDups).1 he))
    omega
  · omega

/-- Removal, when no two entries held share a hash. -/
theorem agree_remove {s : Set'} (h : Agree s) (e : Entry)
    (hu : ∀ x ∈ s.heap, x.2 = e.2 → x = e) : Agree (s.remove e).1 := by
  unfold Set'.remove
  split
  · refine ⟨h.nodup.sublist List.filter_sublist, ?_, ?_⟩
    · intro x
      simp only [List.mem_filter, h.same, decide_eq_true_eq]
      constructor
      · rintro ⟨hx, hne⟩
        exact ⟨hx, fun e2 => hne (hu x hx e2)⟩
      · rintro ⟨hx, hne⟩
        exact ⟨hx, fun e2 => hne (by rw [e2])⟩
    · exact Nat.le_trans (List.length_filter_le _ _) h.bound
  · exact h

end Fastroll.Ancestors
