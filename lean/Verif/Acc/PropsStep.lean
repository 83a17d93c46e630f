import Verif.Acc.Props

/-
When the accumulation step of a block is defined, what it leaves, and the gas a block has.
-/
namespace Fastroll.Acc

/-- **C16.** The step of a block is refused exactly when more reports are said to be accumulated
than could be; otherwise it accumulates the first of them, in order, and the newest entry of the
history is their packages, the oldest is dropped and the others keep their order. -/
theorem C16_step (s : St) (available : List Report) (slot n : Nat) (hE : 0 < s.history.length) :
    (n ≤ (collect available s.queue s.history slot).1.length ↔
      blockStep s available slot n ≠ none) ∧
    ∀ s' done, blockStep s available slot n = some (s', done) →
      done.length = n ∧ done <+: (collect available s.queue s.history slot).1 ∧ s'.slot = slot ∧
      s'.history = s.history.drop 1 ++ [done.map (·.pkg)] := by
  constructor
  · unfold blockStep
    by_cases hn : n > (collect available s.queue s.history slot).1.length
    · simp [hn]
    · simp [hn]; omega
  · intro s' done h
    simp only [blockStep] at h
    split at h
    · simp at h
    · next hn =>
      simp only [Option.some.injEq, Prod.mk.injEq] at h
      obtain ⟨rfl, rfl⟩ := h
      have hw := (C43_history_window [((collect available s.queue s.history slot).1.take n).map (·.pkg)]
        s.history hE).1
      refine ⟨by simp; omega, List.take_prefix _ _, rfl, ?_⟩
      simp only [List.foldl_cons, List.foldl_nil, List.length_cons, List.length_nil] at hw
      have hd : (s.history ++ [((collect available s.queue s.history slot).1.take n).map (·.pkg)]).drop 1 =
          s.history.drop 1 ++ [((collect available s.queue s.history slot).1.take n).map (·.pkg)] :=
        List.drop_append_of_le_length hE
      exact hw.trans hd

example : blockStep (genesis 3) [rep 1 [] [5], rep 2 [] [5]] 1 3 = none ∧
    (blockStep (genesis 3) [rep 1 [] [5], rep 2 [] [5]] 1 2).isSome = true := by decide

/-- **C15.** The gas of a block is the Gray Paper's: the larger of the block's total and what all
cores and the always-accumulate services are entitled to, as long as that fits 64 bits. -/
theorem C15_limit (total perCore cores : Nat) (always : List (Nat × Nat))
    (h : perCore * cores + (always.map Prod.snd).sum < 2 ^ 64) :
    total ≤ blockGas total perCore cores always ∧
    perCore * cores + (always.map Prod.snd).sum ≤ blockGas total perCore cores always ∧
    (blockGas total perCore cores always = total ∨
      blockGas total perCore cores always = perCore * cores + (always.map Prod.snd).sum) := by
  have hb : blockGas total perCore cores always =
      max total (perCore * cores + (always.map Prod.snd).sum) := by
    unfold blockGas U64
    rw [Nat.mod_eq_of_lt h]
  rw [hb]
  omega

example : blockGas 10 5 2 [(7, 3)] = 13 ∧ blockGas 20 5 2 [(7, 3)] = 20 := by decide

/-- **C15, negation.** Beyond 64 bits the sum wraps: a block can have less gas than its cores are
entitled to. -/
theorem C15_limit_wraps : blockGas 10 5 2 [(7, 2 ^ 64 - 10)] = 10 ∧
    10 < 5 * 2 + ([(7, 2 ^ 64 - 10)].map Prod.snd).sum := by decide

end Fastroll.Acc
