/-! # General facts about lists -/

namespace Bulloak

theorem snoc_cases {α} (l : List α) : l = [] ∨ ∃ l' x, l = l' ++ [x] := by
  rcases List.eq_nil_or_concat l with h | ⟨l', x, h⟩
  · exact Or.inl h
  · exact Or.inr ⟨l', x, by simp [h]⟩

/-- Induction from the right. -/
@[elab_as_elim] theorem snocInd {α} {motive : List α → Prop} (nil : motive [])
    (snoc : ∀ l x, motive l → motive (l ++ [x])) (l : List α) : motive l := by
  generalize hn : l.length = n
  induction n generalizing l with
  | zero => simp at hn; rw [hn]; exact nil
  | succ n ih =>
    rcases snoc_cases l with h | ⟨l', x, h⟩
    · simp [h] at hn
    · rw [h]; apply snoc; apply ih; simp [h] at hn; exact hn

end Bulloak
