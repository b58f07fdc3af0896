import Verif.Model.Utils
/-! # Lemmas about sanitising and word splitting -/

set_option linter.unusedSectionVars false

namespace Bulloak

section
variable [U : Ucd]

theorem sanitize_append (a b : Str) : sanitize (a ++ b) = sanitize a ++ sanitize b := by
  simp [sanitize]

theorem sanitize_mem {s : Str} {c : Char} (h : c ∈ sanitize s) : U.isXid c = true ∨ c = ' ' := by
  simp only [sanitize, List.mem_filter, Bool.or_eq_true, beq_iff_eq] at h
  exact h.2

theorem sanitize_no_dash {s : Str} {c : Char} (h : c ∈ sanitize s) : c ≠ '-' := by
  simp only [sanitize, List.mem_filter, List.mem_map] at h
  obtain ⟨⟨d, _, hd⟩, _⟩ := h
  rw [← hd]
  split
  · decide
  · assumption

/-- Text on which `sanitize` is the identity. -/
theorem sanitize_id {s : Str} (h1 : ∀ c ∈ s, U.isXid c = true ∨ c = ' ') (h2 : ∀ c ∈ s, c ≠ '-') : sanitize s = s := by
  unfold sanitize
  have : s.map (fun c => if c = '-' then '_' else c) = s := by
    conv => rhs; rw [← List.map_id s]
    apply List.map_congr_left
    intro c hc
    simp [h2 c hc]
  rw [this, List.filter_eq_self]
  intro c hc
  simpa using h1 c hc

theorem sanitize_idem (s : Str) : sanitize (sanitize s) = sanitize s :=
  sanitize_id (fun _ h => sanitize_mem h) (fun _ h => sanitize_no_dash h)

end
end Bulloak
