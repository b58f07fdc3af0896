import Verif.Spec.Declared
import Verif.Lemmas.SolFile4
import Verif.Lemmas.Fix6
/-! # Lemmas about how often a text occurs in another -/

namespace Bulloak
open Spec
set_option linter.unusedSectionVars false

/-- How often `d` occurs in a text, overlapping occurrences included. -/
def occ (d : Str) : Str → Nat
  | [] => 0
  | c :: s => (if d <+: c :: s then 1 else 0) + occ d s

theorem occ_super (d a b : Str) : occ d a + occ d b ≤ occ d (a ++ b) := by
  induction a with
  | nil => simp [occ]
  | cons c a ih =>
    rw [List.cons_append, occ, occ]
    by_cases h : d <+: c :: a
    · have : d <+: c :: (a ++ b) := h.trans (by rw [← List.cons_append]; exact List.prefix_append _ _)
      rw [if_pos h, if_pos this]; omega
    · rw [if_neg h]; omega

/-- An occurrence that begins in `u` ends there if `d` has nothing of what follows. -/
theorem prefix_cut {d u v : Str} (h : d <+: u ++ v) : d <+: u ∨ ∃ e, d = u ++ e ∧ e ≠ [] ∧ e <+: v := by
  rcases Nat.lt_or_ge u.length d.length with hl | hl
  · right
    obtain ⟨t, ht⟩ := h
    obtain ⟨e, he⟩ := (List.prefix_of_prefix_length_le (l₁ := u) (l₂ := d) (l₃ := u ++ v) (List.prefix_append _ _) ⟨t, ht⟩ (by omega))
    refine ⟨e, he.symm, ?_, t, ?_⟩
    · rintro rfl
      rw [← he] at hl
      simp at hl
    · rw [← he, List.append_assoc] at ht
      exact List.append_cancel_left ht
  · left
    exact List.prefix_of_prefix_length_le h (List.prefix_append _ _) hl

theorem occ_cut {d v : Str} (hv : ∀ u e, d = u ++ e → e ≠ [] → ¬ e <+: v) (a : Str) : occ d (a ++ v) = occ d a + occ d v := by
  induction a with
  | nil => simp [occ]
  | cons c a ih =>
    rw [List.cons_append, occ, occ, ih]
    by_cases h : d <+: c :: a
    · have : d <+: c :: (a ++ v) := h.trans (by rw [← List.cons_append]; exact List.prefix_append _ _)
      rw [if_pos h, if_pos this]; omega
    · rw [if_neg h, if_neg]
      · omega
      · intro h'
        rw [← List.cons_append] at h'
        rcases prefix_cut h' with h2 | ⟨e, e1, e2, e3⟩
        · exact h h2
        · exact hv _ e e1 e2 e3

/-- A character that is not in `d` separates. -/
theorem occ_sep {d : Str} {c : Char} (hc : c ∉ d) (a b : Str) (hd : d ≠ []) : occ d (a ++ c :: b) = occ d a + occ d b := by
  have key : ∀ u e, d = u ++ e → e ≠ [] → ¬ e <+: c :: b := by
    intro u e hd he hp
    cases e with
    | nil => exact he rfl
    | cons x e =>
      obtain ⟨t, ht⟩ := hp
      simp only [List.cons_append, List.cons.injEq] at ht
      exact hc (by rw [hd, ← ht.1]; simp)
  rw [occ_cut key, occ, if_neg (key [] d rfl hd)]
  omega

/-- Characters other than the first one of `d` can be skipped. -/
theorem occ_skip {h : Char} {r a : Str} (ha : h ∉ a) (b : Str) : occ (h :: r) (a ++ b) = occ (h :: r) b := by
  induction a with
  | nil => rfl
  | cons c a ih =>
    rw [List.cons_append, occ, ih (fun hm => ha (List.mem_cons_of_mem _ hm)), if_neg]
    · omega
    · rintro ⟨t, ht⟩
      simp only [List.cons_append, List.cons.injEq] at ht
      exact ha (by rw [ht.1]; simp)

theorem occ_pos {d s : Str} (h : 0 < occ d s) : ∃ x y, s = x ++ (d ++ y) := by
  induction s with
  | nil => simp [occ] at h
  | cons c s ih =>
    rw [occ] at h
    split at h
    · rename_i hp
      obtain ⟨t, ht⟩ := hp
      exact ⟨[], t, by rw [← ht]; rfl⟩
    · obtain ⟨x, y, e⟩ := ih (by omega)
      exact ⟨c :: x, y, by rw [e]; rfl⟩

theorem occ_zero {d s : Str} (h : ¬ d <:+: s) : occ d s = 0 := by
  rcases Nat.eq_zero_or_pos (occ d s) with h0 | h0
  · exact h0
  · obtain ⟨x, y, e⟩ := occ_pos h0
    exact absurd ⟨x, y, by rw [e]; simp⟩ h

theorem occ_front {d t : Str} (hd : d ≠ []) (hp : d <+: t) : 0 < occ d t := by
  cases t with
  | nil => exact absurd (List.prefix_nil.1 hp) hd
  | cons c t => rw [occ, if_pos hp]; omega

theorem occ_le_one {d s : Str} (h : ∀ x y x' y', s = x ++ (d ++ y) → s = x' ++ (d ++ y') → x = x') : occ d s ≤ 1 := by
  induction s with
  | nil => simp [occ]
  | cons c s ih =>
    rw [occ]
    split
    · rename_i hp
      rcases Nat.eq_zero_or_pos (occ d s) with h0 | h0
      · omega
      · obtain ⟨x, y, e⟩ := occ_pos h0
        obtain ⟨t, ht⟩ := hp
        have := h [] t (c :: x) y ht.symm (by rw [e]; rfl)
        cases this
    · have := ih fun x y x' y' e e' => (List.cons.inj (h (c :: x) y (c :: x') y' (by rw [e]; rfl) (by rw [e']; rfl))).2
      omega

/-- A text that begins with something that occurs once occurs once. -/
theorem once_of_occ {d x t y : Str} (hd : d ≠ []) (ht : d <+: t) (h : occ d (x ++ (t ++ y)) ≤ 1) : Once x t y := by
  have hp : ∀ z, d <+: t ++ z := fun z => ht.trans (List.prefix_append _ _)
  have key : ∀ a z a' z', a ++ (t ++ z) = a' ++ (t ++ z') → a.length < a'.length → 2 ≤ occ d (a ++ (t ++ z)) := by
    intro a z a' z' e hl
    obtain ⟨w, hw⟩ := List.prefix_of_prefix_length_le (l₁ := a) (l₂ := a') (l₃ := a ++ (t ++ z)) (List.prefix_append _ _)
      (by rw [e]; exact List.prefix_append _ _) (by omega)
    rw [← hw, List.append_assoc] at e
    have e := List.append_cancel_left e
    have h1 := occ_super d a (t ++ z)
    cases w with
    | nil => rw [← hw] at hl; simp at hl
    | cons c w =>
      have hz := hp z
      rw [e] at h1 hz
      rw [List.cons_append] at h1 hz
      have h2 : occ d (c :: (w ++ (t ++ z'))) = 1 + occ d (w ++ (t ++ z')) := by rw [occ, if_pos hz]
      have h3 := occ_super d w (t ++ z')
      have h4 := occ_front hd (hp z')
      rw [e, List.cons_append]
      omega
  intro a b e
  rcases Nat.lt_trichotomy x.length a.length with hl | hl | hl
  · have := key _ _ _ _ e hl
    omega
  · exact (List.append_inj e hl).1.symm
  · have := key _ _ _ _ e.symm hl
    rw [← e] at this
    omega

/-- Two spaces or more separate, if `d` has none but single spaces inside. -/
theorem occ_spaces {d : Str} (h1 : ∀ u v, d = u ++ ' ' :: v → ∃ c w, v = c :: w ∧ c ≠ ' ') (h2 : d.head? ≠ some ' ') (hd : d ≠ []) {k : Nat} (hk : 2 ≤ k)
    (a b : Str) : occ d (a ++ (spaces k ++ b)) = occ d a + occ d b := by
  obtain ⟨k, rfl⟩ : ∃ j, k = j + 2 := ⟨k - 2, by omega⟩
  have key : ∀ u e, d = u ++ e → e ≠ [] → ¬ e <+: spaces (k + 2) ++ b := by
    intro u e hd he hp
    cases e with
    | nil => exact he rfl
    | cons x e =>
      obtain ⟨t, ht⟩ := hp
      simp only [spaces, List.replicate_succ, List.cons_append, List.cons.injEq] at ht
      obtain ⟨rfl, ht⟩ := ht
      obtain ⟨c, w, rfl, hc⟩ := h1 u e hd
      simp only [List.cons_append, List.cons.injEq] at ht
      exact hc ht.1
  rw [occ_cut key]
  congr 1
  cases d with
  | nil => exact absurd rfl hd
  | cons x r =>
    refine occ_skip ?_ b
    intro hm
    exact h2 (by rw [List.eq_of_mem_replicate hm]; rfl)

theorem blanked_occ {d : Str} (h1 : ∀ u v, d = u ++ ' ' :: v → ∃ c w, v = c :: w ∧ c ≠ ' ') (h2 : d.head? ≠ some ' ') (hd : d ≠ []) (B : Nat → Bool)
    {l : List (Seg × Str)} (hl : ∀ p ∈ l, 2 ≤ byteLen p.1.text) : ∀ (k : Nat) (x y : Str),
    occ d (x ++ (blanked B k l ++ y)) ≤ occ d (x ++ (segsText l ++ y)) := by
  induction l with
  | nil => intro k x y; exact Nat.le_refl _
  | cons p l ih =>
    obtain ⟨s, g⟩ := p
    intro k x y
    have ih := ih fun p hp => hl p (List.mem_cons_of_mem _ hp)
    have e : segsText ((s, g) :: l) = s.text ++ (g ++ segsText l) := by simp [segsText]
    rw [blanked, e]
    by_cases hb : B k = true
    · rw [if_pos hb]
      simp only [List.append_assoc]
      rw [occ_spaces h1 h2 hd (hl (s, g) (by simp))]
      have h3 := ih (k + 1) g y
      have h4 := occ_super d x (s.text ++ (g ++ (segsText l ++ y)))
      have h5 := occ_super d s.text (g ++ (segsText l ++ y))
      omega
    · rw [if_neg hb]
      have := ih (k + 1) (x ++ (s.text ++ g)) y
      simpa only [List.append_assoc] using this

end Bulloak
