import Verif.Spec.Error
import Verif.Lemmas.Sol
import Verif.Props.Semantics
/-! # Lemmas about error excerpts -/

set_option linter.unusedSectionVars false

namespace Bulloak
open Spec

theorem lastLine_nil : lastLine [] = [] := rfl

theorem lastLine_snoc_nl (s : Str) : lastLine (s ++ ['\n']) = [] := by simp [lastLine]

theorem lastLine_snoc {c : Char} (h : c ≠ '\n') (s : Str) : lastLine (s ++ [c]) = lastLine s ++ [c] := by
  simp [lastLine, h]

theorem lastLine_append {s t : Str} (h : '\n' ∉ t) : lastLine (s ++ t) = lastLine s ++ t := by
  induction t generalizing s with
  | nil => simp
  | cons c t ih =>
    simp only [List.mem_cons, not_or] at h
    have e : s ++ c :: t = (s ++ [c]) ++ t := by simp
    rw [e, ih h.2, lastLine_snoc (Ne.symm h.1)]
    simp

theorem lastLine_nl_append (s t : Str) : lastLine (s ++ '\n' :: t) = lastLine t := by
  simp only [lastLine]
  rw [List.reverse_append, List.reverse_cons, List.append_assoc, List.takeWhile_append]
  split
  · rename_i h
    simp only [List.singleton_append]
    rw [List.takeWhile_cons_of_neg (by simp), List.append_nil]
    have : List.takeWhile (fun x => decide (x ≠ '\n')) t.reverse = t.reverse := by
      have := List.takeWhile_prefix (p := fun x => decide (x ≠ '\n')) (l := t.reverse)
      exact this.eq_of_length h
    rw [this]
  · rfl

theorem splitNl_at (r : Str) : ∀ (pre cur : Str), '\n' ∉ cur →
    ∃ X, splitNlAux cur (pre ++ r) = X ++ splitNlAux (lastLine (cur ++ pre)) r ∧ X.length = pre.count '\n' := by
  intro pre
  induction pre with
  | nil =>
    intro cur h
    refine ⟨[], ?_, rfl⟩
    have : lastLine cur = cur := by simpa [lastLine_nil] using lastLine_append (s := []) h
    simp [this]
  | cons c pre ih =>
    intro cur h
    rw [List.cons_append, splitNlAux]
    by_cases hc : c = '\n'
    · subst hc
      rw [if_pos rfl]
      obtain ⟨X, h1, h2⟩ := ih [] (by simp)
      refine ⟨cur :: X, ?_, by simp [h2]⟩
      rw [h1, lastLine_nl_append]
      simp
    · rw [if_neg hc]
      obtain ⟨X, h1, h2⟩ := ih (cur ++ [c]) (by simp [h, Ne.symm hc])
      refine ⟨X, ?_, by rw [h2, List.count_cons_of_ne (Ne.symm (Ne.symm hc))]⟩
      rw [h1]
      simp

theorem splitNl_line (cur mid post : Str) (hm : '\n' ∉ mid) :
    (∃ b, post = b ∧ '\n' ∉ b ∧ splitNlAux cur (mid ++ post) = [cur ++ mid ++ b]) ∨
    ∃ b r, post = b ++ '\n' :: r ∧ '\n' ∉ b ∧ splitNlAux cur (mid ++ post) = (cur ++ mid ++ b) :: splitNlAux [] r := by
  by_cases h : '\n' ∈ post
  · right
    obtain ⟨b, r, hb, hr⟩ := List.eq_append_cons_of_mem h
    refine ⟨b, r, hb, hr, ?_⟩
    rw [hb, ← List.append_assoc, splitNlAux_append, splitNlAux_line _ _ (by simp [hm, hr])]
    simp
  · left
    refine ⟨post, rfl, h, ?_⟩
    rw [splitNlAux_line _ _ (by simp [hm, h])]
    simp

/-- The line at a place of the text. -/
theorem line_at {pre mid post : Str} (hne : mid ≠ []) (hm : '\n' ∉ mid) (hr : mid.getLast? ≠ some '\r') :
    ∃ b, RestOfLine post b ∧ (lines (pre ++ mid ++ post))[pre.count '\n']? = some (lastLine pre ++ mid ++ b) := by
  obtain ⟨X, h1, h2⟩ := splitNl_at (mid ++ post) pre [] (by simp)
  rw [List.nil_append] at h1
  unfold lines
  rw [List.append_assoc, h1]
  rcases splitNl_line (lastLine pre) mid post hm with ⟨b, hb, hn, h3⟩ | ⟨b, r, hb, hn, h3⟩
  · refine ⟨b, ⟨hn, Or.inl hb⟩, ?_⟩
    rw [h3]
    have hnil : lastLine pre ++ mid ++ b ≠ [] := by simp [hne]
    simp only [List.getLast?_append, List.getLast?_singleton, Option.some_or, List.dropLast_concat]
    generalize hl : lastLine pre ++ mid ++ b = l at hnil ⊢
    cases l with
    | nil => exact absurd rfl hnil
    | cons c l =>
      rw [List.getElem?_append_right (by simp [h2])]
      simp [h2]
  · rw [h3]
    obtain ⟨ls, z, hls⟩ : ∃ ls z, splitNlAux [] r = ls ++ [z] :=
      ⟨_, _, (List.dropLast_concat_getLast (splitNlAux_ne r [])).symm⟩
    have e : X ++ (lastLine pre ++ mid ++ b) :: splitNlAux [] r = (X ++ (lastLine pre ++ mid ++ b) :: ls) ++ [z] := by
      rw [hls]; simp
    rw [e]
    simp only [List.dropLast_concat, List.getLast?_concat]
    have key : ∀ y : List Str, (List.map stripCr (X ++ (lastLine pre ++ mid ++ b) :: ls) ++ y)[pre.count '\n']? = some (stripCr (lastLine pre ++ mid ++ b)) := by
      intro y
      rw [List.getElem?_append_left (by simp [h2]), List.getElem?_map, List.getElem?_append_right (by omega)]
      simp [h2]
    have hfin : ∃ b', RestOfLine post b' ∧ stripCr (lastLine pre ++ mid ++ b) = lastLine pre ++ mid ++ b' := by
      unfold stripCr
      split
      · rename_i hcr
        have hb0 : b ≠ [] := by
          intro e
          rw [e, List.append_nil, List.getLast?_append, ] at hcr
          cases hg : mid.getLast? with
          | none => exact hne (List.getLast?_eq_none_iff.1 hg)
          | some x =>
            rw [hg] at hcr
            simp only [Option.some_or, Option.some.injEq] at hcr
            exact hr (hcr ▸ hg)
        obtain ⟨b1, c, hbc⟩ : ∃ b1 c, b = b1 ++ [c] := ⟨_, _, (List.dropLast_concat_getLast hb0).symm⟩
        subst hbc
        rw [← List.append_assoc, List.getLast?_concat] at hcr
        cases hcr
        refine ⟨b1, ⟨by intro h; exact hn (by simp [h]), Or.inr ⟨r, Or.inr (by rw [hb]; simp)⟩⟩, ?_⟩
        rw [← List.append_assoc, List.dropLast_concat]
      · rename_i hcr
        refine ⟨b, ⟨hn, Or.inr ⟨r, Or.inl ⟨hb, fun h => hcr ?_⟩⟩⟩, rfl⟩
        rw [List.getLast?_append, h]; rfl
    obtain ⟨b', hb', he⟩ := hfin
    refine ⟨b', hb', ?_⟩
    rw [← he]
    cases z with
    | nil =>
      have := key []
      rw [List.append_nil] at this
      exact this
    | cons c z => exact key _

theorem notate_at {pre mid post : Str} {span : Span} (hne : mid ≠ []) (hm : '\n' ∉ mid) (hr : mid.getLast? ≠ some '\r')
    (h1 : span.start = posOf pre) : ∃ b, RestOfLine post b ∧ notate (pre ++ mid ++ post) span =
      lastLine pre ++ mid ++ b ++ c!"\n" ++ List.replicate (lastLine pre).length ' ' ++
        List.replicate (max 1 (span.stop.column - span.start.column + 1)) '^' ++ c!"\n" := by
  obtain ⟨b, hb, hl⟩ := line_at (pre := pre) (post := post) hne hm hr
  refine ⟨b, hb, ?_⟩
  unfold notate
  have hline : span.start.line - 1 = pre.count '\n' := by rw [h1]; simp [posOf]
  have hc : span.start.column - 1 = (lastLine pre).length := by rw [h1]; simp [posOf]
  rw [hline, hl, hc]
  rfl

theorem byteLen_pos {s : Str} : (s.map Char.utf8Size).sum = 0 ↔ s = [] := by
  cases s with
  | nil => simp
  | cons c r =>
    simp only [List.map_cons, List.sum_cons, reduceCtorEq, iff_false]
    have := Char.utf8Size_pos c
    omega

theorem formatError_excerpt {text kind : Str} {span : Span} (h : ¬ (span.start.offset = span.stop.offset ∧ span.start.offset = 0)) :
    formatError text kind span = heading kind ++ c!"\n\n" ++ notate text span ++ c!"\n"
      ++ c!"--- (line " ++ natToStr span.start.line ++ c!", column " ++ natToStr span.start.column ++ c!") ---\n" := by
  unfold formatError heading
  rw [if_neg h]

end Bulloak
