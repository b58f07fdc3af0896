import Verif.Props.Options
/-! # Any version string (C131) -/

namespace Bulloak
open Spec

/-- What becomes of a line of the code on the way out: from the first place on at which `string __bulloak_comment__ = "` stands with `";` somewhere after it, the text up to the
last `";` of the line becomes a comment; other lines stay as they are. -/
inductive Spec.Restored (line : Str) : Str → Prop where
  | comment {pre t rest : Str} : line = pre ++ c!"string __bulloak_comment__ = \"" ++ t ++ c!"\";" ++ rest → ¬ c!"\";" <:+: rest →
      (∀ p q, line = p ++ c!"string __bulloak_comment__ = \"" ++ q → c!"\";" <:+: q → pre.length ≤ p.length) → Restored line (pre ++ c!"// " ++ t ++ rest)
  | other : (∀ p q, line = p ++ c!"string __bulloak_comment__ = \"" ++ q → ¬ c!"\";" <:+: q) → Restored line line

private theorem quote_cons {c : Char} {r : Str} : c!"\";" <:+: c :: r ↔ (c = '"' ∧ r.head? = some ';') ∨ c!"\";" <:+: r := by
  rw [List.infix_cons_iff]
  constructor
  · rintro (⟨t, h⟩ | h)
    · simp only [List.cons_append, List.nil_append, List.cons.injEq] at h
      left
      rw [← h.2]
      exact ⟨h.1.symm, rfl⟩
    · exact .inr h
  · rintro (⟨rfl, h⟩ | h)
    · cases r with
      | nil => cases h
      | cons d r =>
        cases h
        exact .inl ⟨r, rfl⟩
    · exact .inr h

private theorem splitLastQuote_spec (r : Str) : (splitLastQuote r = none ↔ ¬ c!"\";" <:+: r) ∧
    ∀ a b, splitLastQuote r = some (a, b) → r = a ++ c!"\";" ++ b ∧ ¬ c!"\";" <:+: b := by
  induction r with
  | nil =>
    refine ⟨⟨fun _ h => ?_, fun _ => rfl⟩, fun a b h => by cases h⟩
    simp at h
  | cons c r ih =>
    rw [splitLastQuote, quote_cons]
    cases hs : splitLastQuote r with
    | some p =>
      obtain ⟨a, b⟩ := p
      have hi : c!"\";" <:+: r := Classical.byContradiction fun h => by rw [ih.1.2 h] at hs; cases hs
      refine ⟨by simp [hi], fun a' b' h => ?_⟩
      simp only [Option.some.injEq, Prod.mk.injEq] at h
      obtain ⟨rfl, rfl⟩ := h
      obtain ⟨h1, h2⟩ := ih.2 a b hs
      exact ⟨by rw [h1]; rfl, h2⟩
    | none =>
      have hi := ih.1.1 hs
      by_cases hc : c = '"' ∧ r.head? = some ';'
      · rw [if_pos hc]
        refine ⟨by simp [hc], fun a b h => ?_⟩
        simp only [Option.some.injEq, Prod.mk.injEq] at h
        obtain ⟨rfl, rfl⟩ := h
        obtain ⟨rfl, hr⟩ := hc
        cases r with
        | nil => cases hr
        | cons d r =>
          cases hr
          exact ⟨rfl, fun h => hi (quote_cons.2 (.inr h))⟩
      · rw [if_neg hc]
        exact ⟨by simp [hc, hi], fun a b h => by cases h⟩

private theorem splitLastQuote_of {t rest : Str} (h : ¬ c!"\";" <:+: rest) : splitLastQuote (t ++ c!"\";" ++ rest) = some (t, rest) := by
  induction t with
  | nil =>
    show splitLastQuote ('"' :: ';' :: rest) = _
    have h1 : splitLastQuote (';' :: rest) = none := (splitLastQuote_spec _).1.2 (by rw [quote_cons]; simp [h])
    rw [splitLastQuote, h1]
    simp
  | cons c t ih =>
    rw [List.cons_append, List.cons_append, splitLastQuote, ih]

private theorem restored_line (l : Str) : Restored l (cleanupLine l) := by
  induction l with
  | nil =>
    unfold cleanupLine
    exact .other fun p q h => by simp at h
  | cons c r ih =>
    unfold cleanupLine
    cases hs : (stripPrefix commentMarker (c :: r)).bind splitLastQuote with
    | some x =>
      obtain ⟨t, rest⟩ := x
      obtain ⟨q, h1, h2⟩ := Option.bind_eq_some_iff.1 hs
      obtain ⟨h3, h4⟩ := (splitLastQuote_spec q).2 t rest h2
      exact .comment (pre := []) (by rw [stripPrefix_eq.1 h1, h3]; simp [commentMarker]) h4 (by simp)
    | none =>
      have key : ∀ p q, c :: r = p ++ c!"string __bulloak_comment__ = \"" ++ q → c!"\";" <:+: q →
          ∃ p', p = c :: p' ∧ r = p' ++ c!"string __bulloak_comment__ = \"" ++ q := by
        intro p q h hq
        cases p with
        | nil =>
          rw [show stripPrefix commentMarker (c :: r) = some q from stripPrefix_eq.2 h, Option.bind_some] at hs
          exact absurd hq ((splitLastQuote_spec q).1.1 hs)
        | cons d p =>
          simp only [List.cons_append, List.cons.injEq] at h
          exact ⟨p, by rw [h.1], h.2⟩
      simp only
      generalize cleanupLine r = o at ih
      cases ih with
      | comment h1 h2 h3 =>
        refine .comment (pre := c :: _) (by rw [h1]; rfl) h2 fun p q h hq => ?_
        obtain ⟨p', rfl, h'⟩ := key p q h hq
        exact Nat.succ_le_succ (h3 p' q h' hq)
      | other h1 =>
        refine .other fun p q h hq => ?_
        obtain ⟨p', rfl, h'⟩ := key p q h hq
        exact h1 p' q h' hq

private theorem restored_eq {l o : Str} (h : Restored l o) : o = cleanupLine l := by
  induction l generalizing o with
  | nil =>
    cases h with
    | comment h => simp at h
    | other => rfl
  | cons c r ih =>
    unfold cleanupLine
    cases h with
    | @comment pre t rest h1 h2 h3 =>
      cases pre with
      | nil =>
        have hs : stripPrefix commentMarker (c :: r) = some (t ++ c!"\";" ++ rest) := stripPrefix_eq.2 (by rw [h1]; simp [commentMarker])
        rw [hs, Option.bind_some, splitLastQuote_of h2]
        simp
      | cons d pre =>
        have hs : (stripPrefix commentMarker (c :: r)).bind splitLastQuote = none := by
          cases hs : (stripPrefix commentMarker (c :: r)).bind splitLastQuote with
          | none => rfl
          | some x =>
            obtain ⟨q, k1, k2⟩ := Option.bind_eq_some_iff.1 hs
            have hq : c!"\";" <:+: q := Classical.byContradiction fun h => by rw [(splitLastQuote_spec q).1.2 h] at k2; cases k2
            exact absurd (h3 [] q (stripPrefix_eq.1 k1) hq) (by simp)
        rw [hs]
        simp only [List.cons_append, List.cons.injEq] at h1
        obtain ⟨rfl, h1⟩ := h1
        simp only [List.cons_append, List.cons.injEq, true_and]
        rw [← ih (.comment h1 h2 fun p q h hq => by
          have := h3 (c :: p) q (by rw [h]; rfl) hq
          simpa using this)]
    | other h1 =>
      have hs : (stripPrefix commentMarker (c :: r)).bind splitLastQuote = none := by
        cases hs : (stripPrefix commentMarker (c :: r)).bind splitLastQuote with
        | none => rfl
        | some x =>
          obtain ⟨q, k1, k2⟩ := Option.bind_eq_some_iff.1 hs
          exact absurd ((splitLastQuote_spec q).1.2 (h1 [] q (stripPrefix_eq.1 k1))) (by rw [k2]; simp)
      rw [hs]
      simp only
      rw [← ih (.other fun p q h => h1 (c :: p) q (by rw [h]; rfl))]

private theorem splitNl_join : ∀ {ls : List Str}, ls ≠ [] → (∀ l ∈ ls, '\n' ∉ l) → splitNlAux [] (joinSep c!"\n" ls) = ls
  | [], h, _ => absurd rfl h
  | [l], _, h => by simpa [joinSep] using splitNlAux_line l [] (h l (by simp))
  | l :: m :: ls, _, h => by
    have ih := splitNl_join (ls := m :: ls) (by simp) (fun x hx => h x (by simp [hx]))
    show splitNlAux [] (l ++ c!"\n" ++ joinSep c!"\n" (m :: ls)) = _
    rw [List.append_assoc, List.cons_append, List.nil_append, splitNlAux_append, splitNlAux_line l [] (h l (by simp)), ih]
    rfl

section
variable [U : Ucd] [LawfulUcd]

/-- **C131.** Whatever the version is: the code consists of the licence, the lines of the pragma with that version (except that what looks like the internal form of a comment becomes
one) and a rest that does not depend on the version. -/
theorem C131_version {order : HashOrder} {cfg : Config} {text src : Str} (h : scaffoldSource order cfg text = .ok src) :
    ∃ rest, ∀ (v : Str) (lines lines' : List Str), c!"pragma solidity " ++ v ++ c!";" = joinSep c!"\n" lines → (∀ l ∈ lines, '\n' ∉ l) → Each Restored lines lines' →
      scaffoldSource order { cfg with solidityVersion := v } text = .ok (c!"// SPDX-License-Identifier: UNLICENSED\n" ++ joinSep c!"\n" lines' ++ c!"\n" ++ rest) := by
  unfold scaffoldSource at h
  obtain ⟨r, hr, _⟩ := Res.bind_eq_ok.1 h
  obtain ⟨n, fns, rfl, _⟩ := translate_ok hr
  refine ⟨cleanupComments (joinSep c!"\n" (((if cfg.emitVmSkip then [PtPart.importTest] else []) ++ [PtPart.contract (ptContract cfg ⟨n, fns⟩)]).map fmtPart)),
    fun v lines lines' hv hl he => ?_⟩
  have ht : translate order { cfg with solidityVersion := v } text = .ok ⟨[⟨n, fns⟩]⟩ := by rw [← hr]; exact translate_flags rfl _ _
  unfold scaffoldSource
  rw [ht, Res.bind_ok]
  congr 1
  have hc : ptContract { cfg with solidityVersion := v } ⟨n, fns⟩ = ptContract cfg ⟨n, fns⟩ := rfl
  have hp : fmtSourceUnit (ptTranslate { cfg with solidityVersion := v } ⟨[⟨n, fns⟩]⟩) =
      c!"// SPDX-License-Identifier: UNLICENSED" ++ '\n' :: ((c!"pragma solidity " ++ v ++ c!";") ++
        '\n' :: joinSep c!"\n" (((if cfg.emitVmSkip then [PtPart.importTest] else []) ++ [PtPart.contract (ptContract cfg ⟨n, fns⟩)]).map fmtPart)) := by
    unfold fmtSourceUnit ptTranslate
    rw [← hc]
    cases cfg.emitVmSkip <;> simp only [Bool.false_eq_true, if_true, if_false, List.map_cons, List.map_nil, List.cons_append, List.nil_append, joinSep] <;>
      simp only [fmtPart, List.append_assoc, List.cons_append, List.nil_append]
  have hne : lines ≠ [] := by
    rintro rfl
    simp [joinSep] at hv
  have hm : lines.map cleanupLine = lines' := by
    clear hv hl hne
    induction he with
    | nil => rfl
    | cons r _ ih => rw [List.map_cons, ih, restored_eq r]
  unfold emitSource
  rw [hp, cleanup_nl, cleanup_nl, hv]
  have e1 : cleanupComments c!"// SPDX-License-Identifier: UNLICENSED" = c!"// SPDX-License-Identifier: UNLICENSED" := by decide +kernel
  have e2 : cleanupComments (joinSep c!"\n" lines) = joinSep c!"\n" lines' := by
    unfold cleanupComments
    rw [splitNl_join hne hl, hm]
  rw [e1, e2]
  simp

omit U [LawfulUcd] in
/-- **C131**, lines: every version has one pragma, of one or more lines, and every line becomes exactly one line. -/
theorem C131_lines (v : Str) : ∃ lines, c!"pragma solidity " ++ v ++ c!";" = joinSep c!"\n" lines ∧ (∀ l ∈ lines, '\n' ∉ l) ∧
    ∃ lines', Each Restored lines lines' ∧ ∀ ls, Each Restored lines ls → ls = lines' := by
  have split : ∀ s : Str, ∃ ls, s = joinSep c!"\n" ls ∧ (∀ l ∈ ls, '\n' ∉ l) ∧ ls ≠ [] := by
    intro s
    induction s with
    | nil => exact ⟨[[]], rfl, by simp, by simp⟩
    | cons c s ih =>
      obtain ⟨ls, rfl, h2, h3⟩ := ih
      cases ls with
      | nil => exact absurd rfl h3
      | cons l ls =>
        by_cases hc : c = '\n'
        · subst hc
          exact ⟨[] :: l :: ls, rfl, by intro x hx; rcases List.mem_cons.1 hx with rfl | hx; · simp
                                        exact h2 x hx, by simp⟩
        · refine ⟨(c :: l) :: ls, ?_, ?_, by simp⟩
          · cases ls <;> rfl
          · intro x hx
            rcases List.mem_cons.1 hx with rfl | hx
            · simp only [List.mem_cons, not_or]
              exact ⟨fun h => hc h.symm, h2 l (by simp)⟩
            · exact h2 x (by simp [hx])
  obtain ⟨lines, h1, h2, h3⟩ := split (c!"pragma solidity " ++ v ++ c!";")
  refine ⟨lines, h1, h2, lines.map cleanupLine, ?_, ?_⟩
  · clear h1 h2 h3
    induction lines with
    | nil => exact .nil
    | cons l ls ih => exact .cons (restored_line l) ih
  · intro ls h
    clear h1 h2 h3
    induction h with
    | nil => rfl
    | cons r _ ih => rw [List.map_cons, ih, restored_eq r]

end

/-! ## Cases -/

attribute [local instance] asciiUcd

private def odd : Str := c!"string __bulloak_comment__ = \"a\"; b\"; c\n0.8.0"

private theorem odd_first : Restored c!"pragma solidity string __bulloak_comment__ = \"a\"; b\"; c" c!"pragma solidity // a\"; b c" := by
  refine .comment (pre := c!"pragma solidity ") (t := c!"a\"; b") (rest := c!" c") (by simp) (by decide +kernel) ?_
  intro p q h _
  have key : ∀ k < 16, ¬ c!"string __bulloak_comment__ = \"" <+: c!"pragma solidity string __bulloak_comment__ = \"a\"; b\"; c".drop k := by decide +kernel
  refine Nat.not_lt.1 fun hlt => key p.length hlt ?_
  rw [h, List.append_assoc, List.drop_left]
  exact List.prefix_append _ _

private theorem odd_second : Restored c!"0.8.0;" c!"0.8.0;" := by
  refine .other fun p q h _ => ?_
  have := congrArg List.length h
  simp at this
  omega

set_option maxRecDepth 16000 in
private theorem odd_some : (match scaffoldSource id .default c!"Foo\n└── it c" with | .ok _ => true | _ => false) = true := by cbv

/-- C131: a version of two lines, the first of which looks like a comment followed by something. -/
example : ∃ rest, scaffoldSource id { Config.default with solidityVersion := odd } c!"Foo\n└── it c" =
    .ok (c!"// SPDX-License-Identifier: UNLICENSED\n" ++ c!"pragma solidity // a\"; b c\n0.8.0;" ++ c!"\n" ++ rest) := by
  haveI := lawful_ascii
  cases h : scaffoldSource id .default c!"Foo\n└── it c" with
  | ok src =>
    obtain ⟨rest, hr⟩ := C131_version h
    refine ⟨rest, ?_⟩
    rw [hr odd [c!"pragma solidity string __bulloak_comment__ = \"a\"; b\"; c", c!"0.8.0;"] _ (by decide +kernel) (by decide +kernel) (.cons odd_first (.cons odd_second .nil))]
    rfl
  | err e => have := odd_some; rw [h] at this; cases this
  | panic => have := odd_some; rw [h] at this; cases this

end Bulloak
