import Verif.Props.Layout
/-!
# C94: what Windows line endings do
-/

namespace Bulloak
open Spec
set_option linter.unusedSectionVars false

section
variable [U : Ucd]

theorem noEmpty_cons {c : Char} (h : c ≠ '\n') (r : Str) : noEmptyLines (c :: r) = c :: noEmptyLines r := by
  rw [noEmptyLines, if_neg (fun e => h e.1)]

theorem noEmpty_nl (r : Str) : noEmptyLines ('\n' :: '\n' :: r) = noEmptyLines ('\n' :: r) := by
  rw [noEmptyLines, if_pos ⟨rfl, rfl⟩]

theorem noEmpty_nl1 {r : Str} (h : r.head? ≠ some '\n') : noEmptyLines ('\n' :: r) = '\n' :: noEmptyLines r := by
  rw [noEmptyLines, if_neg (fun e => h e.2)]

theorem noEmpty_nl_start (r : Str) : ∃ x, noEmptyLines ('\n' :: r) = '\n' :: x := by
  induction r with
  | nil => exact ⟨[], rfl⟩
  | cons c r ih =>
    by_cases hc : c = '\n'
    · subst hc; rw [noEmpty_nl]; exact ih
    · exact ⟨_, noEmpty_nl1 (by simpa using hc)⟩

theorem noEmpty_append (a : Str) {c : Char} (h : c ≠ '\n') (r : Str) :
    noEmptyLines (a ++ c :: r) = noEmptyLines a ++ noEmptyLines (c :: r) := by
  induction a with
  | nil => rfl
  | cons d a ih =>
    have hh : (a ++ c :: r).head? = some '\n' ↔ a.head? = some '\n' := by
      cases a with
      | nil => simp [h]
      | cons => rfl
    rw [List.cons_append, noEmptyLines.eq_2 d (a ++ c :: r), noEmptyLines.eq_2 d a]
    by_cases hd : d = '\n' ∧ a.head? = some '\n'
    · rw [if_pos hd, if_pos ⟨hd.1, hh.2 hd.2⟩, ih]
    · rw [if_neg hd, if_neg (fun e => hd ⟨e.1, hh.1 e.2⟩), ih]; rfl

theorem noEmpty_id {s : Str} (h : '\n' ∉ s) (r : Str) : noEmptyLines (s ++ r) = s ++ noEmptyLines r := by
  induction s with
  | nil => rfl
  | cons c s ih =>
    simp at h
    rw [List.cons_append, noEmpty_cons (fun e => h.1 e.symm), ih h.2]; rfl

theorem noEmpty_mem {s : Str} {c : Char} (h : c ∈ noEmptyLines s) : c ∈ s := by
  induction s with
  | nil => simp [noEmptyLines] at h
  | cons d s ih =>
    rw [noEmptyLines] at h
    split at h
    · exact List.mem_cons_of_mem _ (ih h)
    · rcases List.mem_cons.1 h with rfl | h
      · simp
      · exact List.mem_cons_of_mem _ (ih h)

theorem noEmpty_head (s : Str) : (noEmptyLines s).head? = s.head? := by
  induction s with
  | nil => rfl
  | cons d s ih =>
    rw [noEmptyLines]
    split
    · rename_i h; rw [ih, h.2, h.1]; rfl
    · rfl

theorem noEmpty_end (z : Str) : ∃ x, noEmptyLines (z ++ c!"\n") = x ++ c!"\n" := by
  induction z with
  | nil => exact ⟨[], rfl⟩
  | cons d z ih =>
    obtain ⟨x, hx⟩ := ih
    rw [List.cons_append, noEmptyLines]
    split
    · exact ⟨x, hx⟩
    · exact ⟨d :: x, by rw [hx]; rfl⟩

theorem noEmpty_solid (b : Str) : ¬ c!"\n\n" <:+: noEmptyLines b := by
  induction b with
  | nil => simp [noEmptyLines]
  | cons c r ih =>
    rw [noEmptyLines]
    split
    · exact ih
    · rename_i hc
      intro h
      rcases List.infix_cons_iff.1 h with h | h
      · obtain ⟨t, ht⟩ := h
        simp at ht
        apply hc
        refine ⟨ht.1.symm, ?_⟩
        rw [← noEmpty_head, ← ht.2]; rfl
      · exact ih h

theorem noEmpty_lex (n : Nat) : ∀ {b : Str} {ps : List Piece}, b.length ≤ n → Lexes b ps →
    ∃ ps', Lexes (noEmptyLines b) ps' ∧ ∀ pre pre' e, (posOf pre).column = (posOf pre').column → reading pre e ps = reading pre' e ps' := by
  induction n with
  | zero =>
    intro b ps hn h
    have : b = [] := List.eq_nil_of_length_eq_zero (by omega)
    subst this
    rw [lexes_nonempty_rest h rfl]
    exact ⟨[], .nil, fun _ _ _ _ => rfl⟩
  | succ n ih =>
    intro b ps hn h
    cases h with
    | nil => exact ⟨[], .nil, fun _ _ _ _ => rfl⟩
    | @skip c r ps hc h =>
      obtain ⟨ps', h1, h2⟩ := ih (by simp at hn; omega) h
      have hne : c ≠ '\n' := by rintro rfl; simp [IsSkip] at hc
      refine ⟨.skip c :: ps', ?_, ?_⟩
      · rw [noEmpty_cons hne]; exact .skip hc h1
      · intro pre pre' e he; exact h2 _ _ _ (col_append he _)
    | @brk c r ps hc h =>
      obtain ⟨ps', h1, h2⟩ := ih (by simp at hn; omega) h
      by_cases hne : c = '\n' ∧ r.head? = some '\n'
      · obtain ⟨rfl, hr⟩ := hne
        refine ⟨ps', by rw [noEmptyLines, if_pos ⟨rfl, hr⟩]; exact h1, ?_⟩
        intro pre pre' e he
        rw [← h2 pre pre' e he]
        cases h with
        | @brk c' r' ps2 _ _ =>
          obtain rfl : c' = '\n' := by simpa using hr
          simp only [reading]
          exact reading_congr _ (by rw [col_nl, col_nl])
        | nil => simp at hr
        | skip hc => obtain rfl := Option.some.inj hr; simp [IsSkip] at hc
        | tee => exact absurd (Option.some.inj hr) (by decide)
        | corner => exact absurd (Option.some.inj hr) (by decide)
        | comment => exact absurd (Option.some.inj hr) (by decide)
        | word hc => obtain rfl := Option.some.inj hr; exact absurd (Or.inl rfl) hc.2.1
      · refine ⟨.brk c :: ps', ?_, ?_⟩
        · rw [noEmptyLines, if_neg hne]; exact .brk hc h1
        · intro pre pre' e he; exact h2 _ _ _ (col_append he _)
    | @tee r ps h =>
      obtain ⟨ps', h1, h2⟩ := ih (by simp at hn; omega) h
      refine ⟨.tee :: ps', ?_, ?_⟩
      · rw [noEmpty_cons (by decide)]; exact .tee h1
      · intro pre pre' e he; simp only [reading, he, h2 _ _ _ (col_append he _)]
    | @corner r ps h =>
      obtain ⟨ps', h1, h2⟩ := ih (by simp at hn; omega) h
      refine ⟨.corner :: ps', ?_, ?_⟩
      · rw [noEmpty_cons (by decide)]; exact .corner h1
      · intro pre pre' e he; simp only [reading, he, h2 _ _ _ (col_append he _)]
    | @word c s r ps hc hs hr h =>
      obtain ⟨ps', h1, h2⟩ := ih (by simp at hn; omega) h
      have hne : c ≠ '\n' := by rintro rfl; exact hc.2.1 (.inl rfl)
      have hsn : '\n' ∉ s := fun hm => by have := hs _ hm; rw [isWs_n] at this; cases this
      refine ⟨.word (c :: s) :: ps', ?_, ?_⟩
      · rw [noEmpty_cons hne, noEmpty_id hsn]
        refine .word ⟨hc.1, hc.2.1, hc.2.2.1, hc.2.2.2.1, ?_⟩ hs ?_ h1
        · rintro ⟨rfl, r', hr'⟩
          apply hc.2.2.2.2
          refine ⟨rfl, ?_⟩
          cases s with
          | cons d s => simp at hr'; exact ⟨s ++ r, by rw [hr'.1]; rfl⟩
          | nil =>
            have := noEmpty_head r
            rw [List.nil_append] at hr'
            rw [hr'] at this
            cases r with
            | nil => simp at this
            | cons d r => simp at this; exact ⟨r, by rw [← this]; rfl⟩
        · rcases hr with rfl | ⟨d, r', rfl, hd⟩
          · exact .inl rfl
          · right
            have := noEmpty_head (d :: r')
            cases hx : noEmptyLines (d :: r') with
            | nil => rw [hx] at this; cases this
            | cons y ys => rw [hx] at this; obtain rfl : y = d := by simpa using this
                           exact ⟨_, _, rfl, hd⟩
      · intro pre pre' e he; simp only [reading, he, h2 _ _ _ (col_append he _)]
    | @comment s r ps hs hr h =>
      obtain ⟨ps', h1, h2⟩ := ih (by simp at hn; omega) h
      refine ⟨.comment s :: ps', ?_, ?_⟩
      · rw [noEmpty_cons (by decide), noEmpty_cons (by decide), noEmpty_id hs]
        refine .comment hs ?_ h1
        rcases hr with rfl | ⟨r', rfl⟩
        · exact .inl rfl
        · exact .inr (noEmpty_nl_start r')
      · intro pre pre' e he; simp only [reading]; exact h2 _ _ _ (col_append he _)

theorem noEmpty_same (b : Str) : SameColumns (crlf b) (noEmptyLines b) := by
  obtain ⟨ps, h⟩ := lexes_exists b
  obtain ⟨ps', h1, h2⟩ := crlf_lex b.length (Nat.le_refl _) h
  obtain ⟨ps'', h3, h4⟩ := noEmpty_lex b.length (Nat.le_refl _) h
  exact same_of_reading h1 h3 ((h2 [] [] true rfl).symm.trans (h4 [] [] true rfl))

theorem noEmpty_block {p b q : Str} (hp : Blank p) (hf : ∃ c r, b = c :: r ∧ isWs c = false) (hl : ∃ r c, b = r ++ [c] ∧ isWs c = false)
    (hq : Blank q) : Blocks (noEmptyLines (p ++ b ++ q)) [noEmptyLines b] := by
  have key : noEmptyLines (p ++ b ++ q) = noEmptyLines p ++ noEmptyLines b ++ noEmptyLines q := by
    obtain ⟨c, r, rfl, hc⟩ := hf
    have hcn : c ≠ '\n' := by rintro rfl; rw [isWs_n] at hc; cases hc
    rw [List.append_assoc, List.cons_append, noEmpty_append _ hcn, List.append_assoc]
    congr 1
    obtain ⟨r', d, he, hd⟩ := hl
    have hdn : d ≠ '\n' := by rintro rfl; rw [isWs_n] at hd; cases hd
    rw [← List.cons_append, he, List.append_assoc, List.singleton_append, noEmpty_append _ hdn, noEmpty_append _ hdn, noEmpty_cons hdn,
      noEmpty_cons hdn, List.append_assoc]
    rfl
  rw [key]
  refine .last (fun c hc => hp c (noEmpty_mem hc)) ⟨?_, ?_, noEmpty_solid b⟩ (fun c hc => hq c (noEmpty_mem hc))
  · obtain ⟨c, r, rfl, hc⟩ := hf
    refine ⟨c, noEmptyLines r, noEmpty_cons ?_ _, hc⟩
    rintro rfl; rw [isWs_n] at hc; cases hc
  · obtain ⟨r, c, rfl, hc⟩ := hl
    have hcn : c ≠ '\n' := by rintro rfl; rw [isWs_n] at hc; cases hc
    exact ⟨noEmptyLines r, c, by rw [noEmpty_append _ hcn, noEmpty_cons hcn]; rfl, hc⟩

/-! ## Lines -/

/-- A comment line. -/
def Spec.CommentLine (l : Str) : Prop := ∃ w r, l = w ++ c!"//" ++ r ∧ Blank w

theorem line_front {p : Str} (hp : Blank p) : ∀ {T l : Str}, LineOf (p ++ T) l → ¬ Blank l →
    ∃ w l', l = w ++ l' ∧ Blank w ∧ LineOf T l' := by
  induction p with
  | nil => intro T l h _; exact ⟨[], l, rfl, by simp [Blank], h⟩
  | cons c p ih =>
    intro T l h hl
    have hp' : Blank p := fun d hd => hp d (List.mem_cons_of_mem _ hd)
    obtain ⟨hn, x, y, he, hx, hy⟩ := h
    cases x with
    | nil =>
      cases l with
      | nil => exact absurd (by simp [Blank]) hl
      | cons d l =>
        simp at he
        obtain ⟨rfl, he⟩ := he
        have hl2 : ¬ Blank l := fun hb => hl (fun e h => by
          rcases List.mem_cons.1 h with rfl | h
          · exact hp _ (by simp)
          · exact hb e h)
        obtain ⟨w, l', rfl, hw, h'⟩ := ih hp' ⟨fun h => hn (List.mem_cons_of_mem _ h), [], y, by simpa using he, .inl rfl, hy⟩ hl2
        exact ⟨c :: w, l', rfl, fun e h => by
          rcases List.mem_cons.1 h with rfl | h
          · exact hp _ (by simp)
          · exact hw e h, h'⟩
    | cons d x =>
      simp at he
      obtain ⟨rfl, he⟩ := he
      refine ih hp' ⟨hn, x, y, by simpa using he, ?_, hy⟩ hl
      rcases hx with h | ⟨z, hz⟩
      · cases h
      · cases z with
        | nil => simp at hz; exact .inl hz.2
        | cons a z => simp at hz; exact .inr ⟨z, hz.2⟩

theorem line_back (n : Nat) : ∀ {q : Str}, q.length = n → Blank q → ∀ {T l : Str}, LineOf (T ++ q) l → ¬ Blank l →
    ∃ w l', l = l' ++ w ∧ Blank w ∧ LineOf T l' := by
  induction n with
  | zero =>
    intro q hlen _ T l h _
    obtain rfl := List.eq_nil_of_length_eq_zero hlen
    exact ⟨[], l, by simp, by simp [Blank], by simpa using h⟩
  | succ n ih =>
    intro q0 hlen hq T l h hl
    obtain ⟨q, c, rfl⟩ : ∃ q c, q0 = q ++ [c] := by
      rcases List.eq_nil_or_concat q0 with rfl | ⟨q, c, rfl⟩
      · simp at hlen
      · exact ⟨q, c, by simp⟩
    have hq' : Blank q := fun d hd => hq d (by simp [hd])
    replace ih := @ih q (by simpa using hlen)
    obtain ⟨hn, x, y, he, hx, hy⟩ := h
    rcases List.eq_nil_or_concat y with rfl | ⟨y', d, rfl⟩
    · rcases List.eq_nil_or_concat l with rfl | ⟨l2, d, rfl⟩
      · exact absurd (by simp [Blank]) hl
      · have he2 : (T ++ q) ++ [c] = (x ++ l2) ++ [d] := by simpa using he
        obtain ⟨h1, h2⟩ := List.append_inj' he2 rfl
        cases h2
        have hl2 : ¬ Blank l2 := fun hb => hl (fun e h => by
          rw [List.concat_eq_append, List.mem_append, List.mem_singleton] at h
          rcases h with h | rfl
          · exact hb e h
          · exact hq _ (by simp))
        obtain ⟨w, l', rfl, hw, h'⟩ := ih hq' ⟨fun h => hn (by simp [h]), x, [], by rw [h1]; simp, hx, .inl rfl⟩ hl2
        exact ⟨w ++ [c], l', by simp, fun e h => by
          rw [List.mem_append, List.mem_singleton] at h
          rcases h with h | rfl
          · exact hw e h
          · exact hq _ (by simp), h'⟩
    · have he2 : (T ++ q) ++ [c] = (x ++ l ++ y') ++ [d] := by simpa using he
      obtain ⟨h1, h2⟩ := List.append_inj' he2 rfl
      refine ih hq' ⟨hn, x, y', h1, hx, ?_⟩ hl
      rcases hy with h | ⟨z, hz⟩
      · simp at h
      · cases y' with
        | nil => exact .inl rfl
        | cons a y' => simp at hz; exact .inr ⟨y', by rw [hz.1]; rfl⟩

theorem line_block {p b q l : Str} (hp : Blank p) (hq : Blank q) (h : LineOf (p ++ b ++ q) l) (hl : ¬ Blank l) (hc : ¬ CommentLine l) :
    ∃ l', LineOf b l' ∧ l' ≠ [] ∧ ¬ CommentLine l' := by
  obtain ⟨w, l1, rfl, hw, h1⟩ := line_back _ rfl hq h hl
  have hl1 : ¬ Blank l1 := fun hb => hl (fun c h => (List.mem_append.1 h).elim (hb c) (hw c))
  obtain ⟨v, l2, rfl, hv, h2⟩ := line_front hp h1 hl1
  refine ⟨l2, h2, ?_, ?_⟩
  · rintro rfl; exact hl1 (by simpa using hv)
  · rintro ⟨u, r, rfl, hu⟩
    exact hc ⟨v ++ u, r ++ w, by simp, fun c h => (List.mem_append.1 h).elim (hv c) (hu c)⟩

theorem noEmpty_line {b l : Str} (h : LineOf b l) (hl : l ≠ []) : LineOf (noEmptyLines b) l := by
  obtain ⟨hn, x, y, rfl, hx, hy⟩ := h
  refine ⟨hn, noEmptyLines x, noEmptyLines y, ?_, ?_, ?_⟩
  · cases l with
    | nil => exact absurd rfl hl
    | cons c l =>
      have hc : c ≠ '\n' := fun e => hn (by simp [e])
      rw [List.append_assoc, List.cons_append, noEmpty_append _ hc, ← List.cons_append, noEmpty_id hn, List.append_assoc]
  · rcases hx with rfl | ⟨z, rfl⟩
    · exact .inl rfl
    · exact .inr (noEmpty_end z)
  · rcases hy with rfl | ⟨z, rfl⟩
    · exact .inl rfl
    · exact .inr (noEmpty_nl_start z)

/-! ## C94 -/

/-- **C94.** A file with Windows line endings is read like the file with Unix line endings and without empty lines, so as one tree. (If the
file contains more than comments.) -/
theorem C94_windows [LawfulUcd] {order order' : HashOrder} (ho : ∀ l, (order l).Perm l) (ho' : ∀ l, (order' l).Perm l)
    {text l : Str} (hline : LineOf text l) (hl : ¬ Blank l) (hc : ¬ CommentLine l) (cfg : Config) (out : Str) :
    scaffoldSource order cfg (crlf text) = .ok out ↔ scaffoldSource order' cfg (noEmptyLines text) = .ok out := by
  have hb : ¬ Blank text := by
    obtain ⟨_, x, y, rfl, _⟩ := hline
    exact fun h => hl (fun c hc => h c (by simp [hc]))
  obtain ⟨bs, h0, _⟩ := (C12_split text).2.1 hb
  obtain ⟨p, b, q, rfl, h1, h2, h3, h4⟩ := blocks_ends h0
  obtain ⟨l', hl1, hl2, hl3⟩ := line_block h1 h4 hline hl hc
  have hc1 : ¬ OnlyComments (crlf b) := by
    rw [onlyComments_crlf]
    exact fun h => hl3 (h l' hl1)
  have hc2 : ¬ OnlyComments (noEmptyLines b) := fun h => hl3 (h l' (noEmpty_line hl1 hl2))
  refine C68_same_output ho ho' (.inr ⟨_, crlf_block h1 h2 h3 h4, rfl⟩) (.inr ⟨_, noEmpty_block h1 h2 h3 h4, rfl⟩) ?_ cfg out
  rw [List.filter_cons_of_pos (by simpa using hc1), List.filter_cons_of_pos (by simpa using hc2)]
  exact .cons (noEmpty_same b) .nil

end

/-! ## A case, where two trees are merged silently -/

section
attribute [local instance] asciiUcd

/-- Two trees; the root of the second comes directly behind an action, if the empty line is left out. -/
def merging : Str := c!"A::f\n└── when x\n    ├── it z\n    └── it w\n\nA::g\n    └── it v"

/-- What is written if its lines end as on Unix. -/
def mergingUnix : Str := c!"// SPDX-License-Identifier: UNLICENSED\npragma solidity 0.8.0;\ncontract A {function test_FWhenX() external {\n// it z\n// it w\n}\n\nfunction test_GV() external {\n// it v\n}}"

/-- What is written if its lines end as on Windows. -/
def mergingWindows : Str := c!"// SPDX-License-Identifier: UNLICENSED\npragma solidity 0.8.0;\ncontract Af {function test_WhenX() external {\n// it z\n// it w A::g\n// it v\n}}"

set_option maxRecDepth 16000 in
theorem merging_unix : scaffoldSource id Config.default merging = .ok mergingUnix := by cbv
set_option maxRecDepth 16000 in
theorem merging_windows : scaffoldSource id Config.default (crlf merging) = .ok mergingWindows := by cbv

/-- **C94**, a case: both files are accepted, but the results differ. -/
theorem C94_merged : ∃ (U : Ucd) (_ : @LawfulUcd U) (order : HashOrder) (_ : ∀ l, (order l).Perm l) (text out out' : Str), '\r' ∉ text ∧
    scaffoldSource order Config.default text = .ok out ∧ scaffoldSource order Config.default (crlf text) = .ok out' ∧ out ≠ out' :=
  ⟨asciiUcd, lawful_ascii, id, fun _ => .refl _, merging, _, _, by decide +kernel, merging_unix, merging_windows, by decide +kernel⟩

/-- C94 for this file. -/
example : scaffoldSource id Config.default c!"A::f\n└── when x\n    ├── it z\n    └── it w\nA::g\n    └── it v" = .ok mergingWindows := by
  haveI := lawful_ascii
  refine (C94_windows (text := merging) (l := c!"A::f") (order := id) (fun _ => .refl _) (fun _ => .refl _) ?_ ?_ ?_ _ _).1 merging_windows
  · exact ⟨by decide +kernel, [], merging.drop 4, by decide +kernel, .inl rfl, .inr ⟨merging.drop 5, by decide +kernel⟩⟩
  · intro h
    exact absurd (h 'A' (by decide +kernel)) (by decide +kernel)
  · rintro ⟨w, r, he, _⟩
    have : '/' ∈ c!"A::f" := by rw [he]; simp
    exact absurd this (by decide +kernel)

end
end Bulloak
