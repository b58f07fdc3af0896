import Verif.Lemmas.Layout4
import Verif.Model.Ascii
/-!
# C68 to C70: what the layout of a `.tree` file matters for
-/

namespace Bulloak
open Spec
set_option linter.unusedSectionVars false

section
variable [U : Ucd]

/-- One direction of C68. -/
theorem scaffold_columns [LawfulUcd] {order order' : HashOrder} (ho : ∀ l, (order l).Perm l) (ho' : ∀ l, (order' l).Perm l)
    {text text' : Str} {bs bs' : List Str} (hb : Trees text bs) (hb' : Trees text' bs') (h : Each SameColumns bs bs')
    {cfg : Config} {out : Str} (hs : scaffoldSource order cfg text = .ok out) : scaffoldSource order' cfg text' = .ok out := by
  unfold scaffoldSource at hs ⊢
  obtain ⟨r, hr, he⟩ := Res.bind_eq_ok.1 hs
  obtain ⟨n, fns, rfl, _⟩ := translate_ok hr
  obtain ⟨fns', h1, h2⟩ := translate_related (D := id) (fun _ => rfl) (fun b b' toks h ht => alike_columns h ht) ho ho' hb hb' h hr
  rw [h1, Res.bind_ok]
  rw [← he]
  have : ptTranslate cfg ⟨[⟨n, fns⟩]⟩ = ptTranslate cfg ⟨[⟨n, fns'⟩]⟩ := by
    unfold ptTranslate
    simp only [List.map_cons, List.map_nil]
    rw [← ptContract_look cfg n fns, h2, ptContract_look]
  rw [this]

theorem sameColumns_symm {b b' : Str} (h : SameColumns b b') : SameColumns b' b := by
  obtain ⟨ps, ps', h1, h2, h3, h4⟩ := h
  refine ⟨ps', ps, h2, h1, h3.symm, ?_⟩
  intro p hp hbr
  have hz := zip_mem_swap hp
  have hpc : p.1.piece = p.2.piece := by
    have : ∀ {l m : List Seen}, l.map (fun x => (x.fresh, x.piece)) = m.map (fun x => (x.fresh, x.piece)) →
        ∀ p ∈ l.zip m, p.1.piece = p.2.piece := by
      intro l
      induction l with
      | nil => intro m _ p hp; simp at hp
      | cons a l ih =>
        intro m he p hp
        obtain ⟨b, m, rfl, e1, e2⟩ := List.map_eq_cons_iff.1 he.symm
        rw [List.zip_cons_cons, List.mem_cons] at hp
        rcases hp with rfl | hp
        · simp at e1; exact e1.2.symm
        · exact ih e2.symm p hp
    exact this h3.symm p hp
  exact (h4 _ hz (by rw [← hpc]; exact hbr)).symm

/-- **C68.** Layout does not matter: if the trees of two texts read the same (the same glyphs and words, with a line
break, tab or comment at the same places) and have their branch glyphs in the same columns, then both texts are
accepted or none is, and the generated Solidity is the same to the last character. -/
theorem C68_same_output [LawfulUcd] {order order' : HashOrder} (ho : ∀ l, (order l).Perm l) (ho' : ∀ l, (order' l).Perm l)
    {text text' : Str} {bs bs' : List Str} (hb : Trees text bs) (hb' : Trees text' bs') (h : Each SameColumns bs bs')
    (cfg : Config) (out : Str) : scaffoldSource order cfg text = .ok out ↔ scaffoldSource order' cfg text' = .ok out :=
  ⟨scaffold_columns ho ho' hb hb' h, scaffold_columns ho' ho hb' hb (each_symm (fun _ _ => sameColumns_symm) h)⟩

/-- **C68**, comments: a tree reads the same with and without a comment. -/
theorem C68_comment {b : Str} {A B : List Piece} {s : Str} (h : Lexes b (A ++ .comment s :: B)) :
    b = charsOf A ++ (c!"//" ++ s) ++ charsOf B ∧ SameColumns b (charsOf A ++ charsOf B) := by
  refine ⟨by rw [← lexes_charsOf h]; simp [charsOf, Piece.chars], ?_⟩
  have h' := lexes_remove h
  rw [charsOf_append] at h'
  exact same_of_reading h h' (reading_remove A h)

/-- **C68**, blanks after the glyphs and at the ends of lines: skipped characters that do not move a glyph do not matter. -/
theorem C68_blank {b b' : Str} {A B : List Piece} {c : Char} (h : Lexes b (A ++ B)) (h' : Lexes b' (A ++ .skip c :: B))
    (hB : ∃ B1 B2, B = B1 ++ .brk '\n' :: B2 ∧ ∀ p ∈ B1, p.isBranch = false) : SameColumns b b' := by
  obtain ⟨B1, B2, rfl, hn⟩ := hB
  refine ⟨_, _, h, h', ?_, ?_⟩
  · clear h h'
    have aux : ∀ (Q : List Piece) (pre pre' : Str) (e : Bool),
        (reading pre e Q).map (fun x => (x.fresh, x.piece)) = (reading pre' e Q).map (fun x => (x.fresh, x.piece)) := by
      intro Q
      induction Q with
      | nil => intros; rfl
      | cons p Q ih => intro pre pre' e; cases p <;> simp only [reading, List.map_cons] <;> rw [ih]
    have : ∀ (pre : Str) (e : Bool), (reading pre e (A ++ (B1 ++ .brk '\n' :: B2))).map (fun x => (x.fresh, x.piece)) =
        (reading pre e (A ++ .skip c :: (B1 ++ .brk '\n' :: B2))).map (fun x => (x.fresh, x.piece)) := by
      induction A with
      | nil => intro pre e; simp only [List.nil_append, reading]; exact aux _ _ _ _
      | cons p A ih => intro pre e; cases p <;> simp only [List.cons_append, reading, List.map_cons] <;> rw [ih]
    exact this [] true
  · clear h h'
    have aux : ∀ (Q : List Piece), (∀ p ∈ Q, p.isBranch = false) → ∀ (pre pre' : Str) (e : Bool),
        ∀ p ∈ (reading pre e (Q ++ .brk '\n' :: B2)).zip (reading pre' e (Q ++ .brk '\n' :: B2)),
          p.1.piece.isBranch = true → p.1.col = p.2.col := by
      intro Q
      induction Q with
      | nil =>
        intro _ pre pre' e p hp hb
        simp only [List.nil_append, reading] at hp
        rw [reading_congr B2 (pre := pre ++ ['\n']) (pre' := pre' ++ ['\n']) (by rw [col_nl, col_nl])] at hp
        have hz : ∀ (l : List Seen), ∀ p ∈ l.zip l, p.1 = p.2 := by
          intro l
          induction l with
          | nil => simp
          | cons a l ih =>
            intro p hp
            rw [List.zip_cons_cons, List.mem_cons] at hp
            rcases hp with rfl | hp
            · rfl
            · exact ih p hp
        rw [hz _ p hp]
      | cons q Q ih =>
        intro hq pre pre' e p hp hb
        have hq' : ∀ p ∈ Q, p.isBranch = false := fun p hp => hq p (by simp [hp])
        have hq0 := hq q (by simp)
        cases q with
        | skip c => exact ih hq' _ _ _ p hp hb
        | brk c => exact ih hq' _ _ _ p hp hb
        | comment s => exact ih hq' _ _ _ p hp hb
        | tee => simp [Piece.isBranch] at hq0
        | corner => simp [Piece.isBranch] at hq0
        | word w =>
          simp only [List.cons_append, reading, List.zip_cons_cons, List.mem_cons] at hp
          rcases hp with rfl | hp
          · simp [Piece.isBranch] at hb
          · exact ih hq' _ _ _ p hp hb
    have : ∀ (pre : Str) (e : Bool), ∀ p ∈ (reading pre e (A ++ (B1 ++ .brk '\n' :: B2))).zip
        (reading pre e (A ++ .skip c :: (B1 ++ .brk '\n' :: B2))), p.1.piece.isBranch = true → p.1.col = p.2.col := by
      induction A with
      | nil => intro pre e p hp hb; simp only [List.nil_append, reading] at hp; exact aux B1 hn _ _ _ p hp hb
      | cons q A ih =>
        intro pre e p hp hb
        cases q with
        | skip c => exact ih _ _ p hp hb
        | brk c => exact ih _ _ p hp hb
        | comment s => exact ih _ _ p hp hb
        | tee =>
          simp only [List.cons_append, reading, List.zip_cons_cons, List.mem_cons] at hp
          rcases hp with rfl | hp
          · rfl
          · exact ih _ _ p hp hb
        | corner =>
          simp only [List.cons_append, reading, List.zip_cons_cons, List.mem_cons] at hp
          rcases hp with rfl | hp
          · rfl
          · exact ih _ _ p hp hb
        | word w =>
          simp only [List.cons_append, reading, List.zip_cons_cons, List.mem_cons] at hp
          rcases hp with rfl | hp
          · rfl
          · exact ih _ _ p hp hb
    exact this [] true

/-! ## Indentation -/

theorem scaffold_indent [LawfulUcd] {order order' : HashOrder} (ho : ∀ l, (order l).Perm l) (ho' : ∀ l, (order' l).Perm l)
    {text text' : Str} {bs bs' : List Str} (hb : Trees text bs) (hb' : Trees text' bs') (h : Each SameIndent bs bs')
    {cfg : Config} (hq : '"' ∉ cfg.solidityVersion) (hn : '\n' ∉ cfg.solidityVersion)
    {out : Str} (hs : scaffoldSource order cfg text = .ok out) :
    ∃ out', scaffoldSource order' cfg text' = .ok out' ∧ squeeze out = squeeze out' := by
  obtain ⟨n, fns, hr, rfl⟩ := C33_file hq hn hs
  obtain ⟨fns', h1, h2⟩ := translate_related (D := trimStart) trimStart_idem (fun b b' toks h ht => alike_indent h ht) ho ho' hb hb' h hr
  refine ⟨_, C33_source hq hn h1, ?_⟩
  have hw : ∀ l : List HFn, (written cfg l).map (look trimStart) = written cfg (l.map (look trimStart)) := by
    intro l
    unfold written
    split
    · rw [List.filter_map]; rfl
    · rfl
  have hsq : ∀ l : List HFn, (l.map solFn).map squeeze = ((l.map (look trimStart)).map solFn).map squeeze := by
    intro l
    rw [List.map_map, List.map_map, List.map_map]
    apply List.map_congr_left
    intro f _
    simp [Function.comp, solFn_look]
  have hst : squeeze (stanzas ((written cfg fns).map solFn)) = squeeze (stanzas ((written cfg fns').map solFn)) := by
    rw [stanzas_squeeze, stanzas_squeeze, hsq, hsq (written cfg fns'), hw, hw, h2]
  have happ : ∀ a b : Str, squeeze (a ++ b) = squeeze a ++ squeeze b := by intro a b; simp [squeeze]
  unfold solFile
  simp only [happ, hst]

theorem sameIndent_symm {b b' : Str} (h : SameIndent b b') : SameIndent b' b := by
  obtain ⟨ps, ps', h1, h2, h3, h4⟩ := h
  refine ⟨ps', ps, h2, h1, h3.symm, ?_⟩
  have hpc : ∀ p ∈ (reading [] true ps').zip (reading [] true ps), p.1.piece = p.2.piece := by
    have : ∀ {l m : List Seen}, l.map (fun x => (x.fresh, x.piece)) = m.map (fun x => (x.fresh, x.piece)) →
        ∀ p ∈ l.zip m, p.1.piece = p.2.piece := by
      intro l
      induction l with
      | nil => intro m _ p hp; simp at hp
      | cons a l ih =>
        intro m he p hp
        obtain ⟨b, m, rfl, e1, e2⟩ := List.map_eq_cons_iff.1 he.symm
        rw [List.zip_cons_cons, List.mem_cons] at hp
        rcases hp with rfl | hp
        · simp at e1; exact e1.2.symm
        · exact ih e2.symm p hp
    exact this h3.symm
  intro p hp q hq hb hb'
  exact (h4 _ (zip_mem_swap hp) _ (zip_mem_swap hq) (by rw [← hpc p hp]; exact hb) (by rw [← hpc q hq]; exact hb')).symm

/-- **C69.** The depth of indentation does not matter: if the trees of two texts read the same and their branch glyphs are
indented alike (of two glyphs, one is further left than the other in both texts or in none), then both texts are accepted or
none is, and the generated files are the same up to white space. -/
theorem C69_indentation [LawfulUcd] {order order' : HashOrder} (ho : ∀ l, (order l).Perm l) (ho' : ∀ l, (order' l).Perm l)
    {text text' : Str} {bs bs' : List Str} (hb : Trees text bs) (hb' : Trees text' bs') (h : Each SameIndent bs bs')
    {cfg : Config} (hq : '"' ∉ cfg.solidityVersion) (hn : '\n' ∉ cfg.solidityVersion) :
    ((∃ out, scaffoldSource order cfg text = .ok out) ↔ ∃ out', scaffoldSource order' cfg text' = .ok out') ∧
    ∀ out out', scaffoldSource order cfg text = .ok out → scaffoldSource order' cfg text' = .ok out' → squeeze out = squeeze out' := by
  refine ⟨⟨?_, ?_⟩, ?_⟩
  · rintro ⟨out, ho1⟩
    obtain ⟨out', h1, _⟩ := scaffold_indent ho ho' hb hb' h hq hn ho1
    exact ⟨out', h1⟩
  · rintro ⟨out, ho1⟩
    obtain ⟨out', h1, _⟩ := scaffold_indent ho' ho hb' hb (each_symm (fun _ _ => sameIndent_symm) h) hq hn ho1
    exact ⟨out', h1⟩
  · intro out out' h1 h2
    obtain ⟨o, h3, h4⟩ := scaffold_indent ho ho' hb hb' h hq hn h1
    rw [h2] at h3
    cases h3
    exact h4

/-! ## Windows line endings -/

/-- **C70**, one tree: a file with at most one block gives the same Solidity with Windows line endings. -/
theorem C70_one_block_partial [LawfulUcd] {order order' : HashOrder} (ho : ∀ l, (order l).Perm l) (ho' : ∀ l, (order' l).Perm l)
    {text : Str} (ht : Blank text ∨ ∃ b, Blocks text [b]) (cfg : Config) (out : Str) :
    scaffoldSource order cfg text = .ok out ↔ scaffoldSource order' cfg (crlf text) = .ok out := by
  rcases ht with ht | ⟨b, ht⟩
  · refine C68_same_output ho ho' (.inl ⟨ht, rfl⟩) (.inl ⟨blank_crlf ht, rfl⟩) (.cons ?_ .nil) cfg out
    exact crlf_same []
  · have h' : Blocks (crlf text) [crlf b] := by
      cases ht with
      | last h1 h2 h3 => exact crlf_block h1 h2.first h2.last h3
      | cons _ _ _ _ h => cases h
    refine C68_same_output ho ho' (.inr ⟨_, ht, rfl⟩) (.inr ⟨_, h', rfl⟩) ?_ cfg out
    by_cases hc : OnlyComments b
    · rw [List.filter_cons_of_neg (by simpa using hc), List.filter_cons_of_neg (by simpa [onlyComments_crlf] using hc)]
      exact .nil
    · rw [List.filter_cons_of_pos (by simpa using hc), List.filter_cons_of_pos (by simpa [onlyComments_crlf] using hc)]
      exact .cons (crlf_same b) .nil

theorem blocks_ends {text : Str} {bs : List Str} (h : Blocks text bs) : ∃ p b q, text = p ++ b ++ q ∧ Blank p ∧
    (∃ c r, b = c :: r ∧ isWs c = false) ∧ (∃ r c, b = r ++ [c] ∧ isWs c = false) ∧ Blank q := by
  induction h with
  | last h1 h2 h3 => exact ⟨_, _, _, rfl, h1, h2.first, h2.last, h3⟩
  | @cons p b s rest bs h1 h2 h3 _ _ ih =>
    obtain ⟨p', b', q', rfl, _, _, hl, hq⟩ := ih
    refine ⟨p, b ++ s ++ p' ++ b', q', by simp, h1, ?_, ?_, hq⟩
    · obtain ⟨c, r, rfl, hc⟩ := h2.first
      exact ⟨c, _, rfl, hc⟩
    · obtain ⟨r, c, rfl, hc⟩ := hl
      exact ⟨b ++ s ++ p' ++ r, c, by simp, hc⟩

/-- **C70**, several trees: with Windows line endings a file is never split, whatever it contains. -/
theorem C70_never_split {text : Str} {bs : List Str} (h : Blocks (crlf text) bs) : bs.length = 1 := by
  by_cases hb : Blank text
  · exfalso
    obtain ⟨p, b, q, he, _, ⟨c, r, rfl, hc⟩, _, _⟩ := blocks_ends h
    have := blank_crlf hb c (by rw [he]; simp)
    rw [this] at hc; cases hc
  · obtain ⟨bs0, h0, _⟩ := (C12_split text).2.1 hb
    obtain ⟨p, b, q, rfl, h1, h2, h3, h4⟩ := blocks_ends h0
    have h5 := crlf_block h1 h2 h3 h4
    have hnb : ¬ Blank (crlf (p ++ b ++ q)) := by
      intro hbl
      obtain ⟨c, r, rfl, hc⟩ := h2
      have := hbl c (by
        rw [crlf_append, crlf_append, crlf_cons, if_neg]
        · simp
        · rintro rfl; rw [isWs_n] at hc; cases hc)
      rw [this] at hc; cases hc
    obtain ⟨bs1, _, hu⟩ := (C12_split (crlf (p ++ b ++ q))).2.1 hnb
    rw [hu _ h, ← hu _ h5]; rfl

end

/-! ## Examples -/

section
attribute [local instance] asciiUcd

/-- A file with two trees. -/
def twoTrees : Str := c!"A::b\n└── It works\n\nA::c\n└── It works\n"

set_option maxRecDepth 16000 in
theorem twoTrees_unix : scaffoldSource id Config.default twoTrees =
    .ok c!"// SPDX-License-Identifier: UNLICENSED\npragma solidity 0.8.0;\ncontract A {function test_BWorks() external {\n// It works\n}\n\nfunction test_CWorks() external {\n// It works\n}}" := by
  cbv

set_option maxRecDepth 16000 in
theorem twoTrees_windows : (match scaffoldSource id Config.default (crlf twoTrees) with | .err _ => true | _ => false) = true := by
  cbv

/-- **C70** is false for files with several trees: the file below is accepted with Unix line endings and rejected with
Windows line endings. -/
theorem C70_false : ∃ (U : Ucd) (_ : @LawfulUcd U), ¬ ∀ (order : HashOrder), (∀ l, (order l).Perm l) → ∀ (cfg : Config) (text out : Str),
    '\r' ∉ text → scaffoldSource order cfg text = .ok out → scaffoldSource order cfg (crlf text) = .ok out := by
  refine ⟨asciiUcd, lawful_ascii, ?_⟩
  intro h
  have h1 := h id (fun _ => List.Perm.refl _) Config.default twoTrees _ (by decide +kernel) twoTrees_unix
  have h2 := twoTrees_windows
  rw [h1] at h2
  cases h2

/-! ### A file, without its comment, with other blanks, and drawn with another indentation -/

/-- A tree with a comment. -/
def drawn : Str := c!"A // b\n├── It works\n└── When c\n    └── It fails\n        └── Badly"
/-- Without the comment. -/
def drawnBare : Str := c!"A \n├── It works\n└── When c\n    └── It fails\n        └── Badly"
/-- Drawn with less indentation. -/
def drawnNarrow : Str := c!"A\n├ It works\n└ When c\n └ It fails\n  └ Badly"

theorem drawn_comment : Lexes drawn ([.word c!"A", .skip ' '] ++ .comment c!" b" :: lexF 80 (drawn.drop 6)) := by
  have : lexF 100 drawn = [.word c!"A", .skip ' '] ++ .comment c!" b" :: lexF 80 (drawn.drop 6) := by decide +kernel
  rw [← this]
  exact lexF_spec 100 (by decide +kernel)

theorem drawn_not_comment {r : Str} : ¬ OnlyComments ('A' :: r) := by
  intro h
  have hnn : '\n' ∉ 'A' :: r.takeWhile (· ≠ '\n') := by
    intro hm
    rcases List.mem_cons.1 hm with hm | hm
    · cases hm
    · exact takeWhile_ne_mem r hm
  obtain ⟨w, x, he, hb⟩ := h ('A' :: r.takeWhile (· ≠ '\n')) ⟨hnn, [], r.dropWhile (· ≠ '\n'), by simp, .inl rfl, by
    rcases atLineEnd_dropWhile r with h | ⟨z, h⟩
    · exact .inl h
    · exact .inr ⟨z, by rw [h]; rfl⟩⟩
  cases w with
  | nil => simp at he
  | cons d w =>
    simp at he
    have := hb d (by simp)
    rw [← he.1] at this
    exact absurd this (by decide)

theorem block_drawn : Block drawn := ⟨⟨'A', _, rfl, by decide⟩, ⟨drawn.dropLast, 'y', by decide +kernel, by decide⟩, by decide +kernel⟩
theorem block_bare : Block drawnBare := ⟨⟨'A', _, rfl, by decide⟩, ⟨drawnBare.dropLast, 'y', by decide +kernel, by decide⟩, by decide +kernel⟩
theorem block_narrow : Block drawnNarrow :=
  ⟨⟨'A', _, rfl, by decide⟩, ⟨drawnNarrow.dropLast, 'y', by decide +kernel, by decide⟩, by decide +kernel⟩

theorem trees_drawn : Trees (drawn ++ c!"\n") [drawn] :=
  trees_one (p := []) (q := c!"\n") (by simp [Blank]) block_drawn (by simp [Blank, isWs_n]) drawn_not_comment
theorem trees_bare : Trees (drawnBare ++ c!"\n") [drawnBare] :=
  trees_one (p := []) (q := c!"\n") (by simp [Blank]) block_bare (by simp [Blank, isWs_n]) drawn_not_comment
theorem trees_narrow : Trees (drawnNarrow ++ c!"\n") [drawnNarrow] :=
  trees_one (p := []) (q := c!"\n") (by simp [Blank]) block_narrow (by simp [Blank, isWs_n]) drawn_not_comment

/-- The file with and without its comment: C68 applies. -/
example (cfg : Config) (out : Str) : scaffoldSource id cfg (drawn ++ c!"\n") = .ok out ↔ scaffoldSource id cfg (drawnBare ++ c!"\n") = .ok out := by
  haveI := lawful_ascii
  have h : SameColumns drawn drawnBare := by
    have := (C68_comment drawn_comment).2
    have e : charsOf [.word c!"A", .skip ' '] ++ charsOf (lexF 80 (drawn.drop 6)) = drawnBare := by decide +kernel
    rwa [e] at this
  exact C68_same_output (fun _ => .refl _) (fun _ => .refl _) trees_drawn trees_bare (.cons h .nil) cfg out

/-- The file with another indentation: C69 applies. -/
theorem drawn_indent : SameIndent drawn drawnNarrow := by
  refine ⟨lexF 100 drawn, lexF 100 drawnNarrow, lexF_spec 100 (by decide +kernel), lexF_spec 100 (by decide +kernel), by decide +kernel, ?_⟩
  decide +kernel

set_option maxRecDepth 16000 in
example : squeeze c!"// SPDX-License-Identifier: UNLICENSED\npragma solidity 0.8.0;\ncontract A {function test_Works() external {\n// It works\n}\n\nfunction test_WhenC() external {\n// It fails\n//     Badly\n}}" =
    squeeze c!"// SPDX-License-Identifier: UNLICENSED\npragma solidity 0.8.0;\ncontract A {function test_Works() external {\n// It works\n}\n\nfunction test_WhenC() external {\n// It fails\n//  Badly\n}}" := by
  haveI := lawful_ascii
  exact (C69_indentation (order := id) (order' := id) (cfg := Config.default) (fun _ => .refl _) (fun _ => .refl _) trees_drawn trees_narrow
    (.cons drawn_indent .nil) (by decide) (by decide)).2 _ _ (by cbv) (by cbv)

/-- The file with Windows line endings: C70 applies. -/
example (cfg : Config) (out : Str) : scaffoldSource id cfg (drawn ++ c!"\n") = .ok out ↔ scaffoldSource id cfg (crlf (drawn ++ c!"\n")) = .ok out := by
  haveI := lawful_ascii
  refine C70_one_block_partial (fun _ => .refl _) (fun _ => .refl _) (.inr ⟨drawn, ?_⟩) cfg out
  exact .last (p := []) (q := c!"\n") (by simp [Blank]) block_drawn (by simp [Blank, isWs_n])

end
end Bulloak
