import Verif.Props.Layout
import Verif.Props.Lines
/-!
# The glyphs of nested branches do not matter (C85)
-/

namespace Bulloak.Spec
open Bulloak

/-- `Redrawn keep pre ps ps'`: the pieces `ps'`, read after the text `pre`, are `ps` with some of the branch glyphs `├` and `└` exchanged, but
none at the positions in `keep`. -/
inductive Redrawn (keep : Position → Prop) : Str → List Piece → List Piece → Prop where
  | nil {pre} : Redrawn keep pre [] []
  | same {pre p ps ps'} : Redrawn keep (pre ++ p.chars) ps ps' → Redrawn keep pre (p :: ps) (p :: ps')
  | swap {pre p p' ps ps'} : p.isBranch = true → p'.isBranch = true → ¬ keep (posOf pre) →
      Redrawn keep (pre ++ p.chars) ps ps' → Redrawn keep pre (p :: ps) (p' :: ps')

/-- `b'` is the tree text `b` with some of the glyphs exchanged, but none of the branches directly below the root. -/
def Redraws [U : Ucd] (order : HashOrder) (b b' : Str) : Prop :=
  ∃ ps ps', Lexes b ps ∧ Lexes b' ps' ∧ ∀ ast, parseOne order b = .ok ast →
    Redrawn (fun p => ∃ k ∈ kids ast, k.span.start = p) [] ps ps'

end Bulloak.Spec

namespace Bulloak
open Spec
set_option linter.unusedSectionVars false

/-- The same token, or another glyph in the same place, not to be kept. -/
def SwapTok (K : Position → Prop) (t t' : Token) : Prop :=
  t' = t ∨ (t.kind.isBranch = true ∧ t'.kind.isBranch = true ∧ t'.span = t.span ∧ ¬ K t.span.start)

theorem SwapTok.span {K t t'} (h : SwapTok K t t') : t'.span = t.span := by
  rcases h with rfl | h
  · rfl
  · exact h.2.2.1

theorem SwapTok.branch {K t t'} (h : SwapTok K t t') : t'.kind.isBranch = t.kind.isBranch := by
  rcases h with rfl | h
  · rfl
  · rw [h.1, h.2.1]

theorem SwapTok.word {K t t'} (h : SwapTok K t t') (hw : t.kind.isWordLike = true) : t' = t := by
  rcases h with rfl | h
  · rfl
  · rw [isBranch_not_wordLike, hw] at h; cases h.1

private theorem each_snoc {α β : Type} {R : α → β → Prop} {l : List α} {m : List β} (h : Each R l m) {a : α} {b : β} (hab : R a b) :
    Each R (l ++ [a]) (m ++ [b]) := by
  induction h with
  | nil => exact .cons hab .nil
  | cons h1 _ ih => exact .cons h1 ih

private theorem each_last {α β : Type} {R : α → β → Prop} {l : List α} {m : List β} (h : Each R l m) :
    (l.getLast? = none ∧ m.getLast? = none) ∨ ∃ a b, l.getLast? = some a ∧ m.getLast? = some b ∧ R a b := by
  induction h with
  | nil => exact .inl ⟨rfl, rfl⟩
  | @cons a b as bs h1 _ ih =>
    right
    rcases ih with ⟨h2, h3⟩ | ⟨x, y, h2, h3, h4⟩
    · rw [List.getLast?_eq_none_iff.1 h2, List.getLast?_eq_none_iff.1 h3]; exact ⟨a, b, rfl, rfl, h1⟩
    · exact ⟨x, y, by simp [List.getLast?_cons, h2], by simp [List.getLast?_cons, h3], h4⟩

private theorem each_left_split {α β : Type} {R : α → β → Prop} {a b : List α} {l : List β} (h : Each R (a ++ b) l) :
    ∃ l1 l2, l = l1 ++ l2 ∧ Each R a l1 ∧ Each R b l2 := by
  induction a generalizing l with
  | nil => exact ⟨[], l, rfl, .nil, h⟩
  | cons x a ih =>
    cases h with
    | cons h1 h2 =>
      obtain ⟨l1, l2, rfl, h3, h4⟩ := ih h2
      exact ⟨_ :: l1, l2, rfl, .cons h1 h3, h4⟩

private theorem each_words {K : Position → Prop} {l m : List Token} (h : Each (SwapTok K) l m) (hw : ∀ t ∈ l, t.kind.isWordLike = true) : m = l := by
  induction h with
  | nil => rfl
  | cons h1 _ ih => rw [h1.word (hw _ (by simp)), ih (fun t ht => hw t (by simp [ht]))]

private theorem posOf_after {a b : Str} (h : posOf a = posOf b) (s : Str) : posOf (a ++ s) = posOf (b ++ s) := by
  rw [← advN_posOf, ← advN_posOf, h]

private theorem posOf_glyph {a b : Str} {p p' : Piece} (h : posOf a = posOf b) (hp : p.isBranch = true) (hp' : p'.isBranch = true) :
    posOf (a ++ p.chars) = posOf (b ++ p'.chars) := by
  rw [← advN_posOf, ← advN_posOf, h]
  cases p <;> cases p' <;> first | (cases hp; done) | (cases hp'; done) | rfl | skip
  all_goals simp [Piece.chars, advN, Position.advance, Char.utf8Size]

section
variable [U : Ucd]

private theorem isBranch_kind (t : Token) : t.isBranch = t.kind.isBranch := by
  unfold Token.isBranch TokenKind.isBranch; cases t.kind <;> rfl

/-- The tokens of a redrawn text. -/
theorem lexRun_redrawn {K : Position → Prop} {pre : Str} {ps ps' : List Piece} (h : Redrawn K pre ps ps') :
    ∀ (pre' : Str) (toks toks' out : List Token) (mode : Bool), posOf pre = posOf pre' → Each (SwapTok K) toks toks' →
      lexRun toks mode pre ps = .ok out → ∃ out', lexRun toks' mode pre' ps' = .ok out' ∧ Each (SwapTok K) out out' := by
  induction h with
  | nil =>
    intro pre' toks toks' out mode _ he h
    simp only [lexRun] at h ⊢
    cases h
    exact ⟨toks', rfl, he⟩
  | @same pre p ps ps' _ ih =>
    intro pre' toks toks' out mode hp he h
    have hp2 := posOf_after hp p.chars
    cases p with
    | skip c => exact ih _ _ _ _ _ hp2 he h
    | brk c => exact ih _ _ _ _ _ hp2 he h
    | comment s => exact ih _ _ _ _ _ hp2 he h
    | tee =>
      simp only [lexRun] at h ⊢
      rw [← hp]
      exact ih _ _ _ _ _ hp2 (each_snoc he (.inl rfl)) h
    | corner =>
      simp only [lexRun] at h ⊢
      rw [← hp]
      exact ih _ _ _ _ _ hp2 (each_snoc he (.inl rfl)) h
    | word w =>
      have hlast : (toks'.getLast?.map Token.isBranch).getD false = (toks.getLast?.map Token.isBranch).getD false := by
        rcases each_last he with ⟨h1, h2⟩ | ⟨a, b, h1, h2, h3⟩
        · rw [h1, h2]
        · rw [h1, h2]; simp [isBranch_kind, h3.branch]
      rw [lexRun] at h ⊢
      split at h
      · cases h
      · rename_i hc
        rw [if_neg hc]
        simp only [] at h ⊢
        rw [hlast, ← hp, ← posOf_after hp w.dropLast]
        exact ih _ _ _ _ _ hp2 (each_snoc he (.inl rfl)) h
  | @swap pre p p' ps ps' hb hb' hk _ ih =>
    intro pre' toks toks' out mode hp he h
    have hp2 := posOf_glyph hp hb hb'
    cases p <;> cases hb <;> cases p' <;> cases hb' <;> simp only [lexRun] at h ⊢ <;> rw [← hp] <;>
      refine ih _ _ _ _ _ hp2 (each_snoc he ?_) h <;> exact .inr ⟨rfl, rfl, rfl, hk⟩

/-- The same header with a glyph exchanged. -/
def SwapHeader (K : Position → Prop) (h h' : Header) : Prop := SwapTok K h.glyph h'.glyph ∧ h'.first = h.first ∧ h'.more = h.more

theorem SwapHeader.col {K h h'} (s : SwapHeader K h h') : h'.col = h.col := by unfold Header.col; rw [s.1.span]
theorem SwapHeader.words {K h h'} (s : SwapHeader K h h') : h'.words = h.words := by simp [Header.words, s.2.1, s.2.2]
theorem SwapHeader.title {K h h'} (s : SwapHeader K h h') : h'.title = h.title := by unfold Header.title; rw [s.words]
theorem SwapHeader.endPos {K h h'} (s : SwapHeader K h h') : h'.endPos = h.endPos := by unfold Header.endPos; rw [s.words, s.1.span]
theorem SwapHeader.ok {K h h'} (s : SwapHeader K h h') (hk : h.Ok) : h'.Ok := ⟨by rw [s.1.branch]; exact hk.1, by rw [s.words]; exact hk.2⟩

private theorem nodeSpan_swap {K : Position → Prop} {h h' : Header} {sub sub' : List Header} (s : SwapHeader K h h') (e : Each (SwapHeader K) sub sub') :
    nodeSpan h' sub' = nodeSpan h sub := by
  unfold nodeSpan
  rw [s.1.span, s.endPos]
  rcases each_last e with ⟨h1, h2⟩ | ⟨a, b, h1, h2, h3⟩
  · rw [h1, h2]
  · rw [h1, h2]; simp [h3.endPos]

private theorem descs_swap {K : Position → Prop} {h h' : Header} {sub sub' : List Header} (s : SwapHeader K h h') (e : Each (SwapHeader K) sub sub') :
    sub'.map (descAst h') = sub.map (descAst h) := by
  induction e with
  | nil => rfl
  | cons h1 _ ih => simp [ih, descAst, h1.col, s.col, h1.title, h1.endPos, h1.1.span]

private theorem ends_swap {K : Position → Prop} {c : Nat} {r r' : List Header} (e : Each (SwapHeader K) r r') (h : Ends c r) : Ends c r' := by
  intro d q he
  cases e with
  | nil => cases he
  | cons h1 _ =>
    cases he
    rw [h1.col]
    exact h _ _ rfl

theorem items_swap {K : Position → Prop} {c : Nat} {hs : List Header} {asts : List Ast} (h : Items c hs asts) :
    ∀ hs', Each (SwapHeader K) hs hs' → Items c hs' asts := by
  induction h with
  | nil => intro hs' e; cases e; exact .nil
  | condition hok hc hcond hm _ hends _ ih1 ih2 =>
    intro hs' e
    cases e with
    | cons s e =>
      obtain ⟨l1, l2, rfl, e1, e2⟩ := each_left_split e
      rw [← nodeSpan_swap s e1, ← s.title]
      refine .condition (s.ok hok) (by rw [s.col]; exact hc) ?_ (by rw [s.2.2]; exact hm) (by rw [s.col]; exact ih1 _ e1)
        (by rw [s.col]; exact ends_swap e2 hends) (ih2 _ e2)
      unfold Header.isCondition at hcond ⊢; rw [s.2.1]; exact hcond
  | action hok hc hact hsub hends _ ih =>
    intro hs' e
    cases e with
    | cons s e =>
      obtain ⟨l1, l2, rfl, e1, e2⟩ := each_left_split e
      rw [← nodeSpan_swap s e1, ← s.title, ← descs_swap s e1]
      refine .action (s.ok hok) (by rw [s.col]; exact hc) ?_ ?_ (by rw [s.col]; exact ends_swap e2 hends) (ih _ e2)
      · unfold Header.isAction at hact ⊢; rw [s.2.1]; exact hact
      · intro d hd
        obtain ⟨d0, h0, s0⟩ := each_right e1 d hd
        obtain ⟨h1, h2, h3⟩ := hsub d0 h0
        exact ⟨s0.ok h1, by rw [s.col, s0.col]; exact h2, by rw [s0.2.1]; exact h3⟩

theorem rootItems_swap {K : Position → Prop} {hs : List Header} {asts : List Ast} (h : RootItems hs asts) :
    ∀ hs', Each (SwapHeader K) hs hs' → (∀ a ∈ asts, K a.span.start) → RootItems hs' asts := by
  induction h with
  | nil => intro hs' e _; cases e; exact .nil
  | @item h sub rest ast asts hi hends hg hr ih =>
    intro hs' e hK
    cases e with
    | @cons _ h' _ _ s e =>
      obtain ⟨l1, l2, rfl, e1, e2⟩ := each_left_split e
      have hst : ast.span.start = h.glyph.span.start := by
        cases hi <;> rfl
      have hsame : h'.glyph = h.glyph := by
        rcases s.1 with h1 | ⟨_, _, _, h1⟩
        · exact h1
        · exact absurd (hst ▸ hK ast (by simp)) h1
      refine .item (items_swap hi _ (.cons s e1)) (by rw [s.col]; exact ends_swap e2 hends) ?_ (ih _ e2 (fun a ha => hK a (by simp [ha])))
      rw [hsame, hg]
      cases e2 <;> simp

private theorem flat_swap {K : Position → Prop} {hs : List Header} (hok : ∀ h ∈ hs, h.Ok) :
    ∀ {l : List Token}, Each (SwapTok K) (flat hs) l → ∃ hs', l = flat hs' ∧ Each (SwapHeader K) hs hs' := by
  induction hs with
  | nil => intro l e; cases e; exact ⟨[], rfl, .nil⟩
  | cons h hs ih =>
    intro l e
    have e' : Each (SwapTok K) (h.glyph :: (h.words ++ flat hs)) l := e
    clear e
    cases e' with
    | @cons _ g _ _ s e =>
      obtain ⟨l1, l2, rfl, e1, e2⟩ := each_left_split e
      have := each_words e1 (hok h (by simp)).2
      subst this
      obtain ⟨hs', rfl, e3⟩ := ih (fun x hx => hok x (by simp [hx])) e2
      exact ⟨⟨g, h.first, h.more⟩ :: hs', rfl, .cons ⟨s, rfl, rfl⟩ e3⟩

/-- **C85**, trees: exchanging glyphs of nested branches does not change what is read, not even its places. -/
theorem C85_parse {order : HashOrder} {b b' : Str} (hr : Redraws order b b') {ast : Ast} (h : parseOne order b = .ok ast) :
    parseOne order b' = .ok ast := by
  obtain ⟨ps, ps', hl, hl', hred⟩ := hr
  have hred := hred ast h
  obtain ⟨toks, ht, hp, ha⟩ := parseOne_ok h
  rw [tokenize_eq_lexRun hl] at ht
  obtain ⟨toks', ht', he⟩ := lexRun_redrawn hred [] [] [] toks false rfl .nil ht
  rw [← tokenize_eq_lexRun hl'] at ht'
  rw [← tokenize_eq_lexRun hl] at ht
  refine parseOne_of ht' ?_ ha
  rw [parseTokens_iff (tokenize_col ht')]
  obtain ⟨root, hs, kds, rfl, hk, hri, rfl⟩ := (parseTokens_iff (tokenize_col ht) ast).1 hp
  cases he with
  | cons s e =>
    have hroot := s.word (by rw [hk]; rfl)
    subst hroot
    obtain ⟨hs', rfl, e2⟩ := flat_swap (rootItems_ok hri) e
    refine ⟨_, hs', kds, rfl, hk, rootItems_swap hri _ e2 (fun a ha => ⟨a, ha, rfl⟩), ?_⟩
    congr 2
    rcases each_last e2 with ⟨h1, h2⟩ | ⟨a, b, h1, h2, h3⟩
    · rw [h1, h2]
    · rw [h1, h2]; simp [h3.endPos]

private theorem redraws_each {order : HashOrder} {bs bs' : List Str} (h : Each (Redraws order) bs bs') :
    ∀ {asts : List Ast}, Each (fun b a => parseOne order b = .ok a) bs asts → Each (fun b a => parseOne order b = .ok a) bs' asts := by
  induction h with
  | nil => intro asts e; exact e
  | cons h1 _ ih =>
    intro asts e
    cases e with
    | cons e1 e2 => exact .cons (C85_parse h1 e1) (ih e2)

/-- **C85**, files: exchanging glyphs of nested branches in an accepted file does not change the Solidity written for it. -/
theorem C85_output {order : HashOrder} {text text' : Str} {bs bs' : List Str} (hb : Trees text bs) (hb' : Trees text' bs')
    (h : Each (Redraws order) bs bs') {cfg : Config} {out : Str} (ho : scaffoldSource order cfg text = .ok out) :
    scaffoldSource order cfg text' = .ok out := by
  unfold scaffoldSource at ho ⊢
  obtain ⟨hir, h1, h2⟩ := Res.bind_eq_ok.1 ho
  have key : translate order cfg text' = .ok hir := by
    unfold translate at h1 ⊢
    obtain ⟨asts, h3, h4⟩ := Res.bind_eq_ok.1 h1
    have h5 : parse order text = .ok asts := by
      cases hp : parse order text with
      | ok a => rw [hp] at h3; cases h3; rfl
      | err e => rw [hp] at h3; cases h3
      | panic => rw [hp] at h3; cases h3
    have h6 := (C13_parse_ok order text asts).1 h5
    rw [split_trees hb] at h6
    have h7 : parse order text' = .ok asts := by
      rw [C13_parse_ok, split_trees hb']
      exact redraws_each h h6
    rw [h7]
    have many : ∀ hirs, Res.mapErr (TranslateError.combiner text) (combine hirs) = .ok hir →
        Res.mapErr (TranslateError.combiner text') (combine hirs) = .ok hir := by
      intro hirs h
      cases hc : combine hirs with
      | ok r => rw [hc] at h; exact h
      | err e => rw [hc] at h; cases h
      | panic => rw [hc] at h; cases h
    refine Res.bind_eq_ok.2 ⟨asts, rfl, ?_⟩
    match asts, h4 with
    | [a], h4 => exact h4
    | [], h4 =>
      obtain ⟨hirs, h8, h9⟩ := Res.bind_eq_ok.1 h4
      exact Res.bind_eq_ok.2 ⟨hirs, h8, many _ h9⟩
    | _ :: _ :: _, h4 =>
      obtain ⟨hirs, h8, h9⟩ := Res.bind_eq_ok.1 h4
      exact Res.bind_eq_ok.2 ⟨hirs, h8, many _ h9⟩
  rw [key]
  exact h2

/-! ## The glyphs directly below the root do matter -/

private theorem items_right {c : Nat} {hs : List Header} {asts : List Ast} (h : Items c hs asts) : ∀ x ∈ hs, c < x.col := by
  induction h with
  | nil => intro x hx; cases hx
  | condition _ hc _ _ _ _ _ ih1 ih2 =>
    intro x hx
    rcases List.mem_cons.1 hx with rfl | hx
    · exact hc
    · rcases List.mem_append.1 hx with hx | hx
      · exact Nat.lt_trans hc (ih1 x hx)
      · exact ih2 x hx
  | action _ hc _ hs _ _ ih =>
    intro x hx
    rcases List.mem_cons.1 hx with rfl | hx
    · exact hc
    · rcases List.mem_append.1 hx with hx | hx
      · exact Nat.lt_trans hc (hs x hx).2.1
      · exact ih x hx

private theorem single_right {c : Nat} {h : Header} {sub : List Header} {ast : Ast} (hi : Items c (h :: sub) [ast]) : ∀ x ∈ sub, h.col < x.col := by
  generalize hl : h :: sub = l at hi
  generalize ha : [ast] = as at hi
  cases hi with
  | nil => cases hl
  | condition _ _ _ _ h1 _ h2 =>
    cases hl; cases ha; cases h2
    intro x hx
    rw [List.append_nil] at hx
    exact items_right h1 x hx
  | action _ _ _ h1 _ h2 =>
    cases hl; cases ha; cases h2
    intro x hx
    rw [List.append_nil] at hx
    exact (h1 x hx).2.1

private theorem same_cut {c : Nat} {A B A' B' : List Header} {K : Position → Prop} (e : Each (SwapHeader K) (A ++ B) (A' ++ B'))
    (hA : ∀ x ∈ A, c < x.col) (hA' : ∀ x ∈ A', c < x.col) (hB : Ends c B) (hB' : Ends c B') : Each (SwapHeader K) A A' ∧ Each (SwapHeader K) B B' := by
  induction A generalizing A' with
  | nil =>
    cases A' with
    | nil => exact ⟨.nil, e⟩
    | cons y A' =>
      exfalso
      rw [List.nil_append] at e
      cases B with
      | nil => cases e
      | cons b B =>
        cases e with
        | cons s _ =>
          have h1 := hB _ _ rfl
          have h2 := hA' y (by simp)
          rw [s.col] at h2
          omega
  | cons x A ih =>
    cases A' with
    | nil =>
      exfalso
      rw [List.nil_append] at e
      cases B' with
      | nil => cases e
      | cons b B' =>
        cases e with
        | cons s _ =>
          have h1 := hB' _ _ rfl
          have h2 := hA x (by simp)
          rw [s.col] at h1
          omega
    | cons y A' =>
      cases e with
      | cons s e =>
        obtain ⟨h1, h2⟩ := ih e (fun x hx => hA x (by simp [hx])) (fun x hx => hA' x (by simp [hx]))
        exact ⟨.cons s h1, h2⟩

private theorem zip_append_mem {α β : Type} {a c : List α} {b d : List β} (hl : a.length = b.length) {p : α × β} (h : p ∈ c.zip d) :
    p ∈ (a ++ c).zip (b ++ d) := by
  rw [List.zip_append hl]; exact List.mem_append_right _ h

/-- Two accepted lists of headers that differ in glyphs only have the same glyphs directly below the root. -/
private theorem rootItems_glyphs {hs : List Header} {asts : List Ast} (h : RootItems hs asts) :
    ∀ hs' asts', Each (SwapHeader (fun _ => False)) hs hs' → RootItems hs' asts' →
      ∀ a ∈ asts, ∃ x y : Header, (x, y) ∈ hs.zip hs' ∧ x.glyph.span.start = a.span.start ∧ y.glyph.kind = x.glyph.kind := by
  induction h with
  | nil => intro hs' asts' _ _ a ha; cases ha
  | @item h sub rest ast asts hi hends hg hr ih =>
    intro hs' asts' e h'
    generalize hl : hs' = l at h'
    cases h' with
    | nil => subst hl; cases e
    | @item h2 sub2 rest2 ast2 asts2 hi2 hends2 hg2 hr2 =>
      subst hl
      cases e with
      | cons s e =>
        obtain ⟨e1, e2⟩ := same_cut e (single_right hi) (fun x hx => by have := single_right hi2 x hx; rw [s.col] at this; exact this)
          hends (by have := hends2; rw [s.col] at this; exact this)
        intro a ha
        rcases List.mem_cons.1 ha with rfl | ha
        · refine ⟨h, h2, by simp, by cases hi <;> rfl, ?_⟩
          have hk : h.glyph.kind = .tee ↔ h2.glyph.kind = .tee := by
            rw [hg, hg2]
            cases e2 <;> simp
          have hb : h.glyph.kind.isBranch = true := by cases hi <;> rename_i hok _ <;> first | exact (by assumption : h.Ok).1 | skip
          have hb2 : h2.glyph.kind.isBranch = true := by rw [s.1.branch]; exact hb
          cases h1 : h.glyph.kind <;> cases h3 : h2.glyph.kind <;> simp_all [TokenKind.isBranch]
        · obtain ⟨x, y, h1, h3, h4⟩ := ih _ _ e2 hr2 a ha
          refine ⟨x, y, ?_, h3, h4⟩
          rw [List.zip_cons_cons]
          exact List.mem_cons_of_mem _ (zip_append_mem (each_len e1) h1)

private theorem flat_zip {K : Position → Prop} {hs hs' : List Header} (e : Each (SwapHeader K) hs hs') {x y : Header} (h : (x, y) ∈ hs.zip hs') :
    (x.glyph, y.glyph) ∈ (flat hs).zip (flat hs') := by
  induction e with
  | nil => cases h
  | @cons a b as bs s _ ih =>
    have e1 : flat (a :: as) = (a.glyph :: a.words) ++ flat as := rfl
    have e2 : flat (b :: bs) = (b.glyph :: b.words) ++ flat bs := rfl
    rw [e1, e2, List.zip_append (by simp [s.words])]
    rw [List.zip_cons_cons] at h
    rcases List.mem_cons.1 h with h | h
    · cases h; simp
    · exact List.mem_append_right _ (ih h)

private theorem redrawn_keep {F keep : Position → Prop} {pre : Str} {ps ps' : List Piece} (h : Redrawn F pre ps ps') : ∀ pre', posOf pre = posOf pre' →
    (∀ t t', (t, t') ∈ (tokensOf pre ps).zip (tokensOf pre' ps') → keep t.span.start → t'.kind = t.kind) → Redrawn keep pre ps ps' := by
  induction h with
  | nil => intro _ _ _; exact .nil
  | @same pre p ps ps' _ ih =>
    intro pre' hp hk
    refine .same (ih (pre' ++ p.chars) (posOf_after hp _) (fun t t' hm => hk t t' ?_))
    cases p with
    | skip c => exact hm
    | brk c => exact hm
    | comment c => exact hm
    | tee => exact List.mem_cons_of_mem _ hm
    | corner => exact List.mem_cons_of_mem _ hm
    | word c => exact List.mem_cons_of_mem _ hm
  | @swap pre p p' ps ps' hb hb' _ _ ih =>
    intro pre' hp hk
    have hp2 := posOf_glyph hp hb hb'
    have hrec := ih (pre' ++ p'.chars) hp2 (fun t t' hm => hk t t' (by
      cases p <;> cases hb <;> cases p' <;> cases hb' <;> exact List.mem_cons_of_mem _ hm))
    by_cases hpp : p = p'
    · subst hpp; exact .same hrec
    · refine .swap hb hb' (fun hkp => hpp ?_) hrec
      cases p <;> cases hb <;> cases p' <;> cases hb' <;> first | rfl | skip
      · have := hk ⟨.tee, Span.splat (posOf pre), c!"├"⟩ ⟨.corner, Span.splat (posOf pre'), c!"└"⟩ (by simp [tokensOf]) hkp
        cases this
      · have := hk ⟨.corner, Span.splat (posOf pre), c!"└"⟩ ⟨.tee, Span.splat (posOf pre'), c!"├"⟩ (by simp [tokensOf]) hkp
        cases this

private theorem words_cut {w w' r r' : List Token} (hw : ∀ t ∈ w, t.kind.isWordLike = true) (hw' : ∀ t ∈ w', t.kind.isWordLike = true)
    (hr : ∀ t l, r = t :: l → t.kind.isWordLike = false) (hr' : ∀ t l, r' = t :: l → t.kind.isWordLike = false) (h : w ++ r = w' ++ r') :
    w = w' ∧ r = r' := by
  induction w generalizing w' with
  | nil =>
    cases w' with
    | nil => exact ⟨rfl, h⟩
    | cons t w' => have := hr _ _ h; rw [hw' t (by simp)] at this; cases this
  | cons t w ih =>
    cases w' with
    | nil => have := hr' _ _ h.symm; rw [hw t (by simp)] at this; cases this
    | cons t' w' =>
      simp only [List.cons_append, List.cons.injEq] at h
      obtain ⟨h1, h2⟩ := ih (fun x hx => hw x (by simp [hx])) (fun x hx => hw' x (by simp [hx])) h.2
      exact ⟨by rw [h.1, h1], h2⟩

private theorem flat_head {hs : List Header} (hok : ∀ h ∈ hs, h.Ok) : ∀ t l, flat hs = t :: l → t.kind.isWordLike = false := by
  intro t l h
  cases hs with
  | nil => cases h
  | cons a as =>
    have e : flat (a :: as) = a.glyph :: (a.words ++ flat as) := rfl
    rw [e] at h
    cases h
    have := (hok a (by simp)).1
    rw [isBranch_not_wordLike] at this
    simpa using this

private theorem flat_inj {hs hs' : List Header} (hok : ∀ h ∈ hs, h.Ok) (hok' : ∀ h ∈ hs', h.Ok) (h : flat hs = flat hs') : hs = hs' := by
  induction hs generalizing hs' with
  | nil => cases hs' with
    | nil => rfl
    | cons _ _ => cases h
  | cons a as ih =>
    cases hs' with
    | nil => cases h
    | cons b bs =>
      have h0 : a.glyph :: (a.words ++ flat as) = b.glyph :: (b.words ++ flat bs) := h
      simp only [List.cons.injEq] at h0
      obtain ⟨h1, h2⟩ := words_cut (hok a (by simp)).2 (hok' b (by simp)).2 (flat_head (fun x hx => hok x (by simp [hx])))
        (flat_head (fun x hx => hok' x (by simp [hx]))) h0.2
      have h3 := ih (fun x hx => hok x (by simp [hx])) (fun x hx => hok' x (by simp [hx])) h2
      have h4 : a.first :: a.more = b.first :: b.more := h1
      simp only [List.cons.injEq] at h4
      obtain ⟨g, f, m⟩ := a
      obtain ⟨g', f', m'⟩ := b
      simp only at h4 h0
      rw [h3, h0.1, h4.1, h4.2]

private theorem swap_ok {K : Position → Prop} {hs hs' : List Header} (e : Each (SwapHeader K) hs hs') (hok : ∀ h ∈ hs, h.Ok) : ∀ h ∈ hs', h.Ok := by
  induction e with
  | nil => intro h hh; cases hh
  | @cons a b as bs s _ ih =>
    intro h hh
    rcases List.mem_cons.1 hh with rfl | hh
    · have := hok a (by simp)
      exact ⟨by rw [s.1.branch]; exact this.1, by rw [s.words]; exact this.2⟩
    · exact ih (fun x hx => hok x (by simp [hx])) h hh

private theorem sorted_eq {toks : List Token} (hs : TokSorted toks) {t u : Token} (ht : t ∈ toks) (hu : u ∈ toks)
    (h : t.span.start = u.span.start) : t = u := by
  obtain ⟨h1, h2⟩ := hs
  induction toks with
  | nil => cases ht
  | cons a l ih =>
    rw [List.pairwise_cons] at h2
    have ha := h1 a (by simp)
    have : t.span.start.offset = u.span.start.offset := by rw [h]
    rcases List.mem_cons.1 ht with rfl | ht2 <;> rcases List.mem_cons.1 hu with rfl | hu2
    · rfl
    · have := h2.1 u hu2; omega
    · have := h2.1 t ht2; omega
    · exact ih ht2 hu2 (fun x hx => h1 x (by simp [hx])) h2.2

private theorem each_zip_span {K : Position → Prop} {l l' : List Token} (e : Each (SwapTok K) l l') {t t' : Token} (h : (t, t') ∈ l.zip l') :
    t'.span.start = t.span.start := by
  induction e with
  | nil => cases h
  | @cons a b as bs s _ ih =>
    rw [List.zip_cons_cons] at h
    rcases List.mem_cons.1 h with h | h
    · cases h; rw [s.span]
    · exact ih h

/-- **C85**, exactly: an accepted tree with glyphs exchanged is accepted if and only if the glyphs of the branches directly below the root are
the same. -/
theorem C85_exact {order : HashOrder} {b b' : Str} {ast : Ast} (h : parseOne order b = .ok ast) {ps ps' : List Piece} (hl : Lexes b ps)
    (hl' : Lexes b' ps') (hr : Redrawn (fun _ => False) [] ps ps') :
    (∃ ast', parseOne order b' = .ok ast') ↔ Redrawn (fun p => ∃ k ∈ kids ast, k.span.start = p) [] ps ps' := by
  constructor
  · rintro ⟨ast', h'⟩
    obtain ⟨toks, ht, hp, _⟩ := parseOne_ok h
    obtain ⟨toks', ht', hp', _⟩ := parseOne_ok h'
    have hr2 := hr
    refine redrawn_keep hr [] rfl ?_
    rw [← tokenize_ok_tokensOf hl ht, ← tokenize_ok_tokensOf hl' ht']
    have he : Each (SwapTok (fun _ => False)) toks toks' := by
      have h1 := ht
      rw [tokenize_eq_lexRun hl] at h1
      obtain ⟨out', h2, h3⟩ := lexRun_redrawn hr2 [] [] [] toks false rfl .nil h1
      rw [← tokenize_eq_lexRun hl', ht'] at h2
      cases h2
      exact h3
    have hs1 := tokenize_sorted ht
    have hs2 := tokenize_sorted ht'
    obtain ⟨root, hs, kds, rfl, hk, hri, rfl⟩ := (parseTokens_iff (tokenize_col ht) ast).1 hp
    obtain ⟨root', hs', kds', rfl, hk', hri', rfl⟩ := (parseTokens_iff (tokenize_col ht') ast').1 hp'
    have he0 := he
    cases he with
    | cons s e =>
      obtain ⟨hs2', hf, e2⟩ := flat_swap (rootItems_ok hri) e
      have : hs' = hs2' := flat_inj (rootItems_ok hri') (swap_ok e2 (rootItems_ok hri)) hf
      subst this
      rintro t t' hm ⟨k, hkk, hst⟩
      obtain ⟨x, y, h1, h2, h3⟩ := rootItems_glyphs hri _ _ e2 hri' k hkk
      have h4 : (x.glyph, y.glyph) ∈ (root :: flat hs).zip (root' :: flat hs') := by
        rw [List.zip_cons_cons]; exact List.mem_cons_of_mem _ (flat_zip e2 h1)
      have hx : t = x.glyph := sorted_eq hs1 (List.of_mem_zip hm).1 (List.of_mem_zip h4).1 (by rw [h2, hst])
      have hy : t' = y.glyph := sorted_eq hs2 (List.of_mem_zip hm).2 (List.of_mem_zip h4).2
        (by rw [each_zip_span he0 hm, each_zip_span he0 h4, hx])
      rw [hx, hy, h3]
  · intro hk
    refine ⟨ast, C85_parse ⟨ps, ps', hl, hl', fun ast2 h2 => ?_⟩ h⟩
    rw [h] at h2
    cases h2
    exact hk

end

section Examples
attribute [local instance] asciiUcd

/-- Decides `Redrawn` (for the examples). -/
def redrawnB (keep : Position → Bool) : Str → List Piece → List Piece → Bool
  | _, [], [] => true
  | pre, p :: ps, p' :: ps' => (p == p' || (p.isBranch && p'.isBranch && !keep (posOf pre))) && redrawnB keep (pre ++ p.chars) ps ps'
  | _, _, _ => false

theorem redrawnB_sound {keep : Position → Bool} {K : Position → Prop} (hk : ∀ p, keep p = false → ¬ K p) :
    ∀ {pre ps ps'}, redrawnB keep pre ps ps' = true → Redrawn K pre ps ps'
  | _, [], [], _ => .nil
  | pre, p :: ps, p' :: ps', h => by
    simp only [redrawnB, Bool.and_eq_true, Bool.or_eq_true, beq_iff_eq, Bool.not_eq_true'] at h
    rcases h.1 with h1 | h1
    · subst h1; exact .same (redrawnB_sound hk h.2)
    · exact .swap h1.1.1 h1.1.2 (hk _ h1.2) (redrawnB_sound hk h.2)

/-- The nested glyphs the wrong way round. -/
def glyphsA : Str := c!"A\n├── It works\n└── When c\n    ├── It fails"
/-- As a person would draw it. -/
def glyphsB : Str := c!"A\n├── It works\n└── When c\n    └── It fails"
/-- With a glyph below the root exchanged. -/
def glyphsC : Str := c!"A\n├── It works\n├── When c\n    └── It fails"

set_option maxRecDepth 16000 in
theorem glyphs_kids : ∃ ast, parseOne id glyphsB = .ok ast ∧ (kids ast).map (fun k => k.span.start) = [⟨2, 2, 1⟩, ⟨21, 3, 1⟩] := by
  exact ⟨_, by cbv, by decide +kernel⟩

theorem glyphs_redraws : Redraws id glyphsB glyphsA := by
  refine ⟨lexF 100 glyphsB, lexF 100 glyphsA, lexF_spec 100 (by decide +kernel), lexF_spec 100 (by decide +kernel), ?_⟩
  intro ast h
  obtain ⟨ast', h', hk⟩ := glyphs_kids
  rw [h] at h'
  cases h'
  refine redrawnB_sound (keep := fun p => [(⟨2, 2, 1⟩ : Position), ⟨21, 3, 1⟩].contains p) ?_ (by decide +kernel)
  rintro p hp ⟨k, hm, rfl⟩
  have : k.span.start ∈ (kids ast).map (fun k => k.span.start) := List.mem_map_of_mem hm
  rw [hk] at this
  rw [List.contains_iff_mem.2 this] at hp
  cases hp

/-- C85 applies: both are read, with the same result. -/
example : ∃ ast, parseOne id glyphsB = .ok ast ∧ parseOne id glyphsA = .ok ast := by
  haveI := lawful_ascii
  obtain ⟨ast, h, _⟩ := glyphs_kids
  exact ⟨ast, h, C85_parse glyphs_redraws h⟩

/-- A glyph below the root does matter: this is the other side of C85. -/
example : Redrawn (fun _ => False) [] (lexF 100 glyphsB) (lexF 100 glyphsC) :=
  redrawnB_sound (keep := fun _ => false) (fun _ _ h => h) (by decide +kernel)

set_option maxRecDepth 16000 in
example : ∃ e, parseOne id glyphsC = .err e := ⟨_, by cbv⟩

private theorem glyphs_block {b : Str} {r : Str} (hb : b = 'A' :: r) (hl : ∃ i, b = i ++ c!"s") (hn : ¬ c!"\n\n" <:+: b) : Trees b [b] := by
  have := trees_one (p := []) (q := []) (b := b) (by simp [Blank]) ?_ (by simp [Blank]) (by rw [hb]; exact drawn_not_comment)
  · simpa using this
  · obtain ⟨i, hi⟩ := hl
    exact ⟨⟨'A', r, hb, by decide⟩, ⟨i, 's', hi, by decide⟩, hn⟩

/-- Also for files. -/
example (cfg : Config) (out : Str) (h : scaffoldSource id cfg glyphsB = .ok out) : scaffoldSource id cfg glyphsA = .ok out := by
  haveI := lawful_ascii
  exact C85_output (glyphs_block rfl ⟨glyphsB.dropLast, by decide +kernel⟩ (by decide +kernel))
    (glyphs_block rfl ⟨glyphsA.dropLast, by decide +kernel⟩ (by decide +kernel)) (.cons glyphs_redraws .nil) h

end Examples
end Bulloak
