import Verif.Spec.Recase
import Verif.Lemmas.Layout4
import Verif.Props.Reword
/-! # Keywords in upper and lower case -/

namespace Bulloak
open Spec
set_option linter.unusedSectionVars false

/-! ## Letters -/

theorem lower_cases (c : Char) : asciiLower c = c ∨ (65 ≤ c.toNat ∧ c.toNat ≤ 90 ∧ (asciiLower c).toNat = c.toNat + 32) := by
  unfold asciiLower
  by_cases h : 65 ≤ c.toNat ∧ c.toNat ≤ 90
  · right
    rw [if_pos (by simpa using h)]
    refine ⟨h.1, h.2, ?_⟩
    exact toNat_ofNat_of_lt (by omega)
  · left; rw [if_neg (by simpa using h)]

theorem size_lower (c : Char) : (asciiLower c).utf8Size = c.utf8Size := by
  rcases lower_cases c with h | ⟨h1, h2, h3⟩
  · rw [h]
  · have e1 : c.utf8Size = 1 := by
      rw [Char.utf8Size_eq_one_iff]; show c.val.toNat ≤ 127; have : c.toNat = c.val.toNat := rfl; omega
    have e2 : (asciiLower c).utf8Size = 1 := by
      rw [Char.utf8Size_eq_one_iff]; show (asciiLower c).val.toNat ≤ 127; have : (asciiLower c).toNat = (asciiLower c).val.toNat := rfl; omega
    rw [e1, e2]

theorem lower_nl (c : Char) : asciiLower c = '\n' ↔ c = '\n' := by
  rcases lower_cases c with h | ⟨h1, h2, h3⟩
  · rw [h]
  · constructor
    · intro h; rw [h] at h3; have : '\n'.toNat = 10 := rfl; omega
    · intro h; rw [h] at h1; have : '\n'.toNat = 10 := rfl; omega

/-- The same characters up to the case of ASCII letters. -/
def CaseEq (s t : Str) : Prop := s.map asciiLower = t.map asciiLower

theorem caseEq_append {a b c d : Str} (h : CaseEq a b) (h' : CaseEq c d) : CaseEq (a ++ c) (b ++ d) := by
  unfold CaseEq at *; rw [List.map_append, List.map_append, h, h']

theorem caseEq_dropLast {a b : Str} (h : CaseEq a b) : CaseEq a.dropLast b.dropLast := by
  unfold CaseEq at *
  rw [List.map_dropLast, List.map_dropLast, h]

theorem posOf_lower (s : Str) : posOf (s.map asciiLower) = posOf s := by
  unfold posOf
  have h1 : ((s.map asciiLower).map Char.utf8Size) = s.map Char.utf8Size := by
    rw [List.map_map]; apply List.map_congr_left; intro c _; exact size_lower c
  have h2 : (s.map asciiLower).count '\n' = s.count '\n' := by
    induction s with
    | nil => rfl
    | cons c s ih =>
      rw [List.map_cons, List.count_cons, List.count_cons, ih (by
        rw [List.map_map]; apply List.map_congr_left; intro c _; exact size_lower c)]
      congr 1
      have := lower_nl c
      by_cases hc : c = '\n'
      · rw [this.2 hc, hc]
      · simp [hc, mt this.1 hc]
  have h3 : (lastLine (s.map asciiLower)).length = (lastLine s).length := by
    unfold lastLine
    rw [List.length_reverse, List.length_reverse, ← List.map_reverse, List.takeWhile_map, List.length_map]
    congr 1
    congr 1
    funext c
    have := lower_nl c
    by_cases hc : c = '\n'
    · rw [Function.comp, this.2 hc, hc]
    · simp [hc, mt this.1 hc]
  rw [h1, h2, h3]

theorem caseEq_posOf {s t : Str} (h : CaseEq s t) : posOf s = posOf t := by
  rw [← posOf_lower s, h, posOf_lower t]

/-! ## Keywords -/

theorem keyword_alnum {k w : Str} (hk : k ∈ treeKeywords) (h : IsKeyword k w) : ∀ c ∈ w, isAsciiAlnum c = true := by
  intro c hc
  have h1 : isAsciiAlnum (asciiLower c) = true := by
    have : asciiLower c ∈ k := by rw [← h]; exact List.mem_map_of_mem hc
    have key : ∀ k ∈ treeKeywords, ∀ d ∈ k, isAsciiAlnum d = true := by decide
    exact key k hk _ this
  rcases lower_cases c with h2 | ⟨h2, h3, _⟩
  · rw [h2] at h1; exact h1
  · simp [isAsciiAlnum]; omega

theorem keyword_ne {k w : Str} (hk : k ∈ treeKeywords) (h : IsKeyword k w) : w ≠ [] := by
  rintro rfl
  have : k = [] := h.symm
  subst this
  exact absurd hk (by decide)

theorem it_mem : c!"it" ∈ treeKeywords := by decide

theorem firstLetter_anyIt {w w' : Str} (h : FirstLetter w w') : AnyIt w w' := .inl h

theorem anyIt_anyCase {w w' : Str} (h : AnyIt w w') : AnyCase w w' := by
  rcases h with ⟨k, hk, h1, h2, _⟩ | ⟨h1, h2⟩
  · exact ⟨k, hk, h1, h2⟩
  · exact ⟨_, it_mem, h1, h2⟩

theorem firstLetter_symm {w w' : Str} (h : FirstLetter w w') : FirstLetter w' w := by
  obtain ⟨k, hk, h1, h2, h3⟩ := h
  exact ⟨k, hk, h2, h1, h3.symm⟩

theorem anyIt_symm {w w' : Str} (h : AnyIt w w') : AnyIt w' w := by
  rcases h with h | ⟨h1, h2⟩
  · exact .inl (firstLetter_symm h)
  · exact .inr ⟨h2, h1⟩

theorem recased_symm {K K' : Str → Str → Prop} (hK : ∀ w w', K w w' → K' w' w) {a : Bool} {ps ps' : List Piece} (h : Recased K a ps ps') : Recased K' a ps' ps := by
  induction h with
  | nil => exact .nil
  | gap h _ ih => exact .gap h ih
  | glyph h _ ih => exact .glyph h ih
  | word _ ih => exact .word ih
  | keyword h _ ih => exact .keyword (hK _ _ h) ih

theorem recasedText_symm {K K' : Str → Str → Prop} (hK : ∀ w w', K w w' → K' w' w) {b b' : Str} (h : RecasedText K b b') : RecasedText K' b' b := by
  obtain ⟨ps, ps', h1, h2, h3⟩ := h
  exact ⟨ps', ps, h2, h1, recased_symm hK h3⟩

section
variable [U : Ucd]

theorem anyCase_kind [LawfulUcd] {w w' : Str} (h : AnyCase w w') : wordKind w = wordKind w' := by
  obtain ⟨k, _, h1, h2⟩ := h
  rw [wordKind_eq, wordKind_eq]
  unfold kindOfWord
  rw [show w.map asciiLower = w'.map asciiLower from h1.trans h2.symm]

theorem keyword_valid [LawfulUcd] {k w : Str} (hk : k ∈ treeKeywords) (h : IsKeyword k w) : ¬ ∃ x ∈ w, isValidIdentChar x = false := by
  rintro ⟨x, hx, hv⟩
  have h1 := keyword_alnum hk h x hx
  simp only [isValidIdentChar, LawfulUcd.plain_alnum x (alnum_plain h1), h1, Bool.true_or] at hv
  cases hv

/-- Tokens that differ only in the spelling of the first words behind the glyphs. -/
inductive TokRel (K : Str → Str → Prop) : Bool → List Token → List Token → Prop where
  | nil {a} : TokRel K a [] []
  | glyph {a t l l'} : t.isBranch = true → TokRel K true l l' → TokRel K a (t :: l) (t :: l')
  | word {a t l l'} : t.isBranch = false → TokRel K false l l' → TokRel K a (t :: l) (t :: l')
  | keyword {s w w' l l'} : K w w' → TokRel K false l l' → TokRel K true (⟨wordKind w, s, w⟩ :: l) (⟨wordKind w', s, w'⟩ :: l')

theorem tokensOf_recased [LawfulUcd] {K : Str → Str → Prop} (hK : ∀ w w', K w w' → AnyCase w w') {a : Bool} {ps ps' : List Piece} (h : Recased K a ps ps') :
    ∀ {pre pre' : Str}, CaseEq pre pre' → TokRel K a (tokensOf pre ps) (tokensOf pre' ps') := by
  induction h with
  | nil => intro _ _ _; exact .nil
  | @gap a p _ _ hp _ ih =>
    intro pre pre' he
    cases p with
    | skip c => exact ih (caseEq_append he rfl)
    | brk c => exact ih (caseEq_append he rfl)
    | comment s => exact ih (caseEq_append he rfl)
    | tee => cases hp
    | corner => cases hp
    | word w => cases hp
  | @glyph a p _ _ hp _ ih =>
    intro pre pre' he
    cases p with
    | tee => simp only [tokensOf, caseEq_posOf he]; exact .glyph rfl (ih (caseEq_append he rfl))
    | corner => simp only [tokensOf, caseEq_posOf he]; exact .glyph rfl (ih (caseEq_append he rfl))
    | skip c => cases hp
    | brk c => cases hp
    | comment s => cases hp
    | word w => cases hp
  | @word a w _ _ _ ih =>
    intro pre pre' he
    simp only [tokensOf, caseEq_posOf he, caseEq_posOf (caseEq_append he (rfl : CaseEq w.dropLast _))]
    exact .word (word_not_branch w _ w) (ih (caseEq_append he rfl))
  | @keyword w w' _ _ hk _ ih =>
    intro pre pre' he
    obtain ⟨k, _, h1, h2⟩ := hK w w' hk
    have hw : CaseEq w w' := h1.trans h2.symm
    simp only [tokensOf, caseEq_posOf he, caseEq_posOf (caseEq_append he (caseEq_dropLast hw))]
    exact .keyword hk (ih (caseEq_append he hw))

theorem lexRun_recased [LawfulUcd] {K : Str → Str → Prop} (hK : ∀ w w', K w w' → AnyCase w w') {a : Bool} {ps ps' : List Piece} (h : Recased K a ps ps') :
    ∀ {toks toks' : List Token} {mode : Bool} {pre pre' : Str} {out : List Token}, toks.getLast?.map Token.isBranch = toks'.getLast?.map Token.isBranch →
      lexRun toks mode pre ps = .ok out → ∃ out', lexRun toks' mode pre' ps' = .ok out' := by
  induction h with
  | nil => intro toks toks' _ _ _ _ _ _; exact ⟨toks', rfl⟩
  | @gap a p _ _ hp _ ih =>
    intro toks toks' mode pre pre' out hl hr
    cases p with
    | skip c => exact ih hl hr
    | brk c => exact ih hl hr
    | comment s => exact ih hl hr
    | tee => cases hp
    | corner => cases hp
    | word w => cases hp
  | @glyph a p _ _ hp _ ih =>
    intro toks toks' mode pre pre' out hl hr
    cases p with
    | tee => exact ih (by simp [Token.isBranch]) hr
    | corner => exact ih (by simp [Token.isBranch]) hr
    | skip c => cases hp
    | brk c => cases hp
    | comment s => cases hp
    | word w => cases hp
  | @word a w _ _ _ ih =>
    intro toks toks' mode pre pre' out hl hr
    simp only [lexRun] at hr ⊢
    split at hr
    · cases hr
    · rename_i hn
      rw [if_neg hn, ← hl]
      exact ih (by simp [Token.isBranch]) hr
  | @keyword w w' _ _ hk _ ih =>
    intro toks toks' mode pre pre' out hl hr
    have hc := hK w w' hk
    have hkind := anyCase_kind hc
    obtain ⟨k, hk1, _, h2⟩ := hc
    simp only [lexRun] at hr ⊢
    split at hr
    · cases hr
    · rw [if_neg (fun h => keyword_valid hk1 h2 h.2), ← hl, ← hkind]
      exact ih (by simp [Token.isBranch]) hr

theorem tokenize_recased [LawfulUcd] {K : Str → Str → Prop} (hK : ∀ w w', K w w' → AnyCase w w') {b b' : Str} (h : RecasedText K b b') {toks : List Token}
    (ht : tokenize b = .ok toks) : ∃ toks', tokenize b' = .ok toks' ∧ TokRel K false toks toks' := by
  obtain ⟨ps, ps', h1, h2, h3⟩ := h
  have hr := ht
  rw [tokenize_eq_lexRun h1] at hr
  obtain ⟨out, ho⟩ := lexRun_recased hK h3 (toks' := []) (pre' := []) rfl hr
  rw [← tokenize_eq_lexRun h2] at ho
  refine ⟨out, ho, ?_⟩
  rw [tokenize_ok_tokensOf h1 ht, tokenize_ok_tokensOf h2 ho]
  exact tokensOf_recased hK h3 rfl

/-! ## Headers -/

/-- Headers that differ only in the spelling of their first words. -/
inductive HeadRel (K : Str → Str → Prop) : Header → Header → Prop where
  | same {h} : HeadRel K h h
  | keyword {g s w w' m} : K w w' → HeadRel K ⟨g, ⟨wordKind w, s, w⟩, m⟩ ⟨g, ⟨wordKind w', s, w'⟩, m⟩

theorem tokRel_words {K : Str → Str → Prop} {m l l' : List Token} (hm : ∀ t ∈ m, t.isBranch = false) (h : TokRel K false (m ++ l) l') :
    ∃ r, l' = m ++ r ∧ TokRel K false l r := by
  induction m generalizing l' with
  | nil => exact ⟨l', rfl, h⟩
  | cons t m ih =>
    rw [List.cons_append] at h
    cases h with
    | glyph hb _ => rw [hm t (by simp)] at hb; cases hb
    | word _ h =>
      obtain ⟨r, rfl, hr⟩ := ih (fun t ht => hm t (by simp [ht])) h
      exact ⟨r, rfl, hr⟩

theorem header_ok_tokens {h : Header} (hk : h.Ok) : h.glyph.isBranch = true ∧ ∀ t ∈ h.words, t.isBranch = false := by
  constructor
  · have := hk.1
    unfold TokenKind.isBranch at this
    unfold Token.isBranch
    split at this <;> simp_all
  · intro t ht
    have := hk.2 t ht
    unfold TokenKind.isWordLike at this
    unfold Token.isBranch
    split at this <;> simp_all

theorem flat_recased {K : Str → Str → Prop} {hs : List Header} (ho : ∀ h ∈ hs, h.Ok) : ∀ {l : List Token}, TokRel K false (flat hs) l →
    ∃ ps : List (Header × Header), hs = ps.map Prod.fst ∧ l = flat (ps.map Prod.snd) ∧ ∀ p ∈ ps, HeadRel K p.1 p.2 := by
  induction hs with
  | nil =>
    intro l h
    have e : flat [] = [] := rfl
    rw [e] at h
    cases h
    exact ⟨[], rfl, rfl, by simp⟩
  | cons h hs ih =>
    intro l hr
    have e0 : flat (h :: hs) = h.glyph :: h.first :: (h.more ++ flat hs) := by simp [flat, Header.toks]
    rw [e0] at hr
    obtain ⟨o1, o2⟩ := header_ok_tokens (ho h (by simp))
    have o3 : h.first.isBranch = false := o2 _ (by simp [Header.words])
    have o4 : ∀ t ∈ h.more, t.isBranch = false := fun t ht => o2 t (by simp [Header.words, ht])
    obtain ⟨g, f, m⟩ := h
    cases hr with
    | word hb _ => rw [show g.isBranch = true from o1] at hb; cases hb
    | glyph _ hr =>
      generalize hfl : flat hs = tl at hr
      cases hr with
      | glyph hb _ => rw [show f.isBranch = false from o3] at hb; cases hb
      | word _ hr =>
        obtain ⟨r, rfl, hr2⟩ := tokRel_words o4 hr
        subst hfl
        obtain ⟨ps, rfl, rfl, hp⟩ := ih (fun x hx => ho x (by simp [hx])) hr2
        refine ⟨(⟨g, f, m⟩, ⟨g, f, m⟩) :: ps, rfl, by simp [flat, Header.toks], ?_⟩
        intro p hp'
        rcases List.mem_cons.1 hp' with rfl | hp'
        · exact .same
        · exact hp p hp'
      | @keyword s w w' _ _ hk hr =>
        obtain ⟨r, rfl, hr2⟩ := tokRel_words o4 hr
        subst hfl
        obtain ⟨ps, rfl, rfl, hp⟩ := ih (fun x hx => ho x (by simp [hx])) hr2
        refine ⟨(⟨g, ⟨wordKind w, s, w⟩, m⟩, ⟨g, ⟨wordKind w', s, w'⟩, m⟩) :: ps, rfl, by simp [flat, Header.toks], ?_⟩
        intro p hp'
        rcases List.mem_cons.1 hp' with rfl | hp'
        · exact .keyword hk
        · exact hp p hp'

section
variable {K : Str → Str → Prop}

theorem HeadRel.glyph {h h' : Header} (r : HeadRel K h h') : h'.glyph = h.glyph := by cases r <;> rfl
theorem HeadRel.more {h h' : Header} (r : HeadRel K h h') : h'.more = h.more := by cases r <;> rfl
theorem HeadRel.span {h h' : Header} (r : HeadRel K h h') : h'.first.span = h.first.span := by cases r <;> rfl
theorem HeadRel.col {h h' : Header} (r : HeadRel K h h') : h'.col = h.col := by unfold Header.col; rw [r.glyph]
theorem HeadRel.kind [LawfulUcd] (hK : ∀ w w', K w w' → AnyCase w w') {h h' : Header} (r : HeadRel K h h') : h'.first.kind = h.first.kind := by
  cases r with
  | same => rfl
  | keyword hk => exact (anyCase_kind (hK _ _ hk)).symm

theorem HeadRel.endPos {h h' : Header} (r : HeadRel K h h') : h'.endPos = h.endPos := by
  unfold Header.endPos Header.words
  rw [r.glyph, r.more]
  cases h.more with
  | nil => simp [r.span]
  | cons t m => simp

theorem HeadRel.ok [LawfulUcd] (hK : ∀ w w', K w w' → AnyCase w w') {h h' : Header} (r : HeadRel K h h') (hk : h.Ok) : h'.Ok := by
  refine ⟨r.glyph ▸ hk.1, ?_⟩
  intro t ht
  unfold Header.words at ht
  rw [r.more] at ht
  rcases List.mem_cons.1 ht with rfl | ht
  · rw [r.kind hK]; exact hk.2 _ (by simp [Header.words])
  · exact hk.2 _ (by simp [Header.words, ht])

theorem anyCase_not_word [LawfulUcd] {w w' : Str} (h : AnyCase w w') : wordKind w ≠ .word := by
  obtain ⟨k, hk, h1, _⟩ := h
  rw [wordKind_eq]
  unfold kindOfWord
  rw [show w.map asciiLower = k from h1]
  have key : ∀ k ∈ treeKeywords, (if k = c!"when" then TokenKind.when else if k = c!"it" then .it else if k = c!"given" then .given else .word) ≠ .word := by decide
  exact key k hk

theorem HeadRel.plain [LawfulUcd] (hK : ∀ w w', K w w' → AnyCase w w') {h h' : Header} (r : HeadRel K h h') (hk : h.first.kind = .word) : h' = h := by
  cases r with
  | same => rfl
  | keyword h => exact absurd hk (anyCase_not_word (hK _ _ h))

/-- Titles that differ only in the spelling of their first words. -/
def TitleRel (Q : Str → Str → Prop) (t t' : Str) : Prop :=
  ∃ w w' x, t = w ++ x ∧ t' = w' ++ x ∧ Q w w' ∧ (x = [] ∨ ∃ r, x = ' ' :: r)

theorem title_split (h : Header) : ∃ x, h.title = h.first.lexeme ++ x ∧ (x = [] ∨ ∃ r, x = ' ' :: r) ∧
    ∀ f : Token, (⟨h.glyph, f, h.more⟩ : Header).title = f.lexeme ++ x := by
  obtain ⟨g, f, m⟩ := h
  cases m with
  | nil => exact ⟨[], by simp [Header.title, Header.words, joinSep], .inl rfl, by simp [Header.title, Header.words, joinSep]⟩
  | cons t m =>
    refine ⟨' ' :: joinSep c!" " ((t :: m).map (·.lexeme)), ?_, .inr ⟨_, rfl⟩, ?_⟩
    · simp [Header.title, Header.words, joinSep]
    · intro f'; simp [Header.title, Header.words, joinSep]

theorem HeadRel.title {h h' : Header} (r : HeadRel K h h') {Q : Str → Str → Prop} (hs : h' = h → Q h.first.lexeme h.first.lexeme)
    (hk : ∀ w w', h.first = ⟨wordKind w, h.first.span, w⟩ → K w w' → Q w w') : TitleRel Q h.title h'.title := by
  obtain ⟨x, e1, e2, e3⟩ := title_split h
  cases r with
  | same => exact ⟨_, _, x, e1, e1, hs rfl, e2⟩
  | @keyword g s w w' m k =>
    refine ⟨_, _, x, e1, e3 ⟨wordKind w', s, w'⟩, hk _ _ rfl k, e2⟩

end

/-! ## Nodes -/

/-- The spellings of `when` and `given` that may be exchanged. -/
def CondPair (w w' : Str) : Prop := FirstLetter w w' ∧ IsConditionWord w
/-- The spellings of `it` that may be exchanged. -/
def ItPair (K : Str → Str → Prop) (w w' : Str) : Prop := (w = w' ∨ K w w') ∧ IsKeyword c!"it" w ∧ IsKeyword c!"it" w'

/-- The same nodes up to the spelling of keywords. -/
inductive Likes (K : Str → Str → Prop) : List Ast → List Ast → Prop where
  | nil : Likes K [] []
  | condition {s t t' ks ks' l l'} : TitleRel CondPair t t' → Likes K ks ks' → Likes K l l' → Likes K (.condition s (sanitize t) ks :: l) (.condition s (sanitize t') ks' :: l')
  | action {s t t' ds l l'} : TitleRel (ItPair K) t t' → Likes K l l' → Likes K (.action s t ds :: l) (.action s t' ds :: l')

theorem likes_len {K : Str → Str → Prop} {l l' : List Ast} (h : Likes K l l') : l.length = l'.length := by
  induction h with
  | nil => rfl
  | condition _ _ _ _ ih => simp [ih]
  | action _ _ ih => simp [ih]

theorem likes_append {K : Str → Str → Prop} {a a' b b' : List Ast} (h : Likes K a a') (h' : Likes K b b') : Likes K (a ++ b) (a' ++ b') := by
  induction h with
  | nil => exact h'
  | condition t k _ _ ih => exact .condition t k ih
  | action t _ ih => exact .action t ih

/-- Facts about the tokens of tokenized texts: their kinds are those of their words. -/
def KindsRight (hs : List Header) : Prop := ∀ h ∈ hs, h.first.kind = wordKind h.first.lexeme

theorem ends_recased {K : Str → Str → Prop} {c : Nat} {ps : List (Header × Header)} (hr : ∀ p ∈ ps, HeadRel K p.1 p.2)
    (h : Ends c (ps.map Prod.fst)) : Ends c (ps.map Prod.snd) := by
  intro d r he
  cases ps with
  | nil => cases he
  | cons q ps =>
    simp only [List.map_cons, List.cons.injEq] at he
    rw [← he.1, (hr q (by simp)).col]
    exact h q.1 _ rfl

theorem nodeSpan_recased {K : Str → Str → Prop} {p : Header × Header} {ps : List (Header × Header)} (hp : HeadRel K p.1 p.2) (hr : ∀ q ∈ ps, HeadRel K q.1 q.2) :
    nodeSpan p.2 (ps.map Prod.snd) = nodeSpan p.1 (ps.map Prod.fst) := by
  unfold nodeSpan
  rw [hp.glyph, hp.endPos, List.getLast?_map, List.getLast?_map, Option.map_map, Option.map_map]
  cases h : ps.getLast? with
  | none => rfl
  | some q =>
    simp only [Option.map_some, Function.comp, Option.getD_some]
    rw [(hr q (List.mem_of_getLast? h)).endPos]

theorem kind_it [LawfulUcd] {w : Str} (h : wordKind w = .it) : IsKeyword c!"it" w := by
  rw [wordKind_eq] at h
  unfold kindOfWord at h
  unfold IsKeyword
  split at h
  · cases h
  · split at h
    · assumption
    · split at h <;> cases h

theorem cond_refl {w : Str} (h : IsConditionWord w) : CondPair w w := by
  refine ⟨?_, h⟩
  rcases h with h | h
  · exact ⟨_, by decide, h, h, rfl⟩
  · exact ⟨_, by decide, h, h, rfl⟩

theorem condition_not_it {w : Str} (h : IsConditionWord w) : ¬ IsKeyword c!"it" w := by
  intro h'
  unfold IsConditionWord IsKeyword at *
  rw [h'] at h
  exact absurd h (by decide)

theorem items_recased [LawfulUcd] {K : Str → Str → Prop} (hK : ∀ w w', K w w' → AnyIt w w') {c : Nat} {hs : List Header} {asts : List Ast} (h : Items c hs asts) :
    ∀ {ps : List (Header × Header)}, hs = ps.map Prod.fst → (∀ p ∈ ps, HeadRel K p.1 p.2) → KindsRight hs →
      ∃ asts', Items c (ps.map Prod.snd) asts' ∧ Likes K asts asts' := by
  have hK' : ∀ w w', K w w' → AnyCase w w' := fun w w' h => anyIt_anyCase (hK w w' h)
  induction h with
  | nil =>
    intro ps he _ _
    have : ps = [] := List.map_eq_nil_iff.1 he.symm
    subst this
    exact ⟨[], .nil, .nil⟩
  | condition hok hc hcond hm hsub hends hrest ih1 ih2 =>
    intro ps he ha hkr
    obtain ⟨p, ps', rfl, rfl, hm0⟩ := List.map_eq_cons_iff.1 he.symm
    obtain ⟨ps1, ps2, rfl, rfl, rfl⟩ := List.map_eq_append_iff.1 hm0
    have hp := ha p (by simp)
    obtain ⟨kids', hk, hke⟩ := ih1 rfl (fun q hq => ha q (by simp [hq])) (fun q hq => hkr q (by simp at hq ⊢; simp [hq]))
    obtain ⟨asts', hr, hre⟩ := ih2 rfl (fun q hq => ha q (by simp [hq])) (fun q hq => hkr q (by simp at hq ⊢; simp [hq]))
    refine ⟨.condition (nodeSpan p.2 (ps1.map Prod.snd)) (sanitize p.2.title) kids' :: asts', ?_, ?_⟩
    · simp only [List.map_cons, List.map_append]
      refine .condition (hp.ok hK' hok) (hp.col ▸ hc) ?_ (hp.more ▸ hm) (hp.col ▸ hk) (hp.col ▸ ends_recased (fun q hq => ha q (by simp [hq])) hends) hr
      unfold Header.isCondition
      rw [hp.kind hK']; exact hcond
    · rw [nodeSpan_recased hp (fun q hq => ha q (by simp [hq]))]
      refine .condition (hp.title ?_ ?_) hke hre
      · intro _
        have : wordKind p.1.first.lexeme = .when ∨ wordKind p.1.first.lexeme = .given := by
          rw [← hkr p.1 (by simp)]; exact hcond
        exact cond_refl ((wordKind_condition _).1 this)
      · intro w w' e k
        have hc' : IsConditionWord w := by
          refine (wordKind_condition _).1 ?_
          have : p.1.first.kind = wordKind w := by rw [e]
          rw [← this]; exact hcond
        rcases hK _ _ k with k | ⟨k, _⟩
        · exact ⟨k, hc'⟩
        · exact absurd k (condition_not_it hc')
  | action hok hc hact hsub hends hrest ih =>
    intro ps he ha hkr
    obtain ⟨p, ps', rfl, rfl, hm0⟩ := List.map_eq_cons_iff.1 he.symm
    obtain ⟨ps1, ps2, rfl, rfl, rfl⟩ := List.map_eq_append_iff.1 hm0
    have hp := ha p (by simp)
    obtain ⟨asts', hr, hre⟩ := ih rfl (fun q hq => ha q (by simp [hq])) (fun q hq => hkr q (by simp at hq ⊢; simp [hq]))
    have hplain : ∀ q ∈ ps1, q.2 = q.1 := fun q hq => (ha q (by simp [hq])).plain hK' (hsub q.1 (List.mem_map_of_mem hq)).2.2
    have hd : (ps1.map Prod.snd).map (descAst p.2) = (ps1.map Prod.fst).map (descAst p.1) := by
      rw [List.map_map, List.map_map]
      apply List.map_congr_left
      intro q hq
      simp only [Function.comp, hplain q hq, descAst, hp.col]
    refine ⟨.action (nodeSpan p.2 (ps1.map Prod.snd)) p.2.title ((ps1.map Prod.snd).map (descAst p.2)) :: asts', ?_, ?_⟩
    · simp only [List.map_cons, List.map_append]
      refine .action (hp.ok hK' hok) (hp.col ▸ hc) ?_ ?_ (hp.col ▸ ends_recased (fun q hq => ha q (by simp [hq])) hends) hr
      · unfold Header.isAction
        rw [hp.kind hK']; exact hact
      · intro d hd
        obtain ⟨q, hq, rfl⟩ := List.mem_map.1 hd
        rw [hplain q hq, hp.col]
        exact hsub q.1 (List.mem_map_of_mem hq)
    · rw [nodeSpan_recased hp (fun q hq => ha q (by simp [hq])), hd]
      refine .action (hp.title ?_ ?_) hre
      · intro _
        have : wordKind p.1.first.lexeme = .it := by rw [← hkr p.1 (by simp)]; exact hact
        exact ⟨.inl rfl, kind_it this, kind_it this⟩
      · intro w w' e k
        have hw : wordKind w = .it := by
          have : p.1.first.kind = wordKind w := by rw [e]
          rw [← this]; exact hact
        exact ⟨.inr k, kind_it hw, kind_it ((anyCase_kind (hK' _ _ k)).symm.trans hw)⟩

theorem rootItems_recased [LawfulUcd] {K : Str → Str → Prop} (hK : ∀ w w', K w w' → AnyIt w w') {hs : List Header} {asts : List Ast} (h : RootItems hs asts) :
    ∀ {ps : List (Header × Header)}, hs = ps.map Prod.fst → (∀ p ∈ ps, HeadRel K p.1 p.2) → KindsRight hs →
      ∃ asts', RootItems (ps.map Prod.snd) asts' ∧ Likes K asts asts' := by
  induction h with
  | nil =>
    intro ps he _ _
    have : ps = [] := List.map_eq_nil_iff.1 he.symm
    subst this
    exact ⟨[], .nil, .nil⟩
  | item hi hends hg hr ih =>
    intro ps he ha hkr
    obtain ⟨p, ps', rfl, rfl, hm0⟩ := List.map_eq_cons_iff.1 he.symm
    obtain ⟨ps1, ps2, rfl, rfl, rfl⟩ := List.map_eq_append_iff.1 hm0
    have hp := ha p (by simp)
    obtain ⟨as, hi', hie⟩ := items_recased hK hi (ps := p :: ps1) rfl (fun q hq => ha q (by
      rcases List.mem_cons.1 hq with rfl | hq <;> simp [*])) (fun q hq => hkr q (by
      simp only [List.mem_cons, List.mem_append] at hq ⊢; rcases hq with rfl | hq <;> simp [*]))
    obtain ⟨asts', hr', hre⟩ := ih rfl (fun q hq => ha q (by simp [hq])) (fun q hq => hkr q (by simp at hq ⊢; simp [hq]))
    obtain ⟨a', rfl⟩ := List.length_eq_one_iff.1 (likes_len hie).symm
    refine ⟨a' :: asts', ?_, likes_append hie hre⟩
    simp only [List.map_cons, List.map_append]
    refine .item hi' (hp.col ▸ ends_recased (fun q hq => ha q (by simp [hq])) hends) ?_ hr'
    rw [hp.glyph, hg]
    simp

end
end Bulloak
