import Verif.Lemmas.Recase
/-!
# Keywords in upper and lower case: C120
-/

namespace Bulloak
open Spec
set_option linter.unusedSectionVars false

section
variable [U : Ucd]

/-! ## Trees -/

theorem tokensOf_kinds (ps : List Piece) : ∀ pre, ∀ t ∈ tokensOf pre ps, t.isBranch = true ∨ t.kind = wordKind t.lexeme := by
  induction ps with
  | nil => intro pre t ht; simp [tokensOf] at ht
  | cons p ps ih =>
    intro pre t ht
    cases p with
    | skip c => exact ih _ t ht
    | brk c => exact ih _ t ht
    | comment s => exact ih _ t ht
    | tee =>
      simp only [tokensOf, List.mem_cons] at ht
      rcases ht with rfl | ht
      · exact .inl rfl
      · exact ih _ t ht
    | corner =>
      simp only [tokensOf, List.mem_cons] at ht
      rcases ht with rfl | ht
      · exact .inl rfl
      · exact ih _ t ht
    | word w =>
      simp only [tokensOf, List.mem_cons] at ht
      rcases ht with rfl | ht
      · exact .inr rfl
      · exact ih _ t ht

theorem tree_recased [LawfulUcd] {K : Str → Str → Prop} (hK : ∀ w w', K w w' → AnyIt w w') {toks toks' : List Token} {ast : Ast} (h : Tree toks ast)
    (hr : TokRel K false toks toks') (hk : ∀ t ∈ toks, t.isBranch = true ∨ t.kind = wordKind t.lexeme) :
    ∃ ast', Tree toks' ast' ∧ titleOf ast' = titleOf ast ∧ Likes K (kids ast) (kids ast') := by
  obtain ⟨root, hs, ks, rfl, hw, hi, rfl⟩ := h
  have hok := rootItems_ok hi
  have hkinds : KindsRight hs := by
    intro h hh
    have hb := (header_ok_tokens (hok h hh)).2 h.first (by simp [Header.words])
    refine (hk h.first ?_).resolve_left (by simp [hb])
    refine List.mem_cons_of_mem _ (List.mem_flatMap.2 ⟨h, hh, ?_⟩)
    simp [Header.toks]
  generalize hfl : flat hs = tl at hr
  cases hr with
  | glyph hb _ => simp [Token.isBranch, hw] at hb
  | word _ hr =>
    subst hfl
    obtain ⟨ps, rfl, rfl, hp⟩ := flat_recased hok hr
    obtain ⟨ks', h1, h2⟩ := rootItems_recased hK hi rfl hp hkinds
    exact ⟨_, ⟨root, _, ks', rfl, hw, h1, rfl⟩, rfl, h2⟩

/-! ## Names -/

theorem first_words [LawfulUcd] {t t' : Str} (h : TitleRel FirstLetter t t') :
    ∃ a b v ws, asciiLower a = asciiLower b ∧ isAsciiAlnum a = true ∧ isAsciiAlnum b = true ∧
      splitWs (sanitize t) = (a :: v) :: ws ∧ splitWs (sanitize t') = (b :: v) :: ws := by
  obtain ⟨w, w', x, rfl, rfl, ⟨k, hk, h1, h2, h3⟩, hx⟩ := h
  have a1 := keyword_alnum hk h1
  have a2 := keyword_alnum hk h2
  have n1 := keyword_ne hk h1
  have n2 := keyword_ne hk h2
  have split : ∀ {w : Str}, w ≠ [] → (∀ c ∈ w, isAsciiAlnum c = true) → splitWs (sanitize (w ++ x)) = w :: splitWs (sanitize x) := by
    intro w hn ha
    rw [sanitize_append, sanitize_alnum ha]
    rcases hx with rfl | ⟨r, rfl⟩
    · have : sanitize [] = [] := rfl
      rw [this, List.append_nil]
      have h0 := words_iff.1 (Words.word (w := w) (s := []) (ws := []) hn (fun c hc => alnum_not_ws (ha c hc)) (.inl rfl) .nil)
      rw [List.append_nil] at h0
      rw [h0]; rfl
    · rw [sanitize_space, splitWs_word_cons hn (fun c hc => alnum_not_ws (ha c hc))]
      have : splitWs (' ' :: sanitize r) = splitWs (sanitize r) := words_iff.1 (.skip (by decide) (words_splitWs _))
      rw [this]
  obtain ⟨a, v, rfl⟩ := List.exists_cons_of_ne_nil n1
  obtain ⟨b, v', rfl⟩ := List.exists_cons_of_ne_nil n2
  simp only [List.tail_cons] at h3
  subst h3
  have e : asciiLower a = asciiLower b := by
    have := h1.trans h2.symm
    simp only [List.map_cons, List.cons.injEq] at this
    exact this.1
  exact ⟨a, b, v, _, e, a1 a (by simp), a2 b (by simp), split n1 a1, split n2 a2⟩

theorem cond_words [LawfulUcd] {t t' : Str} (h : TitleRel CondPair t t') :
    ∃ a b v ws, asciiLower a = asciiLower b ∧ isAsciiAlnum a = true ∧ isAsciiAlnum b = true ∧
      splitWs (sanitize t) = (a :: v) :: ws ∧ splitWs (sanitize t') = (b :: v) :: ws := by
  obtain ⟨w, w', x, e1, e2, h1, hx⟩ := h
  exact first_words ⟨w, w', x, e1, e2, h1.1, hx⟩

theorem upper_of_lower {a b : Char} (h : asciiLower a = asciiLower b) : asciiUpper a = asciiUpper b := by
  have n : ∀ {x y : Char}, x.toNat = y.toNat → x = y := fun h => Char.ext (UInt32.toNat_inj.1 h)
  apply n
  have h' := congrArg Char.toNat h
  rcases asciiLower_cases a with ⟨h1, h2⟩ | ⟨h1, h2⟩ <;> rcases asciiLower_cases b with ⟨h3, h4⟩ | ⟨h3, h4⟩ <;>
    rcases asciiUpper_cases a with ⟨h5, h6⟩ | ⟨h5, h6⟩ <;> rcases asciiUpper_cases b with ⟨h7, h8⟩ | ⟨h7, h8⟩ <;>
    simp only [h2, h4] at h' <;> simp only [h6, h8] <;> omega

theorem capital_same [LawfulUcd] {a b : Char} {v : Str} (h : asciiLower a = asciiLower b) (ha : isAsciiAlnum a = true) (hb : isAsciiAlnum b = true) :
    capital (a :: v) = capital (b :: v) := by
  simp only [capital, LawfulUcd.plain_upper a (alnum_plain ha), LawfulUcd.plain_upper b (alnum_plain hb), upper_of_lower h]

theorem pascal_first [LawfulUcd] {t t' : Str} (h : TitleRel FirstLetter t t') : pascal (sanitize t') = pascal (sanitize t) := by
  obtain ⟨a, b, v, ws, h1, h2, h3, h4, h5⟩ := first_words h
  simp only [pascal, h4, h5, glue, List.map_cons, capital_same h1 h2 h3]

theorem pascal_same [LawfulUcd] {t t' : Str} (h : TitleRel CondPair t t') : pascal (sanitize t') = pascal (sanitize t) := by
  obtain ⟨w, w', x, e1, e2, h1, hx⟩ := h
  exact pascal_first ⟨w, w', x, e1, e2, h1.1, hx⟩

theorem modName_same [LawfulUcd] (s s' : Span) {t t' : Str} (ks ks' : List Ast) (h : TitleRel CondPair t t') :
    modName (.condition s' (sanitize t') ks') = modName (.condition s (sanitize t) ks) := by
  simp only [modName, titleOf, camel, pascal_same h]

theorem trim_word {w x : Str} (hn : w ≠ []) (hw : ∀ c ∈ w, isWs c = false) : trim (w ++ x) = w ++ trimEnd x := by
  unfold trim
  have h1 : trimStart (w ++ x) = w ++ x := by
    cases w with
    | nil => exact absurd rfl hn
    | cons c w => simp [trimStart, List.dropWhile_cons, hw c (by simp)]
  rw [h1]
  unfold trimEnd
  rw [List.reverse_append, List.dropWhile_append]
  have h2 : w.reverse.dropWhile isWs = w.reverse := by
    cases h : w.reverse with
    | nil => rfl
    | cons c r =>
      have : c ∈ w := by rw [← List.mem_reverse, h]; simp
      rw [List.dropWhile_cons_of_neg (by simp [hw c this])]
  split
  · rename_i he
    rw [List.isEmpty_iff] at he
    rw [he, h2]; simp
  · simp

theorem lower_it [LawfulUcd] {w : Str} (h : IsKeyword c!"it" w) : strToLower w = c!"it" := (strToLower_eq_iff c!"it" w (by decide) (by decide)).2 h

theorem revert_same [LawfulUcd] {K : Str → Str → Prop} (s s' : Span) {t t' : Str} (ds ds' : List Ast) (h : TitleRel (ItPair K) t t') :
    revertAction (.action s' t' ds') = revertAction (.action s t ds) := by
  obtain ⟨w, w', x, rfl, rfl, ⟨_, h1, h2⟩, hx⟩ := h
  have low : ∀ {w : Str}, IsKeyword c!"it" w → strToLower (trim (w ++ x)) = c!"it" ++ strToLower (trimEnd x) := by
    intro w hw
    rw [trim_word (keyword_ne it_mem hw) (fun c hc => alnum_not_ws (keyword_alnum it_mem hw c hc))]
    rw [← lower_it hw]
    simp [strToLower]
  simp only [revertAction, titleOf, low h1, low h2]

theorem topName_same {K : Str → Str → Prop} {t t' : Str} (h : TitleRel (ItPair K) t t') : (splitWs t').drop 1 = (splitWs t).drop 1 := by
  obtain ⟨w, w', x, rfl, rfl, ⟨_, h1, h2⟩, hx⟩ := h
  have split : ∀ {w : Str}, IsKeyword c!"it" w → (splitWs (w ++ x)).drop 1 = splitWs x := by
    intro w hw
    have hn := keyword_ne it_mem hw
    have ha : ∀ c ∈ w, isWs c = false := fun c hc => alnum_not_ws (keyword_alnum it_mem hw c hc)
    rcases hx with rfl | ⟨r, rfl⟩
    · rw [words_iff.1 (Words.word (w := w) (s := []) (ws := []) hn ha (.inl rfl) .nil)]; rfl
    · rw [splitWs_word_cons hn ha]
      exact (words_iff.1 (Words.skip (by decide) (words_splitWs r))).symm
  rw [split h1, split h2]

/-! ## Functions -/

section
variable {K : Str → Str → Prop}

theorem likes_any {l l' : List Ast} (h : Likes K l l') : l'.any Ast.isCondition = l.any Ast.isCondition := by
  induction h with
  | nil => rfl
  | condition => simp [Ast.isCondition]
  | action _ _ ih => simp [Ast.isCondition, ih]

theorem likes_leads [LawfulUcd] {l l' : List Ast} (h : Likes K l l') : leadsWith l = leadsWith l' := by
  unfold leadsWith
  induction h with
  | nil => rfl
  | condition _ _ _ _ ih => simpa [Ast.isAction] using ih
  | @action s _ _ ds _ _ ht _ ih =>
    rw [List.filter_cons_of_pos (by rfl), List.filter_cons_of_pos (by rfl)]
    simp only [List.head?_cons, Option.map_some, revert_same s s ds ds ht]

theorem condFns_likes [LawfulUcd] {skip : Bool} {encl encl' : List Ast} (he : encl'.map modName = encl.map modName) {s : Span} {t t' : Str}
    {ks ks' : List Ast} (ht : TitleRel CondPair t t') (h : Likes K ks ks') :
    Each BodyCommentsOnly (condFns skip (encl, .condition s (sanitize t) ks)) (condFns skip (encl', .condition s (sanitize t') ks')) := by
  unfold condFns
  have hf := likes_leads h
  have hn : hasNested (Ast.condition s (sanitize t') ks') = hasNested (Ast.condition s (sanitize t) ks) := likes_any h
  apply each_append
  · simp only [hn]
    split
    · exact .cons ⟨by simp only [nameOf, modFn, modName_same s s ks ks' ht], rfl, rfl⟩ .nil
    · exact .nil
  · by_cases ha : actionsOf (Ast.condition s (sanitize t) ks) = []
    · have ha' : actionsOf (Ast.condition s (sanitize t') ks') = [] := leads_none.1 (hf.symm.trans (leads_none.2 ha))
      rw [if_pos ha, if_pos ha']
      exact .nil
    · have ha' : actionsOf (Ast.condition s (sanitize t') ks') ≠ [] := fun h => ha (leads_none.1 (hf.trans (leads_none.2 h)))
      rw [if_neg ha, if_neg ha']
      refine .cons ⟨?_, ?_, ?_⟩ .nil
      · obtain ⟨a, b, v, ws, h1, h2, h3, h4, h5⟩ := cond_words ht
        simp only [nameOf, condFn, testName, titleOf, leads_reverts (s := s) (s' := s) (t := sanitize t) (t' := sanitize t') hf, h4, h5, capital_same h1 h2 h3, glue,
          List.map_cons]
      · simp only [condFn, guards, List.map_append, he, hn]
        split
        · simp only [List.map_cons, List.map_nil, modName_same s s ks ks' ht]
        · rfl
      · simp only [condFn, Option.getD_some, body_code]

theorem inScopeAll_likes [LawfulUcd] {skip : Bool} {l l' : List Ast} (h : Likes K l l') : ∀ {encl encl' : List Ast}, encl'.map modName = encl.map modName →
    Each BodyCommentsOnly ((inScopeAll encl l).flatMap (condFns skip)) ((inScopeAll encl' l').flatMap (condFns skip)) := by
  induction h with
  | nil => intro _ _ _; exact .nil
  | action _ _ ih =>
    intro encl encl' he
    rw [inScopeAll.eq_2, inScopeAll.eq_2]
    simp only [inScope, List.nil_append]
    exact ih he
  | @condition s _ _ ks ks' _ _ ht hk _ ihk ihl =>
    intro encl encl' he
    rw [inScopeAll.eq_2, inScopeAll.eq_2]
    simp only [inScope, List.cons_append, List.flatMap_cons, List.flatMap_append]
    refine each_append (condFns_likes he ht hk) (each_append (ihk ?_) (ihl he))
    simp only [List.map_append, he, List.map_cons, List.map_nil, modName_same s s ks ks' ht]

theorem expected_likes [LawfulUcd] {skip : Bool} {l l' : List Ast} (h : Likes K l l') : Each BodyCommentsOnly (expected skip l) (expected skip l') := by
  induction h with
  | nil => exact .nil
  | action ht _ ih =>
    unfold expected at ih ⊢
    rw [List.flatMap_cons, List.flatMap_cons]
    refine each_append ?_ ih
    simp only [Ast.isAction, if_true]
    refine .cons ⟨?_, rfl, ?_⟩ .nil
    · simp only [nameOf, actFn, titleOf, topName_same ht]
    · simp only [actFn, Option.getD_some, body_code]
  | @condition s _ _ ks ks' _ _ ht hk _ _ ih =>
    unfold expected at ih ⊢
    rw [List.flatMap_cons, List.flatMap_cons]
    refine each_append ?_ ih
    simp only [Ast.isAction, Bool.false_eq_true, if_false, inScope, List.flatMap_cons]
    refine each_append (condFns_likes rfl ht hk) (inScopeAll_likes hk ?_)
    simp only [List.nil_append, List.map_cons, List.map_nil, modName_same s s ks ks' ht]

/-! ## Acceptance -/

theorem likes_preAll {l l' : List Ast} (h : Likes K l l') : (∀ c ∈ conditionsOf l, kids c ≠ []) → ∀ c ∈ conditionsOf l', kids c ≠ [] := by
  have hd : ∀ {s : Span} {t : Str} {ds : List Ast} {l}, conditionsOf (.action s t ds :: l) = conditionsOf ds ++ conditionsOf l := by
    intro s t ds l
    simp [conditionsOf, preAll, pre, Ast.isCondition]
  have hc : ∀ {s : Span} {t : Str} {ks : List Ast} {l}, conditionsOf (.condition s t ks :: l) = .condition s t ks :: (conditionsOf ks ++ conditionsOf l) := by
    intro s t ks l
    simp only [conditionsOf, preAll, pre, List.cons_append, List.filter_append]
    rw [List.filter_cons_of_pos (by rfl), List.filter_append]
  induction h with
  | nil => exact id
  | action _ _ ih =>
    intro h c hc'
    rw [hd] at h hc'
    rcases List.mem_append.1 hc' with hc' | hc'
    · exact h c (List.mem_append_left _ hc')
    · exact ih (fun d hd => h d (List.mem_append_right _ hd)) c hc'
  | @condition _ _ _ ks ks' _ _ _ hk _ ih1 ih2 =>
    intro h c hc'
    rw [hc] at h hc'
    rcases List.mem_cons.1 hc' with rfl | hc'
    · intro he
      have := h _ (List.mem_cons_self ..)
      have hl := likes_len hk
      simp only [kids] at he this
      rw [he] at hl
      exact this (List.length_eq_zero_iff.1 hl)
    · rcases List.mem_append.1 hc' with hc' | hc'
      · exact ih1 (fun d hd => h d (List.mem_cons_of_mem _ (List.mem_append_left _ hd))) c hc'
      · exact ih2 (fun d hd => h d (List.mem_cons_of_mem _ (List.mem_append_right _ hd))) c hc'

end

theorem it_ident [LawfulUcd] {s s' : Span} {ds ds' : List Ast} {t t' : Str} (h : TitleRel (ItPair FirstLetter) t t') : identOf (.action s' t' ds') = identOf (.action s t ds) := by
  obtain ⟨w, w', x, rfl, rfl, ⟨h0, h1, h2⟩, hx⟩ := h
  simp only [identOf, titleOf]
  rcases h0 with rfl | h0
  · rfl
  · rw [toPascal_eq, toPascal_eq, pascal_first ⟨w, w', x, rfl, rfl, h0, hx⟩]

theorem cond_ident [LawfulUcd] {s s' : Span} {ks ks' : List Ast} {t t' : Str} (h : TitleRel CondPair t t') : identOf (.condition s' (sanitize t') ks') = identOf (.condition s (sanitize t) ks) := by
  simp only [identOf, titleOf]
  rw [sanitize_idem, sanitize_idem, toPascal_eq, toPascal_eq, pascal_same h]

theorem likes_conditions [LawfulUcd] {K : Str → Str → Prop} {l l' : List Ast} (h : Likes K l l') : (conditionsOf l').map identOf = (conditionsOf l).map identOf := by
  induction h with
  | nil => rfl
  | action _ _ ih =>
    simp only [conditionsOf, preAll, pre, List.cons_append, List.filter_append, List.map_append] at ih ⊢
    rw [List.filter_cons_of_neg (by simp [Ast.isCondition]), List.filter_cons_of_neg (by simp [Ast.isCondition])]
    simp only [List.filter_append, List.map_append, ih]
  | @condition s _ _ ks ks' _ _ ht _ _ ih1 ih2 =>
    simp only [conditionsOf, preAll, pre, List.cons_append, List.filter_append, List.map_append] at ih1 ih2 ⊢
    rw [List.filter_cons_of_pos (by rfl), List.filter_cons_of_pos (by rfl)]
    simp only [List.filter_append, List.map_append, List.map_cons, ih1, ih2, cond_ident (s := s) (ks := ks) ht]

theorem likes_named [LawfulUcd] {l l' : List Ast} (h : Likes FirstLetter l l') : (named l').map identOf = (named l).map identOf := by
  unfold named
  induction h with
  | nil => rfl
  | @action s _ _ ds _ _ ht _ ih =>
    rw [List.flatMap_cons, List.flatMap_cons, List.map_append, List.map_append, ih]
    congr 1
    exact congrArg (fun x => [x]) (it_ident ht)
  | condition ht hk _ _ ih =>
    rw [List.flatMap_cons, List.flatMap_cons, List.map_append, List.map_append, ih]
    congr 1
    exact likes_conditions (.condition ht hk .nil)

theorem sound_likes [LawfulUcd] {a a' : Ast} (h : Likes FirstLetter (kids a) (kids a')) (hs : Sound a) : Sound a' := by
  obtain ⟨h1, h2, h3⟩ := hs
  refine ⟨?_, likes_preAll h h2, by rw [likes_named h]; exact h3⟩
  intro he
  have := likes_len h
  rw [he] at this
  exact h1 (List.length_eq_zero_iff.1 this)

/-! ## Texts -/

/-- The tree of a respelled text. -/
theorem parseTokens_recased [LawfulUcd] {K : Str → Str → Prop} (hK : ∀ w w', K w w' → AnyIt w w') {b b' : Str} (h : RecasedText K b b') {toks : List Token} {ast : Ast}
    (ht : tokenize b = .ok toks) (hp : parseTokens toks = .ok ast) :
    ∃ toks' ast', tokenize b' = .ok toks' ∧ parseTokens toks' = .ok ast' ∧ titleOf ast' = titleOf ast ∧ Likes K (kids ast) (kids ast') := by
  obtain ⟨toks', h1, h2⟩ := tokenize_recased (fun w w' h => anyIt_anyCase (hK w w' h)) h ht
  have hk : ∀ t ∈ toks, t.isBranch = true ∨ t.kind = wordKind t.lexeme := by
    obtain ⟨ps, hl⟩ := lexes_exists b
    rw [tokenize_ok_tokensOf hl ht]
    exact tokensOf_kinds ps []
  obtain ⟨ast', h3, h4, h5⟩ := tree_recased hK ((parseTokens_iff (tokenize_col ht) ast).1 hp) h2 hk
  exact ⟨toks', ast', h1, (parseTokens_iff (tokenize_col h1) ast').2 h3, h4, h5⟩

theorem likes_functions [LawfulUcd] {K : Str → Str → Prop} {a a' : Ast} (h1 : titleOf a' = titleOf a) (h2 : Likes K (kids a) (kids a')) : SameFunctions a a' :=
  ⟨h1.symm, fun _ => expected_likes h2⟩

theorem parseOne_first [LawfulUcd] {order : HashOrder} (ho : ∀ l, (order l).Perm l) {b b' : Str} (h : RecasedText FirstLetter b b') {ast : Ast}
    (hp : parseOne order b = .ok ast) : ∃ ast', parseOne order b' = .ok ast' ∧ SameFunctions ast ast' := by
  obtain ⟨toks, h1, h2, _⟩ := parseOne_ok hp
  obtain ⟨toks', ast', h3, h4, h5, h6⟩ := parseTokens_recased (fun _ _ => firstLetter_anyIt) h h1 h2
  exact ⟨ast', (C14_accepted_iff ho h3 h4).2 (sound_likes h6 ((C14_accepted_iff ho h1 h2).1 hp)), likes_functions h5 h6⟩

theorem parse_first [LawfulUcd] {order : HashOrder} (ho : ∀ l, (order l).Perm l) {bs bs' : List Str} (h : Each (RecasedText FirstLetter) bs bs') :
    ∀ {asts : List Ast}, Each (fun b a => parseOne order b = .ok a) bs asts →
      ∃ asts', Each (fun b a => parseOne order b = .ok a) bs' asts' ∧ Each SameFunctions asts asts' := by
  induction h with
  | nil => intro asts hp; cases hp; exact ⟨[], .nil, .nil⟩
  | cons h1 _ ih =>
    intro asts hp
    cases hp with
    | cons hp1 hp2 =>
      obtain ⟨a', h2, h3⟩ := parseOne_first ho h1 hp1
      obtain ⟨as', h4, h5⟩ := ih hp2
      exact ⟨a' :: as', .cons h2 h4, .cons h3 h5⟩

/-- **C120**, first letters: changing the case of the first letters of keywords changes neither whether a file is accepted nor anything but comments in the generated contract. -/
theorem C120_first_letter [LawfulUcd] {order : HashOrder} (ho : ∀ l, (order l).Perm l) {text text' : Str} {bs bs' : List Str} (hb : Trees text bs)
    (hb' : Trees text' bs') (h : Each (RecasedText FirstLetter) bs bs') (cfg : Config) :
    (∃ n fns fns', translate order cfg text = .ok ⟨[⟨n, fns⟩]⟩ ∧ translate order cfg text' = .ok ⟨[⟨n, fns'⟩]⟩ ∧ Each BodyCommentsOnly fns fns') ∨
    ∃ e e', translate order cfg text = .err e ∧ translate order cfg text' = .err e' := by
  have hs := split_trees hb
  have hs' := split_trees hb'
  have rej : ∀ {text}, (∀ asts, parse order text ≠ .ok asts) → ∃ e, translate order cfg text = .err e := by
    intro text h
    cases ht : translate order cfg text with
    | err e => exact ⟨e, rfl⟩
    | panic => exact absurd ht (C57_translate_never_panics _ _ _)
    | ok r =>
      cases hp : parse order text with
      | ok asts => exact absurd hp (h asts)
      | err e => simp [translate, hp, Res.mapErr] at ht
      | panic => simp [translate, hp, Res.mapErr] at ht
  by_cases hp : ∃ asts, parse order text = .ok asts
  · obtain ⟨asts, hp⟩ := hp
    obtain ⟨asts', h1, h2⟩ := parse_first ho (hs ▸ hs' ▸ h) ((C13_parse_ok order text asts).1 hp)
    exact functions_same hp ((C13_parse_ok order text' asts').2 h1) h2 cfg
  · obtain ⟨e, h1⟩ := rej (text := text) (fun asts ha => hp ⟨asts, ha⟩)
    obtain ⟨e', h2⟩ := rej (text := text') (fun asts' ha => hp (by
      obtain ⟨asts, h1, _⟩ := parse_first ho (each_symm (R := RecasedText FirstLetter) (fun _ _ => recasedText_symm (fun _ _ => firstLetter_symm)) (hs ▸ hs' ▸ h)) ((C13_parse_ok order text' asts').1 ha)
      exact ⟨asts, (C13_parse_ok order text asts).2 h1⟩))
    exact .inr ⟨e, e', h1, h2⟩

/-- **C120**, commands: `check` without `--fix` has the same exit code, if first letters of keywords in any of the trees are changed between upper and lower case and the Solidity
files are left alone. -/
theorem C120_exit [LawfulUcd] {env : Env} (ho : ∀ l, (env.order l).Perm l) {a : CheckArgs} {fs fs' : Fs} (hf : a.fix = false)
    (hs : ∀ t ∈ a.files, ∀ p, SolOf t p → fs'.state p = fs.state p)
    (ht : ∀ t ∈ a.files, fs'.state t = fs.state t ∨ ∃ text text' bs bs', fs.state t = .text text ∧ fs'.state t = .text text' ∧
      Trees text bs ∧ Trees text' bs' ∧ Each (RecasedText FirstLetter) bs bs') :
    (checkRun env a fs').exit = (checkRun env a fs).exit :=
  exit_same hf hs (fun t h => (ht t h).imp_right (fun ⟨x, x', _, _, h1, h2, h3, h4, h5⟩ => ⟨x, x', h1, h2, C120_first_letter ho h3 h4 h5⟩))

theorem parse_any [LawfulUcd] {order : HashOrder} {bs bs' : List Str} (h : Each (RecasedText AnyIt) bs bs') :
    ∀ {asts asts' : List Ast}, Each (fun b a => parseOne order b = .ok a) bs asts → Each (fun b a => parseOne order b = .ok a) bs' asts' → Each SameFunctions asts asts' := by
  induction h with
  | nil => intro asts asts' hp hp'; cases hp; cases hp'; exact .nil
  | cons h1 _ ih =>
    intro asts asts' hp hp'
    cases hp with
    | cons hp1 hp2 =>
      cases hp' with
      | cons hp1' hp2' =>
        obtain ⟨toks, k1, k2, _⟩ := parseOne_ok hp1
        obtain ⟨toks', ast', h3, h4, h5, h6⟩ := parseTokens_recased (fun _ _ h => h) h1 k1 k2
        obtain ⟨toks'', l1, l2, _⟩ := parseOne_ok hp1'
        rw [h3] at l1
        cases l1
        rw [h4] at l2
        cases l2
        exact .cons (likes_functions h5 h6) (ih hp2 hp2')

/-- **C120**, `it`: as long as both files are accepted, `it` can be written in any mixture of upper and lower case, and `when` and `given` with a capital or small first letter,
without changing anything but comments in the generated contract. -/
theorem C120_it_partial [LawfulUcd] {order : HashOrder} {text text' : Str} {bs bs' : List Str} (hb : Trees text bs)
    (hb' : Trees text' bs') (h : Each (RecasedText AnyIt) bs bs') {asts asts' : List Ast} (hp : parse order text = .ok asts) (hp' : parse order text' = .ok asts') (cfg : Config) :
    (∃ n fns fns', translate order cfg text = .ok ⟨[⟨n, fns⟩]⟩ ∧ translate order cfg text' = .ok ⟨[⟨n, fns'⟩]⟩ ∧ Each BodyCommentsOnly fns fns') ∨
    ∃ e e', translate order cfg text = .err e ∧ translate order cfg text' = .err e' :=
  functions_same hp hp' (parse_any (split_trees hb ▸ split_trees hb' ▸ h) ((C13_parse_ok order text asts).1 hp) ((C13_parse_ok order text' asts').1 hp')) cfg

end
end Bulloak
