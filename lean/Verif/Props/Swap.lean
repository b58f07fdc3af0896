import Verif.Lemmas.Swap
/-!
# Exchanging `when` and `given`: C127
-/

namespace Bulloak
open Spec
set_option linter.unusedSectionVars false

section
variable [U : Ucd]
variable {K : Str → Str → Prop}

/-! ## Names -/

theorem condition_alnum {w : Str} (h : IsConditionWord w) : w ≠ [] ∧ ∀ c ∈ w, isAsciiAlnum c = true := by
  rcases h with h | h
  · exact ⟨keyword_ne (by decide) h, keyword_alnum (by decide) h⟩
  · exact ⟨keyword_ne (by decide) h, keyword_alnum (by decide) h⟩

theorem opener_words [LawfulUcd] {t t' : Str} (h : TitleRel (Opener K) t t') :
    ∃ w w' ws, Opener K w w' ∧ splitWs (sanitize t) = w :: ws ∧ splitWs (sanitize t') = w' :: ws := by
  obtain ⟨w, w', x, rfl, rfl, ⟨h1, h2, h3⟩, hx⟩ := h
  have split : ∀ {w : Str}, w ≠ [] → (∀ c ∈ w, isAsciiAlnum c = true) → splitWs (sanitize (w ++ x)) = w :: splitWs (sanitize x) := by
    intro w hn ha
    rw [sanitize_append, sanitize_alnum ha]
    rcases hx with rfl | ⟨r, rfl⟩
    · have : sanitize [] = [] := rfl
      rw [this, List.append_nil]
      have h0 := words_iff.1 (Words.word (w := w) (s := []) (ws := []) hn (fun c hc => alnum_not_ws (ha c hc)) (.inl rfl) .nil)
      rw [List.append_nil] at h0
      rw [h0]; rfl
    · rw [sanitize_space, splitWs_word_cons hn (fun c hc => alnum_not_ws (ha c hc))]
      have : splitWs (' ' :: sanitize r) = splitWs (sanitize r) := words_iff.1 (.skip (by decide) (words_splitWs _))
      rw [this]
  exact ⟨w, w', _, ⟨h1, h2, h3⟩, split (condition_alnum h1).1 (condition_alnum h1).2, split (condition_alnum h2).1 (condition_alnum h2).2⟩

theorem lower_nat (a : Char) : (asciiLower a).toNat = if 65 ≤ a.toNat ∧ a.toNat ≤ 90 then a.toNat + 32 else a.toNat := by
  rcases asciiLower_cases a with ⟨h1, h2⟩ | ⟨h1, h2⟩
  · rw [if_pos h1, h2]
  · rw [if_neg h1, h2]

theorem upper_nat (a : Char) : (asciiUpper a).toNat = if 97 ≤ a.toNat ∧ a.toNat ≤ 122 then a.toNat - 32 else a.toNat := by
  rcases asciiUpper_cases a with ⟨h1, h2⟩ | ⟨h1, h2⟩
  · rw [if_pos h1, h2]
  · rw [if_neg h1, h2]

theorem lower_upper (a : Char) : asciiLower (asciiUpper a) = asciiLower a := by
  have n : ∀ {x y : Char}, x.toNat = y.toNat → x = y := fun h => Char.ext (UInt32.toNat_inj.1 h)
  apply n
  have h1 := lower_nat a
  have h2 := lower_nat (asciiUpper a)
  have h3 := upper_nat a
  split at h1 <;> split at h2 <;> split at h3 <;> omega

theorem lower_lower (a : Char) : asciiLower (asciiLower a) = asciiLower a := by
  have n : ∀ {x y : Char}, x.toNat = y.toNat → x = y := fun h => Char.ext (UInt32.toNat_inj.1 h)
  apply n
  have h1 := lower_nat a
  have h2 := lower_nat (asciiLower a)
  split at h1 <;> split at h2 <;> omega

theorem first_opener {v w : Str} (h : IsConditionWord v) (h1 : w.map asciiLower = v.map asciiLower) (h2 : v.tail = w.tail) : FirstLetter v w := by
  rcases h with h | h
  · exact ⟨_, by decide, h, h1.trans h, h2⟩
  · exact ⟨_, by decide, h, h1.trans h, h2⟩

/-- A word opening a condition still does so when its first letter is made a capital. -/
theorem capital_first [LawfulUcd] {w : Str} (h : IsConditionWord w) : FirstLetter w (capital w) := by
  obtain ⟨hn, ha⟩ := condition_alnum h
  obtain ⟨a, v, rfl⟩ := List.exists_cons_of_ne_nil hn
  apply first_opener h <;>
    simp only [capital, LawfulUcd.plain_upper a (alnum_plain (ha a (by simp))), List.cons_append, List.nil_append, List.map_cons, lower_upper, List.tail_cons]

theorem lower_first [LawfulUcd] {w : Str} (h : IsConditionWord w) : FirstLetter w (lowerFirst w) := by
  obtain ⟨hn, ha⟩ := condition_alnum h
  obtain ⟨a, v, rfl⟩ := List.exists_cons_of_ne_nil hn
  apply first_opener h <;>
    simp only [lowerFirst, LawfulUcd.plain_lower a (alnum_plain (ha a (by simp))), List.cons_append, List.nil_append, List.map_cons, lower_lower, List.tail_cons]

theorem first_condition {v w : Str} (h : IsConditionWord v) (hf : FirstLetter v w) : IsConditionWord w := by
  obtain ⟨k, _, h1, h2, _⟩ := hf
  unfold IsConditionWord IsKeyword at *
  rw [h2, ← h1]; exact h

theorem first_trans {v w x : Str} (h : IsConditionWord v) (h1 : FirstLetter v w) (h2 : FirstLetter w x) : FirstLetter v x := by
  obtain ⟨k, _, a1, a2, a3⟩ := h1
  obtain ⟨k', _, b1, b2, b3⟩ := h2
  unfold IsKeyword at *
  exact first_opener h (by rw [b2, ← b1, a2, a1]) (a3.trans b3)

theorem capital_opener [LawfulUcd] {w : Str} (h : IsConditionWord w) : IsConditionWord (capital w) := first_condition h (capital_first h)

theorem lower_opener [LawfulUcd] {w : Str} (h : IsConditionWord w) : IsConditionWord (lowerFirst w) := first_condition h (lower_first h)

theorem camel_first [LawfulUcd] {w : Str} (h : IsConditionWord w) : FirstLetter w (lowerFirst (capital w)) := first_trans h (capital_first h) (lower_first (capital_opener h))

theorem lowerFirst_append {w : Str} (x : Str) (h : w ≠ []) : lowerFirst (w ++ x) = lowerFirst w ++ x := by
  cases w with
  | nil => exact absurd rfl h
  | cons c w => simp [lowerFirst]

theorem camel_opener [LawfulUcd] {s w : Str} {ws : List Str} (hw : IsConditionWord w) (h : splitWs s = w :: ws) : camel s = lowerFirst (capital w) ++ glue ws := by
  have e : pascal s = capital w ++ glue ws := by rw [pascal, h]; rfl
  rw [← lowerFirst_pascal, toPascal_eq, e, lowerFirst_append]
  exact (condition_alnum (capital_opener hw)).1

theorem modName_exch [LawfulUcd] (s s' : Span) {t t' : Str} (ks ks' : List Ast) (h : TitleRel (Opener K) t t') :
    OpenerChanged K [] (modName (.condition s (sanitize t) ks)) (modName (.condition s' (sanitize t') ks')) := by
  obtain ⟨w, w', ws, ⟨h1, h2, h3⟩, e1, e2⟩ := opener_words h
  refine ⟨w, w', lowerFirst (capital w), lowerFirst (capital w'), glue ws, h1, h2, h3, camel_first h1, camel_first h2, ?_, ?_⟩
  · simp only [modName, titleOf, camel_opener h1 e1, List.nil_append]
  · simp only [modName, titleOf, camel_opener h2 e2, List.nil_append]

/-! ## Functions -/

theorem swaps_any {l l' : List Ast} (h : Swaps K l l') : l'.any Ast.isCondition = l.any Ast.isCondition := by
  induction h with
  | nil => rfl
  | condition => simp [Ast.isCondition]
  | action _ _ _ _ ih => simp [Ast.isCondition, ih]

theorem shape_titles {ds ds' : List Ast} (h : shapeAll id ds' = shapeAll id ds) : ds'.map titleOf = ds.map titleOf := by
  have e : ∀ a : Ast, titleOf (shape id a) = titleOf a := by intro a; cases a <;> simp [shape, titleOf]
  have := congrArg (List.map titleOf) h
  rw [shapeAll_map, shapeAll_map, List.map_map, List.map_map] at this
  simpa only [Function.comp_def, e] using this

theorem swaps_comments {l l' : List Ast} (h : Swaps K l l') : (l'.filter Ast.isAction).map commentLines = (l.filter Ast.isAction).map commentLines := by
  induction h with
  | nil => rfl
  | condition _ _ _ _ ih => simpa [Ast.isAction] using ih
  | action _ _ hd _ ih =>
    rw [List.filter_cons_of_pos (by rfl), List.filter_cons_of_pos (by rfl)]
    simp only [List.map_cons, ih, commentLines, titleOf, kids, shape_titles hd]

theorem swaps_reverts {s s' : Span} {t t' : Str} {l l' : List Ast} (h : Swaps K l l') : reverts (.condition s' t' l') = reverts (.condition s t l) := by
  apply leads_reverts
  unfold leadsWith
  induction h with
  | nil => rfl
  | condition _ _ _ _ ih => simpa [Ast.isAction] using ih
  | action _ _ hd _ ih =>
    rw [List.filter_cons_of_pos (by rfl), List.filter_cons_of_pos (by rfl)]
    simp only [List.head?_cons, Option.map_some]
    rfl

theorem condFns_exch [LawfulUcd] {skip : Bool} {encl encl' : List Ast} (he : Each (OpenerChanged K []) (encl.map modName) (encl'.map modName)) {s s' : Span} {t t' : Str}
    {ks ks' : List Ast} (ht : TitleRel (Opener K) t t') (h : Swaps K ks ks') :
    Each (OpenersOnly K) (condFns skip (encl, .condition s (sanitize t) ks)) (condFns skip (encl', .condition s' (sanitize t') ks')) := by
  unfold condFns
  have hn : hasNested (Ast.condition s' (sanitize t') ks') = hasNested (Ast.condition s (sanitize t) ks) := swaps_any h
  have hm := modName_exch s s' ks ks' ht
  have hc : (actionsOf (Ast.condition s' (sanitize t') ks')).map commentLines = (actionsOf (Ast.condition s (sanitize t) ks)).map commentLines := swaps_comments h
  apply each_append
  · simp only [hn]
    split
    · exact .cons ⟨rfl, rfl, (fun _ => hm), (fun h => nomatch h), .nil⟩ .nil
    · exact .nil
  · by_cases ha : actionsOf (Ast.condition s (sanitize t) ks) = []
    · have ha' : actionsOf (Ast.condition s' (sanitize t') ks') = [] := by
        rw [ha] at hc; exact List.map_eq_nil_iff.1 hc
      rw [if_pos ha, if_pos ha']
      exact .nil
    · have ha' : actionsOf (Ast.condition s' (sanitize t') ks') ≠ [] := by
        intro h0
        rw [h0] at hc
        exact ha (List.map_eq_nil_iff.1 hc.symm)
      rw [if_neg ha, if_neg ha']
      refine .cons ⟨rfl, ?_, (fun h => nomatch h), (fun _ => .inr ?_), ?_⟩ .nil
      · simp only [condFn, commentsOf, List.flatMap_def, hc]
      · obtain ⟨w, w', ws, ⟨h1, h2, h3⟩, e1, e2⟩ := opener_words ht
        have hr := swaps_reverts (s := s) (s' := s') (t := sanitize t) (t' := sanitize t') h
        simp only [condFn, testName, titleOf, e1, e2, hr]
        split
        · exact .inr ⟨w, w', capital w, capital w', c!"_" ++ glue ws, h1, h2, h3, capital_first h1, capital_first h2, by simp, by simp⟩
        · exact .inl ⟨w, w', capital w, capital w', glue ws, h1, h2, h3, capital_first h1, capital_first h2, by simp [glue], by simp [glue]⟩
      · simp only [condFn, modList_getD, guards, List.map_append, hn]
        refine each_append he ?_
        split
        · exact .cons hm .nil
        · exact .nil

theorem inScopeAll_exch [LawfulUcd] {skip : Bool} {l l' : List Ast} (h : Swaps K l l') : ∀ {encl encl' : List Ast},
    Each (OpenerChanged K []) (encl.map modName) (encl'.map modName) →
    Each (OpenersOnly K) ((inScopeAll encl l).flatMap (condFns skip)) ((inScopeAll encl' l').flatMap (condFns skip)) := by
  induction h with
  | nil => intro _ _ _; exact .nil
  | action _ _ _ _ ih =>
    intro encl encl' he
    rw [inScopeAll.eq_2, inScopeAll.eq_2]
    simp only [inScope, List.nil_append]
    exact ih he
  | @condition s s' _ _ ks ks' _ _ ht hk _ ihk ihl =>
    intro encl encl' he
    rw [inScopeAll.eq_2, inScopeAll.eq_2]
    simp only [inScope, List.cons_append, List.flatMap_cons, List.flatMap_append]
    refine each_append (condFns_exch he ht hk) (each_append (ihk ?_) (ihl he))
    simp only [List.map_append, List.map_cons, List.map_nil]
    exact each_append he (.cons (modName_exch s s' ks ks' ht) .nil)

theorem expected_exch [LawfulUcd] {skip : Bool} {l l' : List Ast} (h : Swaps K l l') : Each (OpenersOnly K) (expected skip l) (expected skip l') := by
  induction h with
  | nil => exact .nil
  | action _ _ hd _ ih =>
    unfold expected at ih ⊢
    rw [List.flatMap_cons, List.flatMap_cons]
    refine each_append ?_ ih
    simp only [Ast.isAction, if_true]
    refine .cons ⟨rfl, ?_, (fun h => nomatch h), (fun _ => .inl rfl), .nil⟩ .nil
    simp only [actFn, commentLines, titleOf, kids, shape_titles hd]
  | @condition s s' _ _ ks ks' _ _ ht hk _ _ ih =>
    unfold expected at ih ⊢
    rw [List.flatMap_cons, List.flatMap_cons]
    refine each_append ?_ ih
    simp only [Ast.isAction, Bool.false_eq_true, if_false, inScope, List.flatMap_cons]
    refine each_append (condFns_exch .nil ht hk) (inScopeAll_exch hk ?_)
    exact .cons (modName_exch s s' ks ks' ht) .nil

/-! ## Acceptance -/

theorem shape_conditions {ds ds' : List Ast} (h : shapeAll id ds' = shapeAll id ds) (hd : ∀ d ∈ ds, ∃ s t, d = .description s t) :
    conditionsOf ds = [] ∧ conditionsOf ds' = [] := by
  have key : ∀ ds : List Ast, (∀ d ∈ ds, ∃ s t, d = .description s t) → conditionsOf ds = [] := by
    intro ds
    induction ds with
    | nil => intro _; rfl
    | cons d ds ih =>
      intro hd
      obtain ⟨s, t, rfl⟩ := hd d (by simp)
      have := ih (fun d h => hd d (by simp [h]))
      simp only [conditionsOf] at this ⊢
      simp only [preAll, pre, List.singleton_append]
      rw [List.filter_cons_of_neg (by simp [Ast.isCondition]), this]
  refine ⟨key _ hd, key _ ?_⟩
  intro d hd'
  have hm : shape id d ∈ shapeAll id ds := by rw [← h, shapeAll_map]; exact List.mem_map_of_mem hd'
  rw [shapeAll_map] at hm
  obtain ⟨e, he, h1⟩ := List.mem_map.1 hm
  obtain ⟨s, t, rfl⟩ := hd e he
  cases d with
  | description s t => exact ⟨s, t, rfl⟩
  | root => simp [shape] at h1
  | condition => simp [shape] at h1
  | action => simp [shape] at h1

theorem conditions_action {s : Span} {t : Str} {ds l : List Ast} : conditionsOf (.action s t ds :: l) = conditionsOf ds ++ conditionsOf l := by
  simp [conditionsOf, preAll, pre, Ast.isCondition]

theorem conditions_condition {s : Span} {t : Str} {ks l : List Ast} :
    conditionsOf (.condition s t ks :: l) = .condition s t ks :: (conditionsOf ks ++ conditionsOf l) := by
  simp only [conditionsOf, preAll, pre, List.cons_append, List.filter_append]
  rw [List.filter_cons_of_pos (by rfl), List.filter_append]

/-- What corresponding conditions have in common. -/
inductive SwapCond (K : Str → Str → Prop) : Ast → Ast → Prop where
  | mk {s s' t t' ks ks'} : TitleRel (Opener K) t t' → Swaps K ks ks' → SwapCond K (.condition s (sanitize t) ks) (.condition s' (sanitize t') ks')

theorem swaps_conditions {l l' : List Ast} (h : Swaps K l l') : Each (SwapCond K) (conditionsOf l) (conditionsOf l') := by
  induction h with
  | nil => exact .nil
  | action _ hd hs _ ih =>
    obtain ⟨e1, e2⟩ := shape_conditions hs hd
    rw [conditions_action, conditions_action, e1, e2]
    exact ih
  | condition ht hk _ ih1 ih2 =>
    rw [conditions_condition, conditions_condition]
    exact .cons ⟨ht, hk⟩ (each_append ih1 ih2)

theorem swaps_kids {l l' : List Ast} (h : Swaps K l l') (hk : ∀ c ∈ conditionsOf l, kids c ≠ []) : ∀ c ∈ conditionsOf l', kids c ≠ [] := by
  intro c hc he
  obtain ⟨a, ha, hr⟩ := each_right (swaps_conditions h) c hc
  cases hr with
  | mk _ hs =>
    have h1 := hk _ ha
    have h2 := swaps_len hs
    simp only [kids] at he h1
    rw [he] at h2
    exact h1 (List.length_eq_zero_iff.1 h2)

theorem swaps_nil {l l' : List Ast} (h : Swaps K l l') (hn : l ≠ []) : l' ≠ [] := by
  rintro rfl
  exact hn (List.length_eq_zero_iff.1 (swaps_len h))

theorem parse_one {order : HashOrder} {text b : Str} (hb : Trees text [b]) (ast : Ast) : parse order text = .ok [ast] ↔ parseOne order b = .ok ast := by
  rw [C13_parse_ok, split_trees hb]
  constructor
  · intro h
    cases h with
    | cons h _ => exact h
  · exact fun h => .cons h .nil

/-- A tree that is accepted, and the same tree with other words opening conditions. -/
theorem parseOne_exch [LawfulUcd] {order : HashOrder} (ho : ∀ l, (order l).Perm l) {b b' : Str} (h : ExchangedText K b b') {ast : Ast} (hp : parseOne order b = .ok ast) :
    ∃ toks' ast', tokenize b' = .ok toks' ∧ parseTokens toks' = .ok ast' ∧ titleOf ast' = titleOf ast ∧ Swaps K (kids ast) (kids ast') ∧
      (parseOne order b' = .ok ast' ∨ ∃ es, parseOne order b' = .err (.semantics b' es) ∧ es ≠ [] ∧ ∀ e ∈ es, ∃ sp, e.kind = .identifierDuplicated sp) := by
  obtain ⟨toks, h1, h2, _⟩ := parseOne_ok hp
  obtain ⟨k1, k2, k3⟩ := (C14_accepted_iff ho h1 h2).1 hp
  obtain ⟨toks', ast', h3, h4, h5, h6⟩ := parseTokens_exch h h1 h2
  refine ⟨toks', ast', h3, h4, h5, h6, ?_⟩
  obtain ⟨s, n, cs, rfl, _⟩ := tree_shape ((parseTokens_iff (tokenize_col h3) ast').1 h4)
  rcases C15_all_errors ho h3 h4 with ⟨_, h⟩ | ⟨hne, es, he, hperm⟩
  · exact .inl h
  · refine .inr ⟨es, he, ?_, ?_⟩
    · rintro rfl
      exact hne hperm.symm.eq_nil
    · intro e hm
      have hm := hperm.mem_iff.1 hm
      have n1 : cs ≠ [] := swaps_nil h6 k1
      have n2 : (conditionsOf cs).filter (fun c => (kids c).isEmpty) = [] := by
        rw [List.filter_eq_nil_iff]
        intro c hc
        simpa using swaps_kids h6 k2 c hc
      simp only [complaints, if_neg n1, n2, List.map_nil, List.nil_append] at hm
      obtain ⟨i, _, hi⟩ := List.mem_flatMap.1 hm
      unfold dupComplaint at hi
      split at hi
      · rw [List.mem_singleton] at hi
        subst hi
        exact ⟨_, rfl⟩
      · cases hi

/-- **C127**, syntax: whether a tree is malformed (rejected by the tokenizer or the parser) does not depend on the words that open its conditions, as long as its glyphs stay in their
columns. -/
theorem C127_malformed [LawfulUcd] {order : HashOrder} {b b' : Str} (h : ExchangedText AnyOpener b b') :
    ((∃ e, parseOne order b = .err (.tokenizer b e)) ∨ ∃ e, parseOne order b = .err (.parser b e)) ↔
      ((∃ e, parseOne order b' = .err (.tokenizer b' e)) ∨ ∃ e, parseOne order b' = .err (.parser b' e)) := by
  have key : ∀ b : Str, ((∃ e, parseOne order b = .err (.tokenizer b e)) ∨ ∃ e, parseOne order b = .err (.parser b e)) ↔
      ¬ ∃ toks ast, tokenize b = .ok toks ∧ parseTokens toks = .ok ast := by
    intro b
    unfold parseOne
    cases ht : tokenize b with
    | err e => simp [Res.mapErr]
    | panic => exact absurd ht (tokenize_ne_panic b)
    | ok toks =>
      cases hp : parseTokens toks with
      | err e => simp [Res.mapErr, hp]
      | panic => exact absurd hp (parseTokens_ne_panic (tokenize_col ht))
      | ok ast =>
        simp only [Res.mapErr, Res.bind_ok, hp]
        constructor
        · rintro (⟨e, h⟩ | ⟨e, h⟩) <;> split at h <;> cases h
        · intro h
          exact absurd ⟨toks, ast, rfl, hp⟩ h
  rw [key, key]
  refine not_congr ?_
  constructor
  · rintro ⟨toks, ast, h1, h2⟩
    obtain ⟨toks', ast', h3, h4, _⟩ := parseTokens_exch h h1 h2
    exact ⟨toks', ast', h3, h4⟩
  · rintro ⟨toks, ast, h1, h2⟩
    obtain ⟨toks', ast', h3, h4, _⟩ := parseTokens_exch (exchangedText_symm (K' := AnyOpener) (fun _ _ _ => trivial) h) h1 h2
    exact ⟨toks', ast', h3, h4⟩

theorem translate_err {order : HashOrder} {cfg : Config} {text b : Str} (hb : Trees text [b]) {e : SyntaxError} (h : parseOne order b = .err e) :
    translate order cfg text = .err (.syntax e) := by
  have : parse order text = .err e := by
    unfold parse
    rw [split_trees hb]
    simp [collectRes, h]
  simp [translate, this, Res.mapErr]

/-- **C127**, functions: if the words that open conditions are exchanged for each other in an accepted tree, its contract keeps its name and its functions, in order, and these keep
everything but those words in their names and the names of their modifiers; unless names coincide now, in which case this is the only complaint. -/
theorem C127_functions [LawfulUcd] {order : HashOrder} (ho : ∀ l, (order l).Perm l) {text text' b b' : Str} (hb : Trees text [b]) (hb' : Trees text' [b'])
    (h : ExchangedText K b b') {cfg : Config} {hir : HRoot} (ht : translate order cfg text = .ok hir) :
    ∃ n fns, hir = ⟨[⟨n, fns⟩]⟩ ∧
      ((∃ fns', translate order cfg text' = .ok ⟨[⟨n, fns'⟩]⟩ ∧ Each (OpenersOnly K) fns fns') ∨
        ∃ es, translate order cfg text' = .err (.syntax (.semantics b' es)) ∧ es ≠ [] ∧ ∀ e ∈ es, ∃ sp, e.kind = .identifierDuplicated sp) := by
  cases hp : parseOne order b with
  | err e => rw [translate_err hb hp] at ht; cases ht
  | panic =>
    have : parse order text = .panic := by
      unfold parse
      rw [split_trees hb]
      simp [collectRes, hp]
    simp [translate, this, Res.mapErr] at ht
  | ok ast =>
    rw [translate_single ((parse_one hb ast).2 hp)] at ht
    simp only [Res.ok.injEq] at ht
    refine ⟨_, _, ht.symm, ?_⟩
    obtain ⟨toks', ast', _, _, h5, h6, h7⟩ := parseOne_exch ho h hp
    rcases h7 with h7 | ⟨es, h7, h8, h9⟩
    · exact .inl ⟨_, h5 ▸ translate_single ((parse_one hb' ast').2 h7) cfg, expected_exch h6⟩
    · exact .inr ⟨es, translate_err hb' h7, h8, h9⟩

/-! ## The same word everywhere -/

/-- Identifiers before and after, with `p` at the start of those of conditions replaced by `p'`. -/
def IdentSwap (p p' i i' : Str) : Prop := (∃ x, i = p ++ x ∧ i' = p' ++ x) ∨ (i' = i ∧ i.head?.map asciiLower = some 'i')

theorem opener_head {w : Str} (h : IsConditionWord w) : ∃ c r, w = c :: r ∧ asciiLower c ≠ 'i' := by
  obtain ⟨c, r, rfl⟩ := List.exists_cons_of_ne_nil (condition_alnum h).1
  refine ⟨c, r, rfl, fun he => ?_⟩
  unfold IsConditionWord IsKeyword at h
  simp only [List.map_cons, he, List.cons.injEq] at h
  rcases h with ⟨h, _⟩ | ⟨h, _⟩ <;> revert h <;> decide

theorem identSwap_inj {p p' : Str} (hp : IsConditionWord p') {i i' j j' : Str} (h : IdentSwap p p' i i') (h' : IdentSwap p p' j j') (he : i' = j') : i = j := by
  obtain ⟨c, r, rfl, hc⟩ := opener_head hp
  rcases h with ⟨x, rfl, rfl⟩ | ⟨rfl, hi⟩ <;> rcases h' with ⟨y, rfl, rfl⟩ | ⟨rfl, hj⟩
  · rw [List.append_cancel_left he]
  · subst he
    simp only [List.cons_append, List.head?_cons, Option.map_some, Option.some.injEq] at hj
    exact absurd hj hc
  · subst he
    simp only [List.cons_append, List.head?_cons, Option.map_some, Option.some.injEq] at hi
    exact absurd hi hc
  · exact he

theorem each_nodup {R : Str → Str → Prop} (hR : ∀ i i' j j', R i i' → R j j' → i' = j' → i = j) {l l' : List Str} (h : Each R l l') (hn : l.Nodup) : l'.Nodup := by
  induction h with
  | nil => exact .nil
  | cons h h' ih =>
    rw [List.nodup_cons] at hn ⊢
    refine ⟨fun hm => ?_, ih hn.2⟩
    obtain ⟨a, ha, hr⟩ := each_right h' _ hm
    have := hR _ _ _ _ h hr rfl
    rw [this] at hn
    exact hn.1 ha

theorem ident_condition [LawfulUcd] {s s' : Span} {ks ks' : List Ast} {k k' t t' : Str} (h : TitleRel (Opener (Always k k')) t t') :
    IdentSwap (lowerFirst (capital k)) (lowerFirst (capital k')) (identOf (.condition s (sanitize t) ks)) (identOf (.condition s' (sanitize t') ks')) := by
  obtain ⟨w, w', ws, ⟨h1, h2, rfl, rfl⟩, e1, e2⟩ := opener_words h
  refine .inl ⟨glue ws, ?_, ?_⟩
  · simp only [identOf, titleOf, sanitize_idem, lowerFirst_pascal, camel_opener h1 e1]
  · simp only [identOf, titleOf, sanitize_idem, lowerFirst_pascal, camel_opener h2 e2]

theorem ident_action [LawfulUcd] {s : Span} {ds : List Ast} {t : Str} (h : ∃ w x, t = w ++ x ∧ IsKeyword c!"it" w ∧ (x = [] ∨ ∃ r, x = ' ' :: r)) :
    (identOf (.action s t ds)).head?.map asciiLower = some 'i' := by
  obtain ⟨w, x, rfl, hw, hx⟩ := h
  have hn := keyword_ne it_mem hw
  have ha := keyword_alnum it_mem hw
  obtain ⟨c, r, rfl⟩ := List.exists_cons_of_ne_nil hn
  have hc : asciiLower c = 'i' := by
    unfold IsKeyword at hw
    simp only [List.map_cons, List.cons.injEq] at hw
    exact hw.1
  have hs : ∃ ws, splitWs (sanitize (c :: r ++ x)) = (c :: r) :: ws := by
    rw [sanitize_append, sanitize_alnum ha]
    rcases hx with rfl | ⟨y, rfl⟩
    · have : sanitize [] = [] := rfl
      rw [this, List.append_nil]
      have h0 := words_iff.1 (Words.word (w := c :: r) (s := []) (ws := []) hn (fun c hc => alnum_not_ws (ha c hc)) (.inl rfl) .nil)
      rw [List.append_nil] at h0
      exact ⟨_, h0⟩
    · rw [sanitize_space, splitWs_word_cons hn (fun c hc => alnum_not_ws (ha c hc))]
      exact ⟨_, rfl⟩
  obtain ⟨ws, hs⟩ := hs
  have hu : isAsciiAlnum (asciiUpper c) = true := by
    have h1 := ha c (by simp)
    have h2 := upper_nat c
    simp only [isAsciiAlnum, Bool.or_eq_true, Bool.and_eq_true, decide_eq_true_eq] at h1 ⊢
    split at h2 <;> omega
  have e : toPascal (sanitize (c :: r ++ x)) = asciiUpper c :: (r ++ glue ws) := by
    rw [toPascal_eq, pascal, hs]
    simp only [glue, List.map_cons, List.flatten_cons, capital, LawfulUcd.plain_upper c (alnum_plain (ha c (by simp))), List.cons_append, List.nil_append]
  show (lowerFirst (toPascal (sanitize (c :: r ++ x)))).head?.map asciiLower = _
  rw [e]
  simp only [lowerFirst, LawfulUcd.plain_lower _ (alnum_plain hu), List.cons_append, List.head?_cons, Option.map_some, lower_upper, hc]
  decide

theorem named_exch [LawfulUcd] {k k' : Str} {l l' : List Ast} (h : Swaps (Always k k') l l') :
    Each (IdentSwap (lowerFirst (capital k)) (lowerFirst (capital k'))) ((named l).map identOf) ((named l').map identOf) := by
  unfold named
  induction h with
  | nil => exact .nil
  | action ht _ _ _ ih =>
    rw [List.flatMap_cons, List.flatMap_cons, List.map_append, List.map_append]
    exact each_append (.cons (.inr ⟨rfl, ident_action ht⟩) .nil) ih
  | condition ht hk _ _ ih =>
    rw [List.flatMap_cons, List.flatMap_cons, List.map_append, List.map_append]
    refine each_append ?_ ih
    refine each_map ?_ (swaps_conditions (.condition ht hk .nil))
    intro a a' hr
    cases hr with
    | mk ht _ => exact ident_condition ht

theorem parseOne_always [LawfulUcd] {order : HashOrder} (ho : ∀ l, (order l).Perm l) {k k' : Str} (hk : IsConditionWord k') {b b' : Str} (h : ExchangedText (Always k k') b b')
    {ast : Ast} (hp : parseOne order b = .ok ast) : ∃ ast', parseOne order b' = .ok ast' ∧ titleOf ast' = titleOf ast ∧ Swaps (Always k k') (kids ast) (kids ast') := by
  obtain ⟨toks, h1, h2, _⟩ := parseOne_ok hp
  obtain ⟨k1, k2, k3⟩ := (C14_accepted_iff ho h1 h2).1 hp
  obtain ⟨toks', ast', h3, h4, h5, h6⟩ := parseTokens_exch h h1 h2
  refine ⟨ast', (C14_accepted_iff ho h3 h4).2 ⟨swaps_nil h6 k1, swaps_kids h6 k2, ?_⟩, h5, h6⟩
  exact each_nodup (fun i i' j j' => identSwap_inj (lower_opener (capital_opener hk))) (named_exch h6) k3

theorem parse_always [LawfulUcd] {order : HashOrder} (ho : ∀ l, (order l).Perm l) {k k' : Str} (hk : IsConditionWord k') {bs bs' : List Str}
    (h : Each (ExchangedText (Always k k')) bs bs') : ∀ {asts : List Ast}, Each (fun b a => parseOne order b = .ok a) bs asts →
      ∃ asts', Each (fun b a => parseOne order b = .ok a) bs' asts' := by
  induction h with
  | nil => intro asts hp; exact ⟨[], .nil⟩
  | cons h1 _ ih =>
    intro asts hp
    cases hp with
    | cons hp1 hp2 =>
      obtain ⟨a', h2, _⟩ := parseOne_always ho hk h1 hp1
      obtain ⟨as', h4⟩ := ih hp2
      exact ⟨a' :: as', .cons h2 h4⟩

/-- **C127**, one word throughout: if all conditions of a file are opened by the same word, that word can be replaced throughout by any other that opens conditions, and the file is
accepted exactly if it was before. -/
theorem C127_throughout [LawfulUcd] {order : HashOrder} (ho : ∀ l, (order l).Perm l) {k k' : Str} (hk : IsConditionWord k) (hk' : IsConditionWord k') {text text' : Str}
    {bs bs' : List Str} (hb : Trees text bs) (hb' : Trees text' bs') (h : Each (ExchangedText (Always k k')) bs bs') :
    (∃ asts, parse order text = .ok asts) ↔ ∃ asts', parse order text' = .ok asts' := by
  have hs := split_trees hb
  have hs' := split_trees hb'
  constructor
  · rintro ⟨asts, ha⟩
    obtain ⟨asts', h1⟩ := parse_always ho hk' h (hs ▸ (C13_parse_ok order text asts).1 ha)
    exact ⟨asts', (C13_parse_ok order text' asts').2 (hs' ▸ h1)⟩
  · rintro ⟨asts, ha⟩
    have hsym : Each (ExchangedText (Always k' k)) bs' bs := by
      clear hb hb' hs hs' ha
      induction h with
      | nil => exact .nil
      | cons h _ ih => exact .cons (exchangedText_symm (fun _ _ h => ⟨h.2, h.1⟩) h) ih
    obtain ⟨asts', h1⟩ := parse_always ho hk hsym (hs' ▸ (C13_parse_ok order text' asts).1 ha)
    exact ⟨asts', (C13_parse_ok order text asts').2 (hs ▸ h1)⟩

/-- **C127**, one word throughout, functions: the tree is accepted again, and the names of its functions and modifiers have the new word where they had the old one. -/
theorem C127_throughout_functions [LawfulUcd] {order : HashOrder} (ho : ∀ l, (order l).Perm l) {k k' : Str} (hk : IsConditionWord k') {text text' b b' : Str}
    (hb : Trees text [b]) (hb' : Trees text' [b']) (h : ExchangedText (Always k k') b b') {cfg : Config} {hir : HRoot} (ht : translate order cfg text = .ok hir) :
    ∃ n fns fns', hir = ⟨[⟨n, fns⟩]⟩ ∧ translate order cfg text' = .ok ⟨[⟨n, fns'⟩]⟩ ∧ Each (OpenersOnly (Always k k')) fns fns' := by
  obtain ⟨n, fns, rfl, h1 | ⟨es, h1, _, _⟩⟩ := C127_functions ho hb hb' h ht
  · obtain ⟨fns', h1, h2⟩ := h1
    exact ⟨n, fns, fns', rfl, h1, h2⟩
  · cases hp : parseOne order b with
    | ok ast =>
      obtain ⟨ast', h2, _⟩ := parseOne_always ho hk h hp
      rw [translate_single ((parse_one hb' ast').2 h2)] at h1
      cases h1
    | err e => rw [translate_err hb hp] at ht; cases ht
    | panic =>
      have : parse order text = .panic := by
        unfold parse
        rw [split_trees hb]
        simp [collectRes, hp]
      simp [translate, this, Res.mapErr] at ht

end
end Bulloak
