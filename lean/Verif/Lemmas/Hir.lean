import Verif.Spec.Hir
import Verif.Lemmas.Names
import Verif.Props.Semantics
import Verif.Props.Lex
import Verif.Model.Ascii
/-! # Lemmas about words and the translation of trees -/

set_option linter.unusedSectionVars false

namespace Bulloak
open Spec

/-! ## Words -/

theorem splitWsAux_cons (s : Str) : ∀ cur, cur ≠ [] → splitWsAux cur s =
    (cur ++ s.takeWhile (fun c => !isWs c)) :: splitWsAux [] (s.dropWhile (fun c => !isWs c)) := by
  induction s with
  | nil => intro cur h; simp [splitWsAux, h]
  | cons c s ih =>
    intro cur h
    by_cases hc : isWs c = true
    · simp [splitWsAux, hc, h]
    · rw [splitWsAux, if_neg hc, ih _ (by simp)]
      simp [hc]

theorem words_splitWs (s : Str) : Words s (splitWs s) := by
  suffices ∀ n, ∀ s : Str, s.length ≤ n → Words s (splitWsAux [] s) from this s.length s (Nat.le_refl _)
  intro n
  induction n with
  | zero =>
    intro s h
    have : s = [] := by cases s <;> simp_all
    subst this; simpa [splitWsAux] using Words.nil
  | succ n ih =>
    intro s h
    cases s with
    | nil => simpa [splitWsAux] using Words.nil
    | cons c s =>
      simp only [List.length_cons] at h
      by_cases hc : isWs c = true
      · rw [splitWsAux, if_pos hc, if_pos rfl]
        exact .skip hc (ih s (by omega))
      · rw [splitWsAux, if_neg hc, splitWsAux_cons _ _ (by simp)]
        have hl : (s.dropWhile (fun c => !isWs c)).length ≤ n := by
          exact Nat.le_trans (List.dropWhile_sublist _).length_le (by omega)
        have := Words.word (w := c :: s.takeWhile (fun c => !isWs c)) (by simp) (by
          intro d hd
          rcases List.mem_cons.1 hd with rfl | hd
          · simpa using hc
          · have := List.all_takeWhile (p := fun c => !isWs c) (l := s)
            rw [List.all_eq_true] at this
            simpa using this d hd) (by
          cases hd : s.dropWhile (fun c => !isWs c) with
          | nil => exact Or.inl rfl
          | cons d r =>
            refine Or.inr ⟨d, r, rfl, ?_⟩
            have := List.head?_dropWhile_not (fun c => !isWs c) s
            rw [hd] at this
            simpa using this) (ih _ hl)
        simpa using this

theorem words_unique {s : Str} {a b : List Str} (ha : Words s a) (hb : Words s b) : a = b := by
  induction ha generalizing b with
  | nil =>
    generalize he : ([] : Str) = s at hb
    cases hb with
    | nil => rfl
    | skip => cases he
    | word h => simp at he; exact absurd he.1 h
  | @skip c s ws hc _ ih =>
    generalize he : c :: s = t at hb
    cases hb with
    | nil => cases he
    | skip _ h => cases he; exact ih h
    | @word w s' ws' h1 h2 h3 h4 =>
      cases w with
      | nil => exact absurd rfl h1
      | cons d w =>
        simp at he
        have := h2 d (by simp)
        rw [← he.1, hc] at this; cases this
  | @word w s ws h1 h2 h3 _ ih =>
    generalize he : w ++ s = t at hb
    cases hb with
    | nil => simp at he; exact absurd he.1 h1
    | @skip c s' _ hc _ =>
      cases w with
      | nil => exact absurd rfl h1
      | cons d w =>
        simp at he
        have := h2 d (by simp)
        rw [he.1, hc] at this; cases this
    | @word w' s' ws' h1' h2' h3' h4' =>
      have key : w = w' ∧ s = s' := by
        clear ih h4' h1 h1'
        induction w generalizing w' with
        | nil =>
          cases w' with
          | nil => exact ⟨rfl, by simpa using he⟩
          | cons d w' =>
            simp at he
            subst he
            rcases h3 with h | ⟨c, r, h, hc⟩
            · cases h
            · simp at h
              have := h2' d (by simp)
              rw [h.1, hc] at this; cases this
        | cons d w ihw =>
          cases w' with
          | nil =>
            simp at he
            subst he
            rcases h3' with h | ⟨c, r, h, hc⟩
            · cases h
            · simp at h
              have := h2 d (by simp)
              rw [h.1, hc] at this; cases this
          | cons d' w' =>
            simp only [List.cons_append, List.cons.injEq] at he
            obtain ⟨i1, i2⟩ := ihw (fun c hc => h2 c (by simp [hc])) (fun c hc => h2' c (by simp [hc])) he.2
            exact ⟨by rw [he.1, i1], i2⟩
      obtain ⟨rfl, rfl⟩ := key
      rw [ih h4']

theorem words_iff {s : Str} {ws : List Str} : Words s ws ↔ splitWs s = ws :=
  ⟨fun h => words_unique (words_splitWs s) h, fun h => h ▸ words_splitWs s⟩

theorem words_mem {s : Str} {ws : List Str} (h : Words s ws) : ∀ w ∈ ws, w ≠ [] ∧ ∀ c ∈ w, c ∈ s ∧ isWs c = false := by
  induction h with
  | nil => simp
  | skip _ _ ih =>
    intro w hw
    exact ⟨(ih w hw).1, fun c hc => ⟨by simp [((ih w hw).2 c hc).1], ((ih w hw).2 c hc).2⟩⟩
  | @word w s ws h1 h2 _ _ ih =>
    intro v hv
    rcases List.mem_cons.1 hv with rfl | hv
    · exact ⟨h1, fun c hc => ⟨by simp [hc], h2 c hc⟩⟩
    · exact ⟨(ih v hv).1, fun c hc => ⟨by simp [((ih v hv).2 c hc).1], ((ih v hv).2 c hc).2⟩⟩

theorem splitWs_word_cons {w s : Str} (h1 : w ≠ []) (h2 : ∀ c ∈ w, isWs c = false) :
    splitWs (w ++ ' ' :: s) = w :: splitWs s :=
  words_iff.1 (.word h1 h2 (Or.inr ⟨' ', s, rfl, by decide⟩) (.skip (by decide) (words_splitWs s)))

section
variable [U : Ucd]

theorem upperFirst_eq : (upperFirst : Str → Str) = capital := by
  funext s; cases s <;> rfl

theorem toPascal_eq (t : Str) : toPascal t = pascal t := by
  rw [toPascal, upperFirst_eq, pascal, glue, List.flatMap_def]

theorem lowerFirst_pascal (t : Str) : lowerFirst (toPascal t) = camel t := by
  rw [toPascal_eq, camel]
  cases pascal t <;> rfl

theorem foldWords_eq (acc : Str) (ws : List Str) : foldWords acc ws = acc ++ glue ws := by
  unfold foldWords
  induction ws generalizing acc with
  | nil => simp [glue]
  | cons w ws ih =>
    rw [List.foldl_cons, ih, upperFirst_eq]
    simp [glue]

/-! ## Titles of conditions -/

/-- The title of a condition: its keyword, a space, the rest; sanitised. -/
def CondTitle (t : Str) : Prop := ∃ kw rest, IsConditionWord kw ∧ t = kw ++ ' ' :: rest ∧ sanitize t = t

/-- A well-formed node. -/
inductive GoodItem : Ast → Prop where
  | condition {s t cs} : CondTitle t → (∀ c ∈ cs, GoodItem c) → GoodItem (.condition s t cs)
  | action {s t cs} : (∀ c ∈ cs, ∃ s' t', c = .description s' t') → GoodItem (.action s t cs)

theorem goodItem_of {a : Ast} (h : ItemShape a) : (∀ c ∈ conditionsOf [a], CondTitle (titleOf c)) → GoodItem a := by
  induction h with
  | @condition s t cs hcs ih =>
    intro hc
    rw [conditionsOf_condition] at hc
    refine .condition (hc (.condition s t cs) (by simp)) ?_
    intro c hcm
    refine ih c hcm ?_
    intro d hd
    refine hc d (List.mem_cons_of_mem _ ?_)
    obtain ⟨A, B, rfl⟩ := List.append_of_mem hcm
    rw [conditionsOf_append, conditionsOf_cons]
    simp [hd]
  | action h => intro _; exact .action h

theorem isKeyword_chars {kw w : Str} (h : IsKeyword kw w) (hk : kw = c!"when" ∨ kw = c!"given" ∨ kw = c!"it") :
    w ≠ [] ∧ ∀ c ∈ w, 65 ≤ c.toNat ∧ c.toNat ≤ 122 ∧ isAsciiAlnum c = true := by
  unfold IsKeyword at h
  refine ⟨(by rintro rfl; rcases hk with rfl | rfl | rfl <;> simp at h), ?_⟩
  intro c hc
  have hm : asciiLower c ∈ kw := by rw [← h]; exact List.mem_map_of_mem hc
  have hall : ∀ d ∈ kw, 97 ≤ d.toNat ∧ d.toNat ≤ 122 := by
    rcases hk with rfl | rfl | rfl <;> decide
  have hl := hall _ hm
  by_cases hc : 65 ≤ c.toNat ∧ c.toNat ≤ 90
  · refine ⟨by omega, by omega, ?_⟩
    simp only [isAsciiAlnum, Bool.or_eq_true, Bool.and_eq_true, decide_eq_true_eq]; omega
  · have h5 : asciiLower c = c := by
      simp only [asciiLower]
      rw [if_neg (by simpa using hc)]
    rw [h5] at hl
    refine ⟨by omega, by omega, ?_⟩
    simp only [isAsciiAlnum, Bool.or_eq_true, Bool.and_eq_true, decide_eq_true_eq]; omega

theorem condWord_chars {w : Str} (h : IsConditionWord w) : w ≠ [] ∧ ∀ c ∈ w, 65 ≤ c.toNat ∧ c.toNat ≤ 122 ∧ isAsciiAlnum c = true := by
  rcases h with h | h
  · exact isKeyword_chars h (Or.inl rfl)
  · exact isKeyword_chars h (Or.inr (Or.inl rfl))

theorem alnum_not_ws {c : Char} (h : isAsciiAlnum c = true) : isWs c = false := by
  simp only [isAsciiAlnum, Bool.or_eq_true, Bool.and_eq_true, decide_eq_true_eq] at h
  rw [Bool.eq_false_iff]
  intro hw
  simp only [isWs, Bool.or_eq_true, Bool.and_eq_true, decide_eq_true_eq, beq_iff_eq] at hw
  omega

theorem alnum_plain {c : Char} (h : isAsciiAlnum c = true) : isPlain c = true := by
  have := isAsciiAlnum_lt h
  simp [isPlain, this]

theorem alnum_xid [LawfulUcd] {c : Char} (h : isAsciiAlnum c = true) : U.isXid c = true := by
  rw [LawfulUcd.plain_xid c (alnum_plain h), h]; rfl

theorem sanitize_alnum [LawfulUcd] {w : Str} (h : ∀ c ∈ w, isAsciiAlnum c = true) : sanitize w = w := by
  refine sanitize_id (fun c hc => Or.inl (alnum_xid (h c hc))) ?_
  rintro c hc rfl
  exact absurd (h _ hc) (by decide)

theorem sanitize_space (s : Str) : sanitize (' ' :: s) = ' ' :: sanitize s := by
  simp [sanitize]

theorem condTitle_of [LawfulUcd] {h : Header} (hk : IsConditionWord h.first.lexeme) (hm : h.more ≠ []) :
    CondTitle (sanitize h.title) := by
  obtain ⟨g, f, more⟩ := h
  cases more with
  | nil => exact absurd rfl hm
  | cons m ms =>
    refine ⟨f.lexeme, sanitize (joinSep c!" " ((m :: ms).map (·.lexeme))), hk, ?_, sanitize_idem _⟩
    simp only [Header.title, Header.words, List.map_cons, joinSep]
    rw [sanitize_append, sanitize_append, sanitize_alnum (fun c hc => ((condWord_chars hk).2 c hc).2.2), List.append_assoc,
      ← sanitize_append]
    congr 1
    exact sanitize_space _

theorem parseOne_good [LawfulUcd] {order : HashOrder} {text : Str} {ast : Ast} (h : parseOne order text = .ok ast) :
    ∃ s n cs, ast = .root s n cs ∧ ∀ c ∈ cs, GoodItem c := by
  obtain ⟨s, n, cs, rfl, hsh⟩ := C07_shape h
  obtain ⟨toks, root, hs, ht, rfl, _, _, _, he⟩ := C08_words_preserved h
  refine ⟨s, n, cs, rfl, fun c hc => goodItem_of (hsh c hc) ?_⟩
  intro d hd
  have hd' : d ∈ conditionsOf cs := by
    obtain ⟨A, B, rfl⟩ := List.append_of_mem hc
    rw [conditionsOf_append, conditionsOf_cons]
    simp [hd]
  simp only [conditionsOf, List.mem_filter] at hd'
  obtain ⟨hdr, hm, hst⟩ := each_mem he hd'.1
  have hft : hdr.first ∈ root :: flat hs := by
    simp only [flat, List.mem_cons, List.mem_flatMap]
    exact Or.inr ⟨hdr, hm, by simp [Header.toks]⟩
  have hkw := C03_keywords ht _ hft
  cases d with
  | condition s t cs =>
    obtain ⟨_, hc1, hc2, rfl⟩ := hst
    refine condTitle_of ?_ hc2
    rcases hc1 with hc1 | hc1
    · exact Or.inl (hkw.2.2.1.1 hc1)
    · exact Or.inr (hkw.2.2.2.1.1 hc1)
  | root => simp [Ast.isCondition] at hd'
  | action => simp [Ast.isCondition] at hd'
  | description => simp [Ast.isCondition] at hd'

/-! ## Modifiers -/

theorem lookup_mapInsert (k v t : Str) (m : List (Str × Str)) :
    (mapInsert k v m).lookup t = if t = k then some v else m.lookup t := by
  induction m with
  | nil =>
    by_cases h : t = k
    · subst h; simp [mapInsert]
    · have : (t == k) = false := by simpa using h
      simp [mapInsert, h, List.lookup, this]
  | cons p m ih =>
    obtain ⟨k', v'⟩ := p
    rw [mapInsert]
    by_cases h : k' = k
    · rw [if_pos h]
      by_cases h2 : t = k
      · subst h; subst h2; simp [List.lookup]
      · have : (t == k') = false := by simpa [h] using h2
        simp [List.lookup, this, h2]
    · rw [if_neg h]
      by_cases h2 : t = k'
      · subst h2; simp [List.lookup, h]
      · have : (t == k') = false := by simpa using h2
        simp [List.lookup, this, ih]

theorem discover_lookup {a : Ast} (h : GoodItem a) : ∀ (m : List (Str × Str)) (t : Str),
    (discoverNode a m).lookup t = if t ∈ (conditionsOf [a]).map titleOf then some (camel t) else m.lookup t := by
  induction h with
  | @action s t cs h =>
    intro m t
    rw [conditionsOf_action h]; simp [discoverNode]
  | @condition s t0 cs _ hcs ih =>
    intro m t
    have hl : ∀ (cs : List Ast), (∀ c ∈ cs, ∀ (m : List (Str × Str)) (t : Str),
        (discoverNode c m).lookup t = if t ∈ (conditionsOf [c]).map titleOf then some (camel t) else m.lookup t) →
        ∀ m : List (Str × Str), (discoverNodes cs m).lookup t = if t ∈ (conditionsOf cs).map titleOf then some (camel t) else m.lookup t := by
      intro cs
      induction cs with
      | nil => intro _ m; simp [discoverNodes, conditionsOf, preAll]
      | cons c cs ih2 =>
        intro h m
        rw [discoverNodes, ih2 (fun c hc => h c (by simp [hc])), h c (by simp), conditionsOf_cons c cs]
        simp only [List.map_append, List.mem_append]
        by_cases h1 : t ∈ (conditionsOf [c]).map titleOf <;> by_cases h2 : t ∈ (conditionsOf cs).map titleOf <;> simp [h1, h2]
    rw [discoverNode, hl cs ih, lookup_mapInsert, conditionsOf_condition, lowerFirst_pascal]
    simp only [List.map_cons, List.mem_cons, titleOf]
    by_cases h1 : t = t0
    · subst h1; simp
    · simp [h1]

theorem discoverNodes_lookup {cs : List Ast} (h : ∀ c ∈ cs, GoodItem c) (m : List (Str × Str)) (t : Str) :
    (discoverNodes cs m).lookup t = if t ∈ (conditionsOf cs).map titleOf then some (camel t) else m.lookup t := by
  induction cs generalizing m with
  | nil => simp [discoverNodes, conditionsOf, preAll]
  | cons c cs ih2 =>
    rw [discoverNodes, ih2 (fun c hc => h c (by simp [hc])), discover_lookup (h c (by simp)), conditionsOf_cons c cs]
    simp only [List.map_append, List.mem_append]
    by_cases h1 : t ∈ (conditionsOf [c]).map titleOf <;> by_cases h2 : t ∈ (conditionsOf cs).map titleOf <;> simp [h1, h2]

/-! ## Tests -/

theorem condTitle_words [LawfulUcd] {t : Str} (h : CondTitle t) : ∃ kw rest, IsConditionWord kw ∧ t = kw ++ ' ' :: rest ∧
    splitWs t = kw :: splitWs rest := by
  obtain ⟨kw, rest, h1, rfl, _⟩ := h
  exact ⟨kw, rest, h1, rfl, splitWs_word_cons (condWord_chars h1).1 (fun c hc => alnum_not_ws ((condWord_chars h1).2 c hc).2.2)⟩

theorem utf8_ascii {c : Char} (h : c.toNat < 128) : c.utf8Size = 1 := by
  rw [Char.utf8Size_eq_one_iff]
  have : c.val.toNat < 128 := h
  exact UInt32.le_iff_toNat_le.2 (by simp; omega)

theorem capital_kw_len [LawfulUcd] {kw : Str} (h : IsConditionWord kw) : byteLen (capital kw) = byteLen kw := by
  obtain ⟨hne, hc⟩ := condWord_chars h
  cases kw with
  | nil => rfl
  | cons c r =>
    have := hc c (by simp)
    rw [capital, LawfulUcd.plain_upper c (alnum_plain this.2.2)]
    simp only [byteLen, List.cons_append, List.nil_append, List.map_cons, List.sum_cons]
    rw [utf8_ascii (c := c) (by omega), utf8_ascii]
    by_cases hc : 97 ≤ c.toNat ∧ c.toNat ≤ 122
    · have h4 : (asciiUpper c).toNat = c.toNat - 32 := by
        simp only [asciiUpper, hc.1, hc.2, decide_true, Bool.and_self, if_true]
        exact toNat_ofNat_of_lt (by omega)
      omega
    · have h5 : asciiUpper c = c := by
        simp only [asciiUpper]
        rw [if_neg (by simpa using hc)]
      rw [h5]; omega

theorem conditionTestName_eq [LawfulUcd] {t : Str} (h : CondTitle t) (r : Bool) : conditionTestName r t =
    .ok (match splitWs t with
      | [] => []
      | kw :: ws => if r then c!"test_Revert" ++ capital kw ++ c!"_" ++ glue ws else c!"test_" ++ glue (kw :: ws)) := by
  obtain ⟨kw, rest, h1, h2, h3⟩ := condTitle_words h
  unfold conditionTestName
  rw [h3]
  simp only [upperFirst_eq]
  cases r with
  | false => simp [foldWords_eq, glue]
  | true =>
    have : ¬ byteLen t < byteLen (capital kw) := by
      rw [capital_kw_len h1, h2, byteLen_append]; omega
    simp [this, foldWords_eq, glue]

theorem visitDescription_descs {cs : List Ast} (h : ∀ c ∈ cs, ∃ s' t', c = Ast.description s' t') :
    cs.flatMap visitDescription = (cs.map titleOf).map BodyItem.comment := by
  induction cs with
  | nil => rfl
  | cons c cs ih =>
    obtain ⟨s, t, rfl⟩ := h c (by simp)
    simp [visitDescription, titleOf, ih (fun c hc => h c (by simp [hc]))]

theorem visitActions_eq {cs : List Ast} (h : ∀ c ∈ cs, GoodItem c) (s : Span) (t : Str) :
    visitActions cs = (commentsOf (.condition s t cs)).map BodyItem.comment := by
  simp only [commentsOf, actionsOf, kids]
  induction cs with
  | nil => rfl
  | cons c cs ih =>
    have ih := ih (fun c hc => h c (by simp [hc]))
    unfold visitActions at ih ⊢
    rw [List.flatMap_cons, ih]
    cases h c (by simp) with
    | condition => rw [List.filter_cons_of_neg (by simp [Ast.isAction])]; rfl
    | action hd =>
      rw [List.filter_cons_of_pos (by rfl)]
      simp [visitAction, commentLines, titleOf, kids, visitDescription_descs hd]

theorem isRevert_eq {cs : List Ast} (h : ∀ c ∈ cs, GoodItem c) (s : Span) (t : Str) :
    isRevert (visitActions cs) = reverts (.condition s t cs) := by
  rw [visitActions_eq h s t]
  simp only [reverts, commentsOf]
  cases actionsOf (.condition s t cs) with
  | nil => rfl
  | cons a as => simp [isRevert, commentLines, revertAction]

theorem count_actions {cs : List Ast} (h : ∀ c ∈ cs, GoodItem c) (s : Span) (t : Str) :
    cs.length ≠ (cs.filter Ast.isAction).length ↔ hasNested (.condition s t cs) = true := by
  simp only [hasNested, kids]
  induction cs with
  | nil => simp
  | cons c cs ih =>
    have ih := ih (fun c hc => h c (by simp [hc]))
    have hle := List.length_filter_le Ast.isAction cs
    cases h c (by simp) with
    | condition =>
      rw [List.filter_cons_of_neg (by simp [Ast.isAction]), List.any_cons]
      simp [Ast.isCondition]; omega
    | action =>
      rw [List.filter_cons_of_pos (by rfl), List.any_cons, List.length_cons, List.length_cons]
      simp only [Ast.isCondition, Bool.false_or]
      rw [← ih]; omega

theorem actions_nil {cs : List Ast} (h : ∀ c ∈ cs, GoodItem c) (s : Span) (t : Str) :
    (visitActions cs).isEmpty = true ↔ actionsOf (.condition s t cs) = [] := by
  rw [visitActions_eq h s t, commentsOf]
  cases actionsOf (.condition s t cs) <;> simp [commentLines]

/-- The modifier map knows all conditions. -/
def Knows (mods : List (Str × Str)) (asts : List Ast) : Prop :=
  ∀ c ∈ conditionsOf asts, mods.lookup (titleOf c) = some (modName c)

theorem modList_eq (l : List Str) : (if l.isEmpty then none else some l) = modList l := by
  cases l <;> simp [modList]

theorem conditionTest_eq [LawfulUcd] {skip : Bool} {s : Span} {t : Str} {cs : List Ast} (ht : CondTitle t)
    (h : ∀ c ∈ cs, GoodItem c) (stack : List Str) :
    conditionTest skip s t cs stack = .ok (if actionsOf (.condition s t cs) = [] then [] else
      [⟨testName (.condition s t cs), .function, s, modList stack, some (bodyOf skip (commentsOf (.condition s t cs)))⟩]) := by
  unfold conditionTest
  by_cases ha : actionsOf (.condition s t cs) = []
  · rw [if_pos ha]
    have := (actions_nil h s t).2 ha
    simp [this]
  · rw [if_neg ha]
    have : ¬ ((visitActions cs).isEmpty = true) := fun h' => ha ((actions_nil h s t).1 h')
    simp only [this, Bool.false_eq_true, if_false]
    rw [isRevert_eq h s t, conditionTestName_eq ht]
    simp only [Res.bind_ok]
    rw [modList_eq, visitActions_eq h s t]
    simp only [testName, titleOf, bodyOf, vmSkipItems]
    cases splitWs t <;> rfl

theorem hasNested_nil {cs : List Ast} {s t} (h : hasNested (.condition s t cs) = false) (hg : ∀ c ∈ cs, GoodItem c)
    (encl : List Ast) : inScopeAll encl cs = [] := by
  simp only [hasNested, kids] at h
  induction cs with
  | nil => rfl
  | cons c cs ih =>
    simp only [List.any_cons, Bool.or_eq_false_iff] at h
    rw [inScopeAll, ih h.2 (fun c hc => hg c (by simp [hc])), List.append_nil]
    cases hg c (by simp) with
    | condition => simp [Ast.isCondition] at h
    | action => rfl

theorem visitCondition_eq [LawfulUcd] {a : Ast} (h : GoodItem a) : ∀ (mods : List (Str × Str)) (skip : Bool) (encl : List Ast),
    Knows mods [a] → visitCondition mods skip a (encl.map modName) =
      .ok ((inScope encl a).flatMap (condFns skip), encl.map modName) := by
  induction h with
  | action => intro mods skip encl _; rfl
  | @condition s t cs ht hcs ih =>
    intro mods skip encl hk
    have hl : ∀ (l : List Ast), (∀ c ∈ l, c ∈ cs) → ∀ encl, visitConditions mods skip l (encl.map modName) =
        .ok ((inScopeAll encl l).flatMap (condFns skip), encl.map modName) := by
      intro l
      induction l with
      | nil => intro _ encl; rfl
      | cons c l ih2 =>
        intro hmem encl
        have hkc : Knows mods [c] := by
          intro d hd
          apply hk
          rw [conditionsOf_condition]
          refine List.mem_cons_of_mem _ ?_
          obtain ⟨A, B, rfl⟩ := List.append_of_mem (hmem c (by simp))
          rw [conditionsOf_append, conditionsOf_cons]
          simp [hd]
        rw [visitConditions, ih c (hmem c (by simp)) mods skip encl hkc]
        simp only [Res.bind_ok]
        rw [ih2 (fun c hc => hmem c (by simp [hc])) encl]
        simp [inScopeAll]
    have hlook : mods.lookup t = some (camel t) := hk (.condition s t cs) (by rw [conditionsOf_condition]; simp)
    rw [visitCondition]
    simp only [conditionModifier]
    by_cases hn : hasNested (.condition s t cs) = true
    · have hn' := (count_actions hcs s t).2 hn
      simp only [if_pos hn', hlook]
      rw [conditionTest_eq ht hcs]
      simp only [Res.bind_ok]
      have e : List.map modName encl ++ [camel t] = (encl ++ [Ast.condition s t cs]).map modName := by
        simp [modName, titleOf]
      rw [e, hl cs (fun _ h => h)]
      simp only [Res.bind_ok]
      rw [inScope, List.flatMap_cons]
      simp only [condFns, hn, if_true, condFn, guards, modFn, Ast.span, modName, titleOf]
      simp
    · have hn' : ¬ cs.length ≠ (cs.filter Ast.isAction).length := fun h => hn ((count_actions hcs s t).1 h)
      have hnf : hasNested (.condition s t cs) = false := by simpa using hn
      simp only [if_neg hn']
      rw [conditionTest_eq ht hcs]
      simp only [Res.bind_ok]
      rw [hl cs (fun _ h => h)]
      simp only [Res.bind_ok]
      rw [inScope, List.flatMap_cons, hasNested_nil hnf hcs, hasNested_nil hnf hcs]
      simp [condFns, hnf, condFn, guards, Ast.span]

theorem visitRoot_eq [LawfulUcd] {cs : List Ast} (h : ∀ c ∈ cs, GoodItem c) (mods : List (Str × Str)) (skip : Bool)
    (hk : Knows mods cs) : visitRootChildren mods skip cs [] = .ok (expected skip cs) := by
  induction cs with
  | nil => rfl
  | cons c cs ih =>
    have ih := ih (fun c hc => h c (by simp [hc])) (fun d hd => hk d (by rw [conditionsOf_cons]; simp [hd]))
    have hkc : Knows mods [c] := fun d hd => hk d (by rw [conditionsOf_cons]; simp [hd])
    have hv := visitCondition_eq (h c (by simp)) mods skip [] hkc
    cases h c (by simp) with
    | @condition s t cs' =>
      simp only [List.map_nil] at hv
      simp only [visitRootChildren]
      rw [hv]
      simp only [Res.bind_ok]
      rw [ih]
      simp [expected, Ast.isAction]
    | @action s t cs' hd =>
      simp only [visitRootChildren]
      rw [ih]
      simp only [Res.bind_ok, expected, List.flatMap_cons, Ast.isAction, if_true, List.singleton_append, topActionTest,
        actFn, foldWords_eq, List.nil_append, titleOf, Ast.span, visitAction, visitDescription_descs hd, bodyOf, vmSkipItems,
        commentLines, kids, List.map_cons]

/-- The translation of an accepted tree. -/
theorem translateOne_eq [LawfulUcd] {order : HashOrder} {text : Str} {ast : Ast} (h : parseOne order text = .ok ast)
    (cfg : Config) : translateOne cfg ast = .ok ⟨[⟨titleOf ast, expected cfg.emitVmSkip (kids ast)⟩]⟩ := by
  obtain ⟨s, n, cs, rfl, hg⟩ := parseOne_good h
  have hk : Knows (discoverNodes cs []) cs := by
    intro c hc
    rw [discoverNodes_lookup hg, if_pos (List.mem_map_of_mem hc)]
    rfl
  simp only [translateOne, discover, Res.bind_ok, titleOf, kids]
  rw [visitRoot_eq hg _ _ hk]
  rfl

end
end Bulloak
