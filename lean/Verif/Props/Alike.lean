import Verif.Props.Edit4
import Verif.Spec.Alike
/-!
# The generated code determines the tree: C111
-/

namespace Bulloak
open Spec
set_option linter.unusedSectionVars false

section
variable [U : Ucd]

/-- The lines of the actions among the branches, each with its descriptions. -/
def actionLines (ks : List Ast) : List Str := (ks.filter Ast.isAction).flatMap (fun a => titleOf a :: (kids a).map titleOf)

theorem lines_of_actions (ks : List Ast) : actionLines ks = (actionsIn ks).flatMap (fun p => p.1 :: p.2) := by
  rw [actionLines, actionsIn, List.flatMap_map]

theorem lines_actions {ks ks' : List Ast} (h : actionsIn ks = actionsIn ks') : actionLines ks = actionLines ks' := by
  rw [lines_of_actions, lines_of_actions, h]

/-- Actions do not start with a blank, descriptions do. -/
inductive Blanked : Ast → Prop where
  | condition {s t ks} : (∀ c ∈ ks, Blanked c) → Blanked (.condition s t ks)
  | action {s t ds} : (∃ c r, t = c :: r ∧ c ≠ ' ') → (∀ d ∈ ds, ∃ r, titleOf d = ' ' :: r) → Blanked (.action s t ds)

theorem blocks_unique {l : List (Str × List Str)} : ∀ {l' : List (Str × List Str)}, (∀ p ∈ l, (∃ c r, p.1 = c :: r ∧ c ≠ ' ') ∧ ∀ d ∈ p.2, ∃ r, d = ' ' :: r) →
    (∀ p ∈ l', (∃ c r, p.1 = c :: r ∧ c ≠ ' ') ∧ ∀ d ∈ p.2, ∃ r, d = ' ' :: r) →
    l.flatMap (fun p => p.1 :: p.2) = l'.flatMap (fun p => p.1 :: p.2) → l = l' := by
  have split : ∀ {ds ds' : List Str} {l l' : List (Str × List Str)}, (∀ d ∈ ds, ∃ r, d = ' ' :: r) → (∀ d ∈ ds', ∃ r, d = ' ' :: r) →
      (∀ p ∈ l, ∃ c r, p.1 = c :: r ∧ c ≠ ' ') → (∀ p ∈ l', ∃ c r, p.1 = c :: r ∧ c ≠ ' ') →
      ds ++ l.flatMap (fun p => p.1 :: p.2) = ds' ++ l'.flatMap (fun p => p.1 :: p.2) → ds = ds' ∧ l.flatMap (fun p => p.1 :: p.2) = l'.flatMap (fun p => p.1 :: p.2) := by
    intro ds
    induction ds with
    | nil =>
      intro ds' l l' _ h2 h3 _ h
      cases ds' with
      | nil => exact ⟨rfl, h⟩
      | cons d ds' =>
        obtain ⟨r, rfl⟩ := h2 d (List.mem_cons_self ..)
        cases l with
        | nil => cases h
        | cons p l =>
          obtain ⟨c, r', e, hc⟩ := h3 p (List.mem_cons_self ..)
          simp only [List.nil_append, List.flatMap_cons, List.cons_append, List.cons.injEq] at h
          rw [e, List.cons.injEq] at h
          exact absurd h.1.1 hc
    | cons d ds ih =>
      intro ds' l l' h1 h2 h3 h4 h
      cases ds' with
      | nil =>
        obtain ⟨r, rfl⟩ := h1 d (List.mem_cons_self ..)
        cases l' with
        | nil => cases h
        | cons p l =>
          obtain ⟨c, r', e, hc⟩ := h4 p (List.mem_cons_self ..)
          simp only [List.nil_append, List.flatMap_cons, List.cons_append, List.cons.injEq] at h
          rw [e, List.cons.injEq] at h
          exact absurd h.1.1.symm hc
      | cons d' ds' =>
        simp only [List.cons_append, List.cons.injEq] at h
        obtain ⟨k1, k2⟩ := ih (fun d hd => h1 d (List.mem_cons_of_mem _ hd)) (fun d hd => h2 d (List.mem_cons_of_mem _ hd)) h3 h4 h.2
        exact ⟨by rw [h.1, k1], k2⟩
  induction l with
  | nil =>
    intro l' _ _ h
    cases l' with
    | nil => rfl
    | cons p l' => cases h
  | cons p l ih =>
    intro l' h1 h2 h
    cases l' with
    | nil => cases h
    | cons p' l' =>
      simp only [List.flatMap_cons, List.cons_append, List.cons.injEq] at h
      have h1l := fun q hq => h1 q (List.mem_cons_of_mem _ hq)
      have h2l := fun q hq => h2 q (List.mem_cons_of_mem _ hq)
      obtain ⟨k1, k2⟩ := split (h1 p (List.mem_cons_self ..)).2 (h2 p' (List.mem_cons_self ..)).2 (fun q hq => (h1l q hq).1) (fun q hq => (h2l q hq).1) h.2
      rw [ih h1l h2l k2, show p = p' from Prod.ext h.1 k1]

theorem marked_blocks {ks : List Ast} (h : ∀ c ∈ ks, Blanked c) : ∀ p ∈ actionsIn ks, (∃ c r, p.1 = c :: r ∧ c ≠ ' ') ∧ ∀ d ∈ p.2, ∃ r, d = ' ' :: r := by
  intro p hp
  obtain ⟨a, ha, rfl⟩ := List.mem_map.1 hp
  rw [List.mem_filter] at ha
  cases h a ha.1 with
  | condition => cases ha.2
  | action h1 h2 =>
    refine ⟨h1, fun d hd => ?_⟩
    obtain ⟨b, hb, rfl⟩ := List.mem_map.1 hd
    exact h2 b hb

/-- The lines determine the actions. -/
theorem actions_lines {ks ks' : List Ast} (h : ∀ c ∈ ks, Blanked c) (h' : ∀ c ∈ ks', Blanked c) (e : actionLines ks = actionLines ks') : actionsIn ks = actionsIn ks' := by
  rw [lines_of_actions, lines_of_actions] at e
  exact blocks_unique (marked_blocks h) (marked_blocks h') e

theorem actions_single {s : Span} {t : Str} {ds ks : List Ast} (h : Blanked (.action s t ds)) (h' : ∀ c ∈ ks, Blanked c) (e : t :: ds.map titleOf = actionLines ks) :
    [(t, ds.map titleOf)] = actionsIn ks := by
  apply actions_lines (ks := [.action s t ds]) (by simpa using h) h'
  rw [← e, lines_of_actions]
  exact List.append_nil _

theorem title_start {h : Header} (hl : ∃ c s, h.first.lexeme = c :: s ∧ c ≠ ' ') : ∃ c s, h.title = c :: s ∧ c ≠ ' ' := by
  obtain ⟨c, s, e, hc⟩ := hl
  unfold Header.title Header.words
  rw [List.map_cons, e]
  cases h.more.map (·.lexeme) with
  | nil => exact ⟨c, s, rfl, hc⟩
  | cons x xs => exact ⟨c, _, rfl, hc⟩

theorem items_marked {c : Nat} {hs : List Header} {asts : List Ast} (h : Items c hs asts) : (∀ d ∈ hs, ∃ c s, d.first.lexeme = c :: s ∧ c ≠ ' ') → ∀ a ∈ asts, Blanked a := by
  induction h with
  | nil => intro _ a ha; cases ha
  | condition _ _ _ _ _ _ _ ih1 ih2 =>
    intro hl a ha
    rcases List.mem_cons.1 ha with rfl | ha
    · exact .condition (ih1 (fun d hd => hl d (List.mem_cons_of_mem _ (List.mem_append_left _ hd))))
    · exact ih2 (fun d hd => hl d (List.mem_cons_of_mem _ (List.mem_append_right _ hd))) a ha
  | action _ _ _ hd _ _ ih =>
    intro hl a ha
    rcases List.mem_cons.1 ha with rfl | ha
    · refine .action (title_start (hl _ (List.mem_cons_self ..))) ?_
      intro d hm
      obtain ⟨x, hx, rfl⟩ := List.mem_map.1 hm
      obtain ⟨n, hn⟩ := Nat.exists_eq_add_of_lt (hd x hx).2.1
      refine ⟨spaces n ++ x.title, ?_⟩
      simp only [descAst, titleOf]
      rw [hn, show ∀ a : Nat, a + n + 1 - a = n + 1 from fun a => by omega]
      rfl
    · exact ih (fun d hd => hl d (List.mem_cons_of_mem _ (List.mem_append_right _ hd))) a ha

theorem rootItems_marked {hs : List Header} {asts : List Ast} (h : RootItems hs asts) : (∀ d ∈ hs, ∃ c s, d.first.lexeme = c :: s ∧ c ≠ ' ') → ∀ a ∈ asts, Blanked a := by
  induction h with
  | nil => intro _ a ha; cases ha
  | item h1 _ _ _ ih =>
    intro hl a ha
    rcases List.mem_cons.1 ha with rfl | ha
    · refine items_marked h1 (fun d hd => hl d ?_) _ (List.mem_cons_self ..)
      rcases List.mem_cons.1 hd with rfl | hd
      · exact List.mem_cons_self ..
      · exact List.mem_cons_of_mem _ (List.mem_append_left _ hd)
    · exact ih (fun d hd => hl d (List.mem_cons_of_mem _ (List.mem_append_right _ hd))) a ha

theorem parsed_marked [LawfulUcd] {order : HashOrder} {text : Str} {ast : Ast} (h : parseOne order text = .ok ast) : ∀ a ∈ kids ast, Blanked a := by
  obtain ⟨toks, ht, root, hs, cs, rfl, _, hr, rfl⟩ := parseOne_tree h
  refine rootItems_marked hr (fun d hd => ?_)
  obtain ⟨c, s, e, hc, _⟩ := token_chars ht d.first (by
    simp only [flat, List.mem_cons, List.mem_flatMap]
    exact Or.inr ⟨d, hd, by simp [Header.toks]⟩)
  exact ⟨c, s, e, hc.1⟩

theorem commentsOf_lines (s : Span) (t : Str) (ks : List Ast) : commentsOf (.condition s t ks) = actionLines ks := rfl

theorem camel_pascal [LawfulUcd] {t t' : Str} (h : CondTitle t) (h' : CondTitle t') (e : camel t = camel t') : pascal t = pascal t' := by
  obtain ⟨kw, rest, hk, _, hw⟩ := condTitle_words h
  obtain ⟨kw', rest', hk', _, hw'⟩ := condTitle_words h'
  obtain ⟨x, r, h1, h2, _⟩ := capital_kw hk
  obtain ⟨x', r', h1', h2', _⟩ := capital_kw hk'
  have p : pascal t = x :: (r ++ glue (splitWs rest)) := by rw [pascal, hw]; simp [glue, h1]
  have p' : pascal t' = x' :: (r' ++ glue (splitWs rest')) := by rw [pascal, hw']; simp [glue, h1']
  have lo : ∀ y : Char, y = 'W' ∨ y = 'G' → U.toLower y = [asciiLower y] := by
    rintro y (rfl | rfl) <;> exact LawfulUcd.plain_lower _ (by decide)
  unfold camel at e
  rw [p, p'] at e
  simp only [lo x h2, lo x' h2', List.cons_append, List.nil_append, List.cons.injEq] at e
  rw [p, p', e.2]
  congr 1
  rcases h2 with rfl | rfl <;> rcases h2' with rfl | rfl
  · rfl
  · exact absurd e.1 (by decide)
  · exact absurd e.1 (by decide)
  · rfl

theorem reverts_lines {s s' : Span} {t t' : Str} {ks ks' : List Ast} (h : actionLines ks = actionLines ks') :
    reverts (.condition s t ks) = reverts (.condition s' t' ks') := by
  unfold actionLines at h
  unfold reverts actionsOf
  simp only [kids]
  cases h1 : ks.filter Ast.isAction with
  | nil =>
    cases h2 : ks'.filter Ast.isAction with
    | nil => rfl
    | cons b bs => simp [h1, h2] at h
  | cons a as =>
    cases h2 : ks'.filter Ast.isAction with
    | nil => simp [h1, h2] at h
    | cons b bs =>
      simp only [h1, h2, List.flatMap_cons, List.cons_append, List.cons.injEq] at h
      simp only [revertAction, h.1]

theorem lines_nil {ks : List Ast} : actionLines ks = [] ↔ ks.filter Ast.isAction = [] := by
  unfold actionLines
  cases ks.filter Ast.isAction <;> simp

theorem testName_alike [LawfulUcd] {s s' : Span} {t t' : Str} {ks ks' : List Ast} (h : CondTitle t) (h' : CondTitle t') (e : camel t = camel t')
    (hl : actionLines ks = actionLines ks') : testName (.condition s t ks) = testName (.condition s' t' ks') := by
  have hp := camel_pascal h h' e
  obtain ⟨kw, rest, hk, _, hw⟩ := condTitle_words h
  obtain ⟨kw', rest', hk', _, hw'⟩ := condTitle_words h'
  obtain ⟨x, r, h1, h2, h3, h4, h5⟩ := capital_kw hk
  obtain ⟨x', r', h1', h2', h3', h4', h5'⟩ := capital_kw hk'
  rw [pascal, pascal, hw, hw'] at hp
  unfold testName
  simp only [titleOf, hw, hw', reverts_lines (s := s) (s' := s') (t := t) (t' := t') hl]
  have hp2 : capital kw ++ glue (splitWs rest) = capital kw' ++ glue (splitWs rest') := by simpa [glue] using hp
  have hx : x = x' := by rw [h1, h1'] at hp2; simp at hp2; exact hp2.1
  have hlen : (capital kw).length = (capital kw').length := by
    rw [h5, h5']
    rcases h2 with e | e
    · rw [h3 e, h3' (hx ▸ e)]
    · rw [h4 e, h4' (hx ▸ e)]
  obtain ⟨e1, e2⟩ := List.append_inj hp2 hlen
  split
  · rw [e1, e2]
  · rw [hp]

/-! ## From trees to code -/

theorem code_modFn (c : Ast) : codeOf (modFn c) = (.modifier, modName c, [], []) := rfl

theorem code_condFn (skip : Bool) (encl : List Ast) (c : Ast) :
    codeOf (condFn skip encl c) = (.function, testName c, (guards encl c).map modName, bodyOf skip (commentsOf c)) := by
  simp only [codeOf, condFn, modList_getD, Option.getD_some]

theorem code_actFn (skip : Bool) (s : Span) (t : Str) (ds : List Ast) :
    codeOf (actFn skip (.action s t ds)) = (.function, topName t, [], bodyOf skip (t :: ds.map titleOf)) := rfl

theorem body_inj {skip : Bool} {l l' : List Str} (h : bodyOf skip l = bodyOf skip l') : l = l' := by
  unfold bodyOf at h
  have := List.append_cancel_right h
  exact (List.map_inj_right (fun a b e => BodyItem.comment.inj e)).1 this

/-- The code of branches inside `encl`. -/
def forestCode (skip : Bool) (encl l : List Ast) : List (FnTy × Str × List Str × List BodyItem) := ((inScopeAll encl l).flatMap (condFns skip)).map codeOf

theorem forestCode_nil (skip : Bool) (encl : List Ast) : forestCode skip encl [] = [] := rfl

theorem forestCode_other (skip : Bool) (encl : List Ast) {a : Ast} (h : a.isCondition = false) (l : List Ast) : forestCode skip encl (a :: l) = forestCode skip encl l := by
  cases a with
  | condition => cases h
  | action => simp [forestCode, inScopeAll, inScope]
  | description => simp [forestCode, inScopeAll, inScope]
  | root => simp [forestCode, inScopeAll, inScope]

/-- The code of a condition itself. -/
def ownCode (skip : Bool) (encl : List Ast) (s : Span) (t : Str) (ks : List Ast) : List (FnTy × Str × List Str × List BodyItem) :=
  (if ks.any Ast.isCondition then [(.modifier, camel t, [], [])] else []) ++
    if ks.filter Ast.isAction = [] then []
    else [(.function, testName (.condition s t ks), (encl.map modName ++ if ks.any Ast.isCondition then [camel t] else []), bodyOf skip (actionLines ks))]

theorem own_code (skip : Bool) (encl : List Ast) (s : Span) (t : Str) (ks : List Ast) :
    (condFns skip (encl, .condition s t ks)).map codeOf = ownCode skip encl s t ks := by
  have : condFns skip (encl, .condition s t ks) = (if ks.any Ast.isCondition then [modFn (.condition s t ks)] else []) ++
      (if ks.filter Ast.isAction = [] then [] else [condFn skip encl (.condition s t ks)]) := rfl
  rw [this, ownCode, List.map_append]
  congr 1
  · split <;> rfl
  · split
    · rfl
    · rw [List.map_singleton, code_condFn, guards, commentsOf_lines]
      by_cases hn : ks.any Ast.isCondition = true
      · rw [if_pos hn, if_pos (show hasNested (.condition s t ks) = true from hn), List.map_append]; rfl
      · rw [if_neg hn, if_neg (show ¬ hasNested (.condition s t ks) = true from hn), List.append_nil, List.append_nil]

theorem forestCode_condition (skip : Bool) (encl : List Ast) (s : Span) (t : Str) (ks l : List Ast) :
    forestCode skip encl (.condition s t ks :: l) = ownCode skip encl s t ks ++ (forestCode skip (encl ++ [.condition s t ks]) ks ++ forestCode skip encl l) := by
  unfold forestCode
  rw [inScopeAll, inScope, List.cons_append, List.flatMap_cons, List.map_append, own_code, List.flatMap_append, List.map_append]

theorem alike_any {l l' : List Ast} (h : Lookalike l l') : l.any Ast.isCondition = l'.any Ast.isCondition := by
  induction h with
  | done => rfl
  | left h _ ih => rw [List.any_cons, h, Bool.false_or, ih]
  | right h _ ih => rw [List.any_cons, h, Bool.false_or, ih]
  | condition => simp [Ast.isCondition]

theorem own_alike [LawfulUcd] {skip : Bool} {encl encl' : List Ast} (he : encl.map modName = encl'.map modName) {s s' : Span} {t t' : Str} {ks ks' : List Ast}
    (h : CondTitle t) (h' : CondTitle t') (e : camel t = camel t') (hl : actionLines ks = actionLines ks') (ha : ks.any Ast.isCondition = ks'.any Ast.isCondition) :
    ownCode skip encl s t ks = ownCode skip encl' s' t' ks' := by
  unfold ownCode
  have hn : ks.filter Ast.isAction = [] ↔ ks'.filter Ast.isAction = [] := by rw [← lines_nil, ← lines_nil, hl]
  rw [ha, e, he, hl, testName_alike (s := s) (s' := s') h h' e hl]
  by_cases h1 : ks'.filter Ast.isAction = []
  · rw [if_pos h1, if_pos (hn.2 h1)]
  · rw [if_neg h1, if_neg (fun k => h1 (hn.1 k))]

theorem good_cond {s : Span} {t : Str} {ks : List Ast} (h : GoodItem (.condition s t ks)) : CondTitle t ∧ ∀ c ∈ ks, GoodItem c := by
  cases h with | condition h1 h2 => exact ⟨h1, h2⟩

theorem forest_alike [LawfulUcd] {skip : Bool} {l l' : List Ast} (h : Lookalike l l') : (∀ a ∈ l, GoodItem a) → (∀ a ∈ l', GoodItem a) →
    ∀ {encl encl' : List Ast}, encl.map modName = encl'.map modName → forestCode skip encl l = forestCode skip encl' l' := by
  induction h with
  | done => intros; rfl
  | left h _ ih => intro g g' _ _ he; rw [forestCode_other _ _ h]; exact ih (fun a ha => g a (List.mem_cons_of_mem _ ha)) g' he
  | right h _ ih => intro g g' _ _ he; rw [forestCode_other _ _ h]; exact ih g (fun a ha => g' a (List.mem_cons_of_mem _ ha)) he
  | @condition s s' t t' ks ks' l l' e hl hk _ ih1 ih2 =>
    intro g g' encl encl' he
    have hl := lines_actions hl
    obtain ⟨g1, g2⟩ := good_cond (g _ (List.mem_cons_self ..))
    obtain ⟨g1', g2'⟩ := good_cond (g' _ (List.mem_cons_self ..))
    rw [forestCode_condition, forestCode_condition, own_alike he g1 g1' e hl (alike_any hk),
      ih1 g2 g2' (encl' := encl' ++ [.condition s' t' ks']) (by simp [he, modName, titleOf, e]),
      ih2 (fun a ha => g a (List.mem_cons_of_mem _ ha)) (fun a ha => g' a (List.mem_cons_of_mem _ ha)) he]

/-! ## From code to trees -/

/-- The modifiers of the first test. -/
def firstGuards : List (FnTy × Str × List Str × List BodyItem) → Option (List Str)
  | [] => none
  | (.function, _, g, _) :: _ => some g
  | (.modifier, _, _, _) :: r => firstGuards r

/-- The code does not go on with tests under `p`. -/
def Stops (p : List Str) (x : List (FnTy × Str × List Str × List BodyItem)) : Prop := ∀ g, firstGuards x = some g → ¬ p <+: g

/-- Conditions are not empty, and have different names; actions and descriptions can be told apart. -/
def Usable (l : List Ast) : Prop := (∀ c ∈ conditionsOf l, kids c ≠ []) ∧ ((conditionsOf l).map modName).Nodup ∧ ∀ a ∈ l, Blanked a

theorem usable_kids {s : Span} {t : Str} {ks l : List Ast} (h : Usable (.condition s t ks :: l)) : ∀ c ∈ ks, Blanked c := by
  cases h.2.2 _ (List.mem_cons_self ..) with
  | condition h => exact h

theorem sound_tail {a : Ast} {l : List Ast} (h : Usable (a :: l)) : Usable l := by
  unfold Usable at h ⊢
  rw [conditionsOf_cons, List.map_append] at h
  exact ⟨fun c hc => h.1 c (List.mem_append_right _ hc), (List.nodup_append.1 h.2.1).2.1, fun b hb => h.2.2 b (List.mem_cons_of_mem _ hb)⟩

theorem sound_kids {s : Span} {t : Str} {ks l : List Ast} (h : Usable (.condition s t ks :: l)) :
    ks ≠ [] ∧ Usable ks ∧ camel t ∉ (conditionsOf ks).map modName ∧ camel t ∉ (conditionsOf l).map modName := by
  have hk := usable_kids h
  unfold Usable at h ⊢
  rw [conditionsOf_cons, conditionsOf_condition, List.cons_append, List.map_cons, List.map_append, List.nodup_cons] at h
  refine ⟨h.1 (.condition s t ks) (List.mem_cons_self ..), ⟨fun c hc => h.1 c (List.mem_cons_of_mem _ (List.mem_append_left _ hc)), (List.nodup_append.1 h.2.1.2).1, hk⟩, ?_, ?_⟩
  · exact fun k => h.2.1.1 (List.mem_append_left _ k)
  · exact fun k => h.2.1.1 (List.mem_append_right _ k)

theorem good_other {a : Ast} (h : GoodItem a) (hc : a.isCondition = false) : a.isAction = true := by
  cases h with
  | condition => cases hc
  | action => rfl

/-- The first test of a condition is under the conditions around it, or under it. -/
theorem first_test (skip : Bool) {a : Ast} (hg : GoodItem a) : ∀ {s : Span} {t : Str} {ks : List Ast}, a = .condition s t ks → (∀ c ∈ conditionsOf [a], kids c ≠ []) →
    ∀ (encl : List Ast) (l : List Ast) (x : List (FnTy × Str × List Str × List BodyItem)), ∃ g, firstGuards (forestCode skip encl (a :: l) ++ x) = some g ∧
      (g = encl.map modName ∨ ∃ q, g = encl.map modName ++ camel t :: q) := by
  induction hg with
  | action => intro s t ks e; cases e
  | @condition s0 t0 ks0 ht hk ih =>
    intro s t ks e hne encl l x
    obtain ⟨rfl, rfl, rfl⟩ : s0 = s ∧ t0 = t ∧ ks0 = ks := by simpa using e
    rw [conditionsOf_condition] at hne
    rw [forestCode_condition, ownCode]
    by_cases ha : ks0.filter Ast.isAction = []
    · rw [if_pos ha, List.append_nil]
      have hall : ∀ a ∈ ks0, a.isCondition = true := by
        intro a ha'
        cases hc : a.isCondition with
        | true => rfl
        | false =>
          have := List.filter_eq_nil_iff.1 ha a ha'
          exact absurd (good_other (hk a ha') hc) this
      cases ks0 with
      | nil => exact absurd rfl (hne _ (List.mem_cons_self ..))
      | cons d ds =>
        have hd := hall d (List.mem_cons_self ..)
        rw [List.any_cons, hd, Bool.true_or, if_pos rfl]
        cases d with
        | condition s1 t1 ks1 =>
          obtain ⟨g, h1, h2⟩ := ih (.condition s1 t1 ks1) (List.mem_cons_self ..) rfl
            (fun c hc => hne c (List.mem_cons_of_mem _ (by rw [conditionsOf_cons]; exact List.mem_append_left _ hc)))
            (encl ++ [.condition s0 t0 (.condition s1 t1 ks1 :: ds)]) ds (forestCode skip encl l ++ x)
          refine ⟨g, ?_, .inr ?_⟩
          · simpa [firstGuards] using h1
          · rcases h2 with rfl | ⟨q, rfl⟩
            · exact ⟨[], by simp [modName, titleOf]⟩
            · exact ⟨camel t1 :: q, by simp [modName, titleOf]⟩
        | action => cases hd
        | description => cases hd
        | root => cases hd
    · rw [if_neg ha]
      refine ⟨encl.map modName ++ if ks0.any Ast.isCondition then [camel t0] else [], ?_, ?_⟩
      · split <;> simp [firstGuards]
      · split
        · exact .inr ⟨[], rfl⟩
        · exact .inl (by simp)

/-- What follows a condition does not go on with tests under it. -/
theorem ends_next {skip : Bool} {encl l : List Ast} {m : Str} {x : List (FnTy × Str × List Str × List BodyItem)} (hg : ∀ a ∈ l, GoodItem a) (hs : Usable l)
    (hm : m ∉ (conditionsOf l).map modName) (hx : Stops (encl.map modName ++ [m]) x) : Stops (encl.map modName ++ [m]) (forestCode skip encl l ++ x) := by
  induction l with
  | nil => exact hx
  | cons a l ih =>
    have hgl := fun b hb => hg b (List.mem_cons_of_mem _ hb)
    rw [conditionsOf_cons, List.map_append, List.mem_append, not_or] at hm
    cases hc : a.isCondition with
    | false => rw [forestCode_other _ _ hc]; exact ih hgl (sound_tail hs) hm.2
    | true =>
      cases a with
      | condition s t ks =>
        intro g h1 h2
        obtain ⟨g', k1, k2⟩ := first_test skip (hg _ (List.mem_cons_self ..)) rfl
          (fun c hc => hs.1 c (by rw [conditionsOf_cons]; exact List.mem_append_left _ hc)) encl l x
        rw [h1] at k1
        obtain rfl := Option.some.inj k1
        rcases k2 with rfl | ⟨q, rfl⟩
        · have := h2.length_le
          simp at this
          omega
        · obtain ⟨r, hr⟩ := h2
          rw [List.append_assoc] at hr
          have := List.append_cancel_left hr
          simp only [List.cons_append, List.nil_append, List.cons.injEq] at this
          apply hm.1
          rw [conditionsOf_condition, this.1]
          exact List.mem_cons_self ..
      | action => cases hc
      | description => cases hc
      | root => cases hc

theorem ends_more {p q : List Str} {x : List (FnTy × Str × List Str × List BodyItem)} (h : Stops p x) : Stops (p ++ q) x :=
  fun g hg hp => h g hg ((List.prefix_append p q).trans hp)

theorem nested_or {ks : List Ast} (hg : ∀ c ∈ ks, GoodItem c) (hne : ks ≠ []) (h : ks.any Ast.isCondition = false) : ks.filter Ast.isAction ≠ [] := by
  cases ks with
  | nil => exact absurd rfl hne
  | cons a ks =>
    rw [List.any_cons, Bool.or_eq_false_iff] at h
    rw [List.filter_cons_of_pos (good_other (hg a (List.mem_cons_self ..)) h.1)]
    simp

/-- A test of a condition is not the first code of branches without a condition of that name. -/
theorem head_test [LawfulUcd] {skip : Bool} {s : Span} {t : Str} {ks : List Ast} (ht : CondTitle t) {g : List Str} {b : List BodyItem} {encl l : List Ast}
    (hg : ∀ a ∈ l, GoodItem a) (hs : Usable l) (hn : l.any Ast.isCondition = true) {x x' : List (FnTy × Str × List Str × List BodyItem)}
    (h : (FnTy.function, testName (.condition s t ks), g, b) :: x = forestCode skip encl l ++ x') : camel t ∈ (conditionsOf l).map modName := by
  induction l with
  | nil => cases hn
  | cons a l ih =>
    have hgl := fun b hb => hg b (List.mem_cons_of_mem _ hb)
    rw [conditionsOf_cons, List.map_append, List.mem_append]
    cases hc : a.isCondition with
    | false =>
      rw [forestCode_other _ _ hc] at h
      rw [List.any_cons, hc, Bool.false_or] at hn
      exact .inr (ih hgl (sound_tail hs) hn h)
    | true =>
      cases a with
      | condition s1 t1 ks1 =>
        obtain ⟨g1, g2⟩ := good_cond (hg _ (List.mem_cons_self ..))
        obtain ⟨u1, u2, u3, u4⟩ := sound_kids hs
        rw [forestCode_condition, ownCode] at h
        by_cases hn1 : ks1.any Ast.isCondition = true
        · rw [if_pos hn1] at h
          simp at h
        · have ha := nested_or g2 u1 (by simpa using hn1)
          rw [if_neg hn1, if_neg ha] at h
          simp only [List.nil_append, List.cons_append, List.append_assoc, List.cons.injEq, Prod.mk.injEq, true_and] at h
          left
          rw [conditionsOf_condition]
          have := testName_inj (c := .condition s t ks) (d := .condition s1 t1 ks1) ht g1 h.1.1
          exact List.mem_cons.2 (.inl this)
      | action => cases hc
      | description => cases hc
      | root => cases hc

/-- Two conditions with nested ones and the same code in front of what follows: the same name, the same actions; and what is inside has the same code. -/
theorem unique_own [LawfulUcd] {skip : Bool} {encl encl' : List Ast} {s s' : Span} {t t' : Str} {ks ks' l l' : List Ast}
    (hg : GoodItem (.condition s t ks)) (hg' : GoodItem (.condition s' t' ks')) (hs : Usable (.condition s t ks :: l)) (hs' : Usable (.condition s' t' ks' :: l'))
    {x x' : List (FnTy × Str × List Str × List BodyItem)} (hn : ks.any Ast.isCondition = true) (hn' : ks'.any Ast.isCondition = true)
    (heq : ownCode skip encl s t ks ++ (forestCode skip (encl ++ [.condition s t ks]) ks ++ x) =
      ownCode skip encl' s' t' ks' ++ (forestCode skip (encl' ++ [.condition s' t' ks']) ks' ++ x')) :
    camel t = camel t' ∧ actionLines ks = actionLines ks' ∧
      forestCode skip (encl ++ [.condition s t ks]) ks ++ x = forestCode skip (encl' ++ [.condition s' t' ks']) ks' ++ x' := by
  obtain ⟨g1, g2⟩ := good_cond hg
  obtain ⟨g1', g2'⟩ := good_cond hg'
  obtain ⟨_, u2, u3, _⟩ := sound_kids hs
  obtain ⟨_, u2', u3', _⟩ := sound_kids hs'
  unfold ownCode at heq
  simp only [hn, hn', if_true, List.cons_append, List.nil_append, List.cons.injEq, Prod.mk.injEq, true_and, and_true] at heq
  obtain ⟨e, heq⟩ := heq
  by_cases ha : ks.filter Ast.isAction = [] <;> by_cases ha' : ks'.filter Ast.isAction = []
  · rw [if_pos ha, if_pos ha'] at heq
    exact ⟨e, (lines_nil.2 ha).trans (lines_nil.2 ha').symm, heq⟩
  · rw [if_pos ha, if_neg ha'] at heq
    exact absurd (head_test g1' g2 u2 hn heq.symm) (e ▸ u3)
  · rw [if_neg ha, if_pos ha'] at heq
    exact absurd (head_test g1 g2' u2' hn' heq) (e ▸ u3')
  · rw [if_neg ha, if_neg ha'] at heq
    simp only [List.cons_append, List.nil_append, List.cons.injEq, Prod.mk.injEq, true_and] at heq
    exact ⟨e, body_inj heq.1.2.2, heq.2⟩

/-- The code of branches determines them, and where they end. -/
theorem forest_unique [LawfulUcd] {skip : Bool} (n : Nat) : ∀ {l l' encl encl' : List Ast} {x x' : List (FnTy × Str × List Str × List BodyItem)},
    sizeOf l + sizeOf l' ≤ n → encl.map modName = encl'.map modName → (∀ a ∈ l, GoodItem a) → (∀ a ∈ l', GoodItem a) → Usable l → Usable l' →
    Stops (encl.map modName) x → Stops (encl.map modName) x' → forestCode skip encl l ++ x = forestCode skip encl' l' ++ x' → Lookalike l l' ∧ x = x' := by
  induction n with
  | zero =>
    intro l l' _ _ _ _ h
    cases l <;> simp at h
  | succ n ih =>
    intro l l' encl encl' x x' hsz he hg hg' hs hs' hx hx' heq
    -- skip actions
    cases l with
    | cons a l =>
      have hgl := fun b hb => hg b (List.mem_cons_of_mem _ hb)
      cases hc : a.isCondition with
      | false =>
        rw [forestCode_other _ _ hc] at heq
        obtain ⟨h1, h2⟩ := ih (by simp at hsz; omega) he hgl hg' (sound_tail hs) hs' hx hx' heq
        exact ⟨.left hc h1, h2⟩
      | true =>
        cases l' with
        | cons a' l' =>
          have hgl' := fun b hb => hg' b (List.mem_cons_of_mem _ hb)
          cases hc' : a'.isCondition with
          | false =>
            rw [forestCode_other _ _ hc'] at heq
            obtain ⟨h1, h2⟩ := ih (by simp at hsz ⊢; omega) he hg hgl' hs (sound_tail hs') hx hx' heq
            exact ⟨.right hc' h1, h2⟩
          | true =>
            cases a with
            | condition s t ks =>
              cases a' with
              | condition s' t' ks' =>
                obtain ⟨g1, g2⟩ := good_cond (hg _ (List.mem_cons_self ..))
                obtain ⟨g1', g2'⟩ := good_cond (hg' _ (List.mem_cons_self ..))
                obtain ⟨u1, u2, u3, u4⟩ := sound_kids hs
                obtain ⟨u1', u2', u3', u4'⟩ := sound_kids hs'
                simp only [List.cons.sizeOf_spec, Ast.condition.sizeOf_spec] at hsz
                rw [forestCode_condition, forestCode_condition, List.append_assoc, List.append_assoc, List.append_assoc, List.append_assoc] at heq
                have hsame : ks.any Ast.isCondition = ks'.any Ast.isCondition := by
                  unfold ownCode at heq
                  by_cases h1 : ks.any Ast.isCondition = true <;> by_cases h2 : ks'.any Ast.isCondition = true
                  · rw [h1, h2]
                  · have := nested_or g2' u1' (by simpa using h2)
                    rw [if_pos h1, if_neg h2, if_neg this] at heq
                    simp at heq
                  · have := nested_or g2 u1 (by simpa using h1)
                    rw [if_neg h1, if_pos h2, if_neg this] at heq
                    simp at heq
                  · rw [Bool.not_eq_true] at h1 h2; rw [h1, h2]
                cases hn : ks.any Ast.isCondition with
                | true =>
                  obtain ⟨e1, e2, e3⟩ := unique_own (hg _ (List.mem_cons_self ..)) (hg' _ (List.mem_cons_self ..)) hs hs' hn (hsame ▸ hn) heq
                  have hp : (encl ++ [Ast.condition s t ks]).map modName = encl.map modName ++ [camel t] := by simp [modName, titleOf]
                  obtain ⟨k1, k2⟩ := ih (l := ks) (l' := ks') (encl := encl ++ [.condition s t ks]) (encl' := encl' ++ [.condition s' t' ks']) (by omega)
                    (by simp [he, modName, titleOf, e1]) g2 g2' u2 u2'
                    (by rw [hp]; exact ends_next hgl (sound_tail hs) u4 (ends_more hx))
                    (by rw [hp, he]; exact ends_next hgl' (sound_tail hs') (e1 ▸ u4') (ends_more (he ▸ hx'))) e3
                  obtain ⟨k3, k4⟩ := ih (by omega) he hgl hgl' (sound_tail hs) (sound_tail hs') hx hx' k2
                  exact ⟨.condition e1 (actions_lines u2.2.2 u2'.2.2 e2) k1 k3, k4⟩
                | false =>
                  have hn' : ks'.any Ast.isCondition = false := hsame ▸ hn
                  have na := nested_or g2 u1 hn
                  have na' := nested_or g2' u1' hn'
                  unfold ownCode at heq
                  simp only [hn, hn', Bool.false_eq_true, if_false, na, na', List.cons_append, List.nil_append, List.cons.injEq, Prod.mk.injEq, true_and] at heq
                  obtain ⟨⟨e1, _, e2⟩, e3⟩ := heq
                  have e1 : camel t = camel t' := testName_inj (c := .condition s t ks) (d := .condition s' t' ks') g1 g1' e1
                  have none : ∀ {l : List Ast} {en : List Ast}, l.any Ast.isCondition = false → forestCode skip en l = [] := by
                    intro l en h
                    induction l with
                    | nil => rfl
                    | cons a l ih =>
                      rw [List.any_cons, Bool.or_eq_false_iff] at h
                      rw [forestCode_other _ _ h.1, ih h.2]
                  have alike : ∀ {l l' : List Ast}, l.any Ast.isCondition = false → l'.any Ast.isCondition = false → Lookalike l l' := by
                    intro l l' h h'
                    induction l with
                    | nil =>
                      induction l' with
                      | nil => exact .done
                      | cons a l ih => rw [List.any_cons, Bool.or_eq_false_iff] at h'; exact .right h'.1 (ih h'.2)
                    | cons a l ih => rw [List.any_cons, Bool.or_eq_false_iff] at h; exact .left h.1 (ih h.2)
                  rw [none hn, none hn', List.nil_append, List.nil_append] at e3
                  obtain ⟨k3, k4⟩ := ih (by omega) he hgl hgl' (sound_tail hs) (sound_tail hs') hx hx' e3
                  exact ⟨.condition e1 (actions_lines u2.2.2 u2'.2.2 (body_inj e2)) (alike hn hn') k3, k4⟩
              | action => cases hc'
              | description => cases hc'
              | root => cases hc'
            | action => cases hc
            | description => cases hc
            | root => cases hc
        | nil =>
          cases a with
          | condition s t ks =>
            rw [forestCode_nil, List.nil_append] at heq
            obtain ⟨g, k1, k2⟩ := first_test skip (hg _ (List.mem_cons_self ..)) rfl
              (fun c hc => hs.1 c (by rw [conditionsOf_cons]; exact List.mem_append_left _ hc)) encl l x
            rw [heq] at k1
            refine absurd ?_ (hx' g k1)
            rcases k2 with rfl | ⟨q, rfl⟩
            · exact List.prefix_refl _
            · exact List.prefix_append _ _
          | action => cases hc
          | description => cases hc
          | root => cases hc
    | nil =>
      cases l' with
      | nil => exact ⟨.done, heq⟩
      | cons a' l' =>
        have hgl' := fun b hb => hg' b (List.mem_cons_of_mem _ hb)
        cases hc' : a'.isCondition with
        | false =>
          rw [forestCode_other _ _ hc'] at heq
          obtain ⟨h1, h2⟩ := ih (by simp at hsz ⊢; omega) he hg hgl' hs (sound_tail hs') hx hx' heq
          exact ⟨.right hc' h1, h2⟩
        | true =>
          cases a' with
          | condition s t ks =>
            rw [forestCode_nil, List.nil_append] at heq
            obtain ⟨g, k1, k2⟩ := first_test skip (hg' _ (List.mem_cons_self ..)) rfl
              (fun c hc => hs'.1 c (by rw [conditionsOf_cons]; exact List.mem_append_left _ hc)) encl' l' x'
            rw [← heq] at k1
            refine absurd ?_ (hx g k1)
            rw [he]
            rcases k2 with rfl | ⟨q, rfl⟩
            · exact List.prefix_refl _
            · exact List.prefix_append _ _
          | action => cases hc'
          | description => cases hc'
          | root => cases hc'

/-! ## Whole trees -/

/-- The code of a tree. -/
def topCode (skip : Bool) (l : List Ast) : List (FnTy × Str × List Str × List BodyItem) := (expected skip l).map codeOf

theorem topCode_action (skip : Bool) (s : Span) (t : Str) (ds l : List Ast) :
    topCode skip (.action s t ds :: l) = (.function, topName t, [], bodyOf skip (t :: ds.map titleOf)) :: topCode skip l := by
  unfold topCode
  rw [expected_split, List.map_append]
  rfl

theorem topCode_condition (skip : Bool) (s : Span) (t : Str) (ks l : List Ast) :
    topCode skip (.condition s t ks :: l) = ownCode skip [] s t ks ++ (forestCode skip [.condition s t ks] ks ++ topCode skip l) := by
  unfold topCode
  rw [expected_split, List.map_append]
  have : (expected skip [.condition s t ks]).map codeOf = forestCode skip [] [.condition s t ks] := by
    unfold forestCode
    simp [expected, Ast.isAction, inScopeAll]
  rw [this, forestCode_condition, forestCode_nil, List.append_nil, List.append_assoc]
  rfl

theorem good_cases {a : Ast} (h : GoodItem a) : (∃ s t ds, a = .action s t ds) ∨ ∃ s t ks, a = .condition s t ks := by
  cases h with
  | condition => exact .inr ⟨_, _, _, rfl⟩
  | action => exact .inl ⟨_, _, _, rfl⟩

theorem top_alike [LawfulUcd] {skip : Bool} {l l' : List Ast} (h : LookalikeTop l l') : (∀ a ∈ l, GoodItem a) → (∀ a ∈ l', GoodItem a) → topCode skip l = topCode skip l' := by
  have none : ∀ {l : List Ast} {en : List Ast}, l.any Ast.isCondition = false → forestCode skip en l = [] := by
    intro l en h
    induction l with
    | nil => rfl
    | cons a l ih =>
      rw [List.any_cons, Bool.or_eq_false_iff] at h
      rw [forestCode_other _ _ h.1, ih h.2]
  have single : ∀ {s s' : Span} {t t' : Str} {ds ks : List Ast}, topName t = testName (.condition s' t' ks) → [(t, ds.map titleOf)] = actionsIn ks → ks.any Ast.isCondition = false →
      ∀ {r r' : List Ast}, topCode skip r = topCode skip r' → topCode skip (.action s t ds :: r) = topCode skip (.condition s' t' ks :: r') := by
    intro s s' t t' ds ks h1 h2 h3 r r' h4
    have h2 : t :: ds.map titleOf = actionLines ks := by rw [lines_of_actions, ← h2]; simp
    have : ks.filter Ast.isAction ≠ [] := by rw [Ne, ← lines_nil, ← h2]; simp
    rw [topCode_action, topCode_condition, ownCode, if_neg this, none h3, h1, h2, h4]
    simp [h3]
  induction h with
  | done => intros; rfl
  | action e _ ih =>
    intro g g'
    rw [topCode_action, topCode_action, e, ih (fun a ha => g a (List.mem_cons_of_mem _ ha)) (fun a ha => g' a (List.mem_cons_of_mem _ ha))]
  | @condition s s' t t' ks ks' l l' e hl hk _ ih =>
    intro g g'
    have hl := lines_actions hl
    obtain ⟨g1, g2⟩ := good_cond (g _ (List.mem_cons_self ..))
    obtain ⟨g1', g2'⟩ := good_cond (g' _ (List.mem_cons_self ..))
    rw [topCode_condition, topCode_condition, own_alike rfl g1 g1' e hl (alike_any hk),
      forest_alike hk g2 g2' (encl := [.condition s t ks]) (encl' := [.condition s' t' ks']) (by simp [modName, titleOf, e]),
      ih (fun a ha => g a (List.mem_cons_of_mem _ ha)) (fun a ha => g' a (List.mem_cons_of_mem _ ha))]
  | mixed h1 h2 h3 _ ih =>
    intro g g'
    exact single h1 h2 h3 (ih (fun a ha => g a (List.mem_cons_of_mem _ ha)) (fun a ha => g' a (List.mem_cons_of_mem _ ha)))
  | mixed' h1 h2 h3 _ ih =>
    intro g g'
    exact (single h1 h2 h3 (ih (fun a ha => g a (List.mem_cons_of_mem _ ha)) (fun a ha => g' a (List.mem_cons_of_mem _ ha))).symm).symm

theorem stops_top {skip : Bool} {l : List Ast} {m : Str} (hg : ∀ a ∈ l, GoodItem a) (hs : Usable l) (hm : m ∉ (conditionsOf l).map modName) : Stops [m] (topCode skip l) := by
  cases l with
  | nil => intro g h; cases h
  | cons a l =>
    rcases good_cases (hg a (List.mem_cons_self ..)) with ⟨s, t, ds, rfl⟩ | ⟨s, t, ks, rfl⟩
    · intro g h hp
      rw [topCode_action] at h
      obtain rfl := Option.some.inj h
      have := hp.length_le
      simp at this
    · intro g h1 h2
      rw [topCode_condition] at h1
      obtain ⟨g', k1, k2⟩ := first_test skip (hg _ (List.mem_cons_self ..)) rfl
        (fun c hc => hs.1 c (by rw [conditionsOf_cons]; exact List.mem_append_left _ hc)) [] [] (topCode skip l)
      rw [forestCode_condition, forestCode_nil, List.append_nil, List.append_assoc] at k1
      have k1 : some g = some g' := h1.symm.trans k1
      obtain rfl := Option.some.inj k1
      rcases k2 with rfl | ⟨q, rfl⟩
      · have := h2.length_le
        simp at this
      · obtain ⟨r, hr⟩ := h2
        simp only [List.map_nil, List.cons_append, List.nil_append, List.cons.injEq] at hr
        apply hm
        rw [conditionsOf_cons, conditionsOf_condition, hr.1]
        exact List.mem_cons_self ..

theorem lookalike_plain {l l' : List Ast} (h : l.any Ast.isCondition = false) (h' : l'.any Ast.isCondition = false) : Lookalike l l' := by
  induction l with
  | nil =>
    induction l' with
    | nil => exact .done
    | cons a l ih => rw [List.any_cons, Bool.or_eq_false_iff] at h'; exact .right h'.1 (ih h'.2)
  | cons a l ih => rw [List.any_cons, Bool.or_eq_false_iff] at h; exact .left h.1 (ih h.2)

theorem forestCode_plain {skip : Bool} {l en : List Ast} (h : l.any Ast.isCondition = false) : forestCode skip en l = [] := by
  induction l with
  | nil => rfl
  | cons a l ih =>
    rw [List.any_cons, Bool.or_eq_false_iff] at h
    rw [forestCode_other _ _ h.1, ih h.2]

theorem topCode_leaf {skip : Bool} {s : Span} {t : Str} {ks l : List Ast} (hn : ks.any Ast.isCondition = false) (ha : ks.filter Ast.isAction ≠ []) :
    topCode skip (.condition s t ks :: l) = (.function, testName (.condition s t ks), [], bodyOf skip (actionLines ks)) :: topCode skip l := by
  rw [topCode_condition, ownCode, if_neg ha, forestCode_plain hn]
  simp [hn]

theorem topCode_nested {skip : Bool} {s : Span} {t : Str} {ks l : List Ast} (hn : ks.any Ast.isCondition = true) :
    ∃ r, topCode skip (.condition s t ks :: l) = (.modifier, camel t, [], []) :: r := by
  rw [topCode_condition, ownCode, if_pos hn]
  exact ⟨_, rfl⟩

/-- The code of a tree determines it. -/
theorem top_unique [LawfulUcd] {skip : Bool} {l : List Ast} : ∀ {l' : List Ast}, (∀ a ∈ l, GoodItem a) → (∀ a ∈ l', GoodItem a) → Usable l → Usable l' →
    topCode skip l = topCode skip l' → LookalikeTop l l' := by
  have ne : ∀ {a : Ast} {l : List Ast}, (∀ b ∈ a :: l, GoodItem b) → Usable (a :: l) → topCode skip (a :: l) ≠ [] := by
    intro a l hg hs h
    rcases good_cases (hg a (List.mem_cons_self ..)) with ⟨s, t, ds, rfl⟩ | ⟨s, t, ks, rfl⟩
    · rw [topCode_action] at h; cases h
    · cases hn : ks.any Ast.isCondition with
      | true => obtain ⟨r, hr⟩ := topCode_nested (skip := skip) (s := s) (t := t) (l := l) hn; rw [hr] at h; cases h
      | false => rw [topCode_leaf hn (nested_or (good_cond (hg _ (List.mem_cons_self ..))).2 (sound_kids hs).1 hn)] at h; cases h
  induction l with
  | nil =>
    intro l' hg hg' hs hs' h
    cases l' with
    | nil => exact .done
    | cons a l' => exact absurd h.symm (ne hg' hs')
  | cons a l ih =>
    intro l' hg hg' hs hs' h
    cases l' with
    | nil => exact absurd h (ne hg hs)
    | cons a' l' =>
      have hgl := fun b hb => hg b (List.mem_cons_of_mem _ hb)
      have hgl' := fun b hb => hg' b (List.mem_cons_of_mem _ hb)
      rcases good_cases (hg a (List.mem_cons_self ..)) with ⟨s, t, ds, rfl⟩ | ⟨s, t, ks, rfl⟩
      · rcases good_cases (hg' a' (List.mem_cons_self ..)) with ⟨s', t', ds', rfl⟩ | ⟨s', t', ks', rfl⟩
        · rw [topCode_action, topCode_action] at h
          simp only [List.cons.injEq, Prod.mk.injEq, true_and] at h
          have hb := body_inj h.1.2
          rw [List.cons.injEq] at hb
          obtain ⟨rfl, hb⟩ := hb
          exact .action hb (ih hgl hgl' (sound_tail hs) (sound_tail hs') h.2)
        · cases hn : ks'.any Ast.isCondition with
          | true =>
            obtain ⟨r, hr⟩ := topCode_nested (skip := skip) (s := s') (t := t') (l := l') hn
            rw [topCode_action, hr] at h
            simp at h
          | false =>
            rw [topCode_action, topCode_leaf hn (nested_or (good_cond (hg' _ (List.mem_cons_self ..))).2 (sound_kids hs').1 hn)] at h
            simp only [List.cons.injEq, Prod.mk.injEq, true_and] at h
            exact .mixed h.1.1 (actions_single (hs.2.2 _ (List.mem_cons_self ..)) (usable_kids hs') (body_inj h.1.2)) hn (ih hgl hgl' (sound_tail hs) (sound_tail hs') h.2)
      · have g2 := (good_cond (hg _ (List.mem_cons_self ..)))
        have u := sound_kids hs
        rcases good_cases (hg' a' (List.mem_cons_self ..)) with ⟨s', t', ds', rfl⟩ | ⟨s', t', ks', rfl⟩
        · cases hn : ks.any Ast.isCondition with
          | true =>
            obtain ⟨r, hr⟩ := topCode_nested (skip := skip) (s := s) (t := t) (l := l) hn
            rw [topCode_action, hr] at h
            simp at h
          | false =>
            rw [topCode_action, topCode_leaf hn (nested_or g2.2 u.1 hn)] at h
            simp only [List.cons.injEq, Prod.mk.injEq, true_and] at h
            exact .mixed' h.1.1.symm (actions_single (hs'.2.2 _ (List.mem_cons_self ..)) (usable_kids hs) (body_inj h.1.2).symm) hn (ih hgl hgl' (sound_tail hs) (sound_tail hs') h.2)
        · have g2' := (good_cond (hg' _ (List.mem_cons_self ..)))
          have u' := sound_kids hs'
          cases hn : ks.any Ast.isCondition with
          | true =>
            cases hn' : ks'.any Ast.isCondition with
            | true =>
              rw [topCode_condition, topCode_condition] at h
              obtain ⟨e1, e2, e3⟩ := unique_own (encl := []) (encl' := []) (hg _ (List.mem_cons_self ..)) (hg' _ (List.mem_cons_self ..)) hs hs' hn hn' h
              obtain ⟨k1, k2⟩ := forest_unique _ (Nat.le_refl _) (encl := [.condition s t ks]) (encl' := [.condition s' t' ks']) (by simp [modName, titleOf, e1]) g2.2 g2'.2 u.2.1 u'.2.1
                (show Stops [camel t] _ from stops_top hgl (sound_tail hs) u.2.2.2)
                (show Stops [camel t] _ from stops_top hgl' (sound_tail hs') (e1 ▸ u'.2.2.2)) e3
              exact .condition e1 (actions_lines (usable_kids hs) (usable_kids hs') e2) k1 (ih hgl hgl' (sound_tail hs) (sound_tail hs') k2)
            | false =>
              obtain ⟨r, hr⟩ := topCode_nested (skip := skip) (s := s) (t := t) (l := l) hn
              rw [hr, topCode_leaf hn' (nested_or g2'.2 u'.1 hn')] at h
              simp at h
          | false =>
            cases hn' : ks'.any Ast.isCondition with
            | true =>
              obtain ⟨r, hr⟩ := topCode_nested (skip := skip) (s := s') (t := t') (l := l') hn'
              rw [hr, topCode_leaf hn (nested_or g2.2 u.1 hn)] at h
              simp at h
            | false =>
              rw [topCode_leaf hn (nested_or g2.2 u.1 hn), topCode_leaf hn' (nested_or g2'.2 u'.1 hn')] at h
              simp only [List.cons.injEq, Prod.mk.injEq, true_and] at h
              exact .condition (testName_inj (c := .condition s t ks) (d := .condition s' t' ks') g2.1 g2'.1 h.1.1) (actions_lines (usable_kids hs) (usable_kids hs') (body_inj h.1.2)) (lookalike_plain hn hn')
                (ih hgl hgl' (sound_tail hs) (sound_tail hs') h.2)

theorem accepted_usable [LawfulUcd] {order : HashOrder} (ho : ∀ l, (order l).Perm l) {ast : Ast} (h : Accepted order ast) : Usable (kids ast) := by
  have hg := accepted_good h
  obtain ⟨b, h⟩ := h
  obtain ⟨toks, ht, hp, _⟩ := parseOne_ok h
  obtain ⟨_, h2, h3⟩ := (C14_accepted_iff ho ht hp).1 h
  exact ⟨h2, modNames_nodup hg h3, parsed_marked h⟩

/-- **C111.** Two trees give the same contract name and the same functions, that is kinds, names, modifiers and bodies in the same order, exactly if they have the same title and
the same branches, up to what `LookalikeTop` leaves open. -/
theorem C111_functions [LawfulUcd] {order order' : HashOrder} (ho : ∀ l, (order l).Perm l) (ho' : ∀ l, (order' l).Perm l) {text text' : Str} {ast ast' : Ast}
    (h : parse order text = .ok [ast]) (h' : parse order' text' = .ok [ast']) (cfg : Config) {n n' : Str} {fns fns' : List HFn}
    (ht : translate order cfg text = .ok ⟨[⟨n, fns⟩]⟩) (ht' : translate order' cfg text' = .ok ⟨[⟨n', fns'⟩]⟩) :
    n = n' ∧ fns.map codeOf = fns'.map codeOf ↔ titleOf ast = titleOf ast' ∧ LookalikeTop (kids ast) (kids ast') := by
  rw [translate_single h] at ht
  rw [translate_single h'] at ht'
  simp only [Res.ok.injEq, HRoot.mk.injEq, List.cons.injEq, HContract.mk.injEq, and_true] at ht ht'
  obtain ⟨rfl, rfl⟩ := ht
  obtain ⟨rfl, rfl⟩ := ht'
  have ha := parse_accepted h ast (List.mem_singleton_self _)
  have ha' := parse_accepted h' ast' (List.mem_singleton_self _)
  refine and_congr_right fun _ => ⟨fun hc => ?_, fun hl => ?_⟩
  · exact top_unique (accepted_good ha) (accepted_good ha') (accepted_usable ho ha) (accepted_usable ho' ha') hc
  · exact top_alike hl (accepted_good ha) (accepted_good ha')

/-! ## The text -/

/-- Nothing in the function can be mistaken for what comes behind it. -/
structure Plainly (f : HFn) : Prop where
  name : '(' ∉ f.identifier
  modifiers : ∀ m ∈ f.modifiers.getD [], ' ' ∉ m ∧ '{' ∉ m
  comments : ∀ t, .comment t ∈ f.children.getD [] → '\n' ∉ t

theorem cut_inj {c : Char} {a b x y : Str} (ha : c ∉ a) (hb : c ∉ b) (h : a ++ c :: x = b ++ c :: y) : a = b ∧ x = y := by
  induction a generalizing b with
  | nil =>
    cases b with
    | nil => exact ⟨rfl, (List.cons.inj h).2⟩
    | cons d b => exact absurd (List.mem_cons.2 (.inl (List.cons.inj h).1)) hb
  | cons e a ih =>
    cases b with
    | nil => exact absurd (List.mem_cons.2 (.inl (List.cons.inj h).1.symm)) ha
    | cons d b =>
      obtain ⟨h1, h2⟩ := List.cons.inj h
      obtain ⟨rfl, k⟩ := ih (fun k => ha (List.mem_cons_of_mem _ k)) (fun k => hb (List.mem_cons_of_mem _ k)) h2
      exact ⟨by rw [h1], k⟩

theorem mods_inj {l l' : List Str} (h : ∀ m ∈ l, ' ' ∉ m ∧ '{' ∉ m) (h' : ∀ m ∈ l', ' ' ∉ m ∧ '{' ∉ m) {x x' : Str}
    (e : l.flatMap (fun m => m ++ c!" ") ++ '{' :: x = l'.flatMap (fun m => m ++ c!" ") ++ '{' :: x') : l = l' ∧ x = x' := by
  have off : ∀ {m : Str} {r y : Str}, '{' ∉ m → m ++ ' ' :: r ≠ '{' :: y := by
    intro m r y hm k
    cases m with
    | nil => exact absurd (List.cons.inj k).1 (by decide)
    | cons c m => exact hm (List.mem_cons.2 (.inl (List.cons.inj k).1.symm))
  induction l generalizing l' with
  | nil =>
    cases l' with
    | nil => exact ⟨rfl, (List.cons.inj e).2⟩
    | cons m l' =>
      rw [List.flatMap_cons] at e
      simp only [List.flatMap_nil, List.nil_append, List.append_assoc, List.cons_append] at e
      exact absurd e.symm (off (h' m (List.mem_cons_self ..)).2)
  | cons m l ih =>
    cases l' with
    | nil =>
      rw [List.flatMap_cons] at e
      simp only [List.flatMap_nil, List.nil_append, List.append_assoc, List.cons_append] at e
      exact absurd e (off (h m (List.mem_cons_self ..)).2)
    | cons m' l' =>
      rw [List.flatMap_cons, List.flatMap_cons] at e
      simp only [List.append_assoc, List.cons_append, List.nil_append] at e
      obtain ⟨rfl, k⟩ := cut_inj (h m (List.mem_cons_self ..)).1 (h' m' (List.mem_cons_self ..)).1 e
      obtain ⟨rfl, k⟩ := ih (fun m hm => h m (List.mem_cons_of_mem _ hm)) (fun m hm => h' m (List.mem_cons_of_mem _ hm)) k
      exact ⟨rfl, by assumption⟩

theorem items_inj {l l' : List BodyItem} (h : ∀ t, .comment t ∈ l → '\n' ∉ t) (h' : ∀ t, .comment t ∈ l' → '\n' ∉ t) {x x' : Str}
    (e : l.flatMap solItem ++ '}' :: x = l'.flatMap solItem ++ '}' :: x') : l = l' ∧ x = x' := by
  induction l generalizing l' with
  | nil =>
    cases l' with
    | nil => exact ⟨rfl, (List.cons.inj e).2⟩
    | cons i l' => cases i <;> simp [solItem] at e
  | cons i l ih =>
    have hl := fun t ht => h t (List.mem_cons_of_mem _ ht)
    cases l' with
    | nil => cases i <;> simp [solItem] at e
    | cons i' l' =>
      have hl' := fun t ht => h' t (List.mem_cons_of_mem _ ht)
      rw [List.flatMap_cons, List.flatMap_cons] at e
      cases i with
      | comment t =>
        cases i' with
        | comment t' =>
          simp only [solItem, List.append_assoc, List.cons_append, List.nil_append, List.cons.injEq, true_and] at e
          obtain ⟨rfl, k⟩ := cut_inj (h t (List.mem_cons_self ..)) (h' t' (List.mem_cons_self ..)) e
          obtain ⟨rfl, k⟩ := ih hl hl' k
          exact ⟨rfl, by assumption⟩
        | vmSkip => simp [solItem] at e
      | vmSkip =>
        cases i' with
        | comment t' => simp [solItem] at e
        | vmSkip =>
          rw [List.append_assoc, List.append_assoc] at e
          obtain ⟨rfl, k⟩ := ih hl hl' (List.append_cancel_left e)
          exact ⟨rfl, k⟩

/-- A modifier has no modifiers and no body of its own. -/
def BareModifier (f : HFn) : Prop := f.ty = .modifier → f.modifiers.getD [] = [] ∧ f.children.getD [] = []

theorem solFn_inj {f g : HFn} (hf : Plainly f) (hg : Plainly g) (ef : BareModifier f) (eg : BareModifier g) {x y : Str} (h : solFn f ++ x = solFn g ++ y) : codeOf f = codeOf g ∧ x = y := by
  unfold solFn at h
  cases h1 : f.ty with
  | modifier =>
    cases h2 : g.ty with
    | modifier =>
      rw [h1, h2] at h
      simp only [List.append_assoc] at h
      have h := List.append_cancel_left h
      obtain ⟨k1, k2⟩ := cut_inj hf.name hg.name h
      have k2 : x = y := List.append_cancel_left (as := c!") {\n_;\n}") k2
      obtain ⟨e1, e2⟩ := ef h1
      obtain ⟨e3, e4⟩ := eg h2
      exact ⟨by simp only [codeOf, h1, h2, k1, e1, e2, e3, e4], k2⟩
    | function =>
      rw [h1, h2] at h
      simp at h
  | function =>
    cases h2 : g.ty with
    | modifier =>
      rw [h1, h2] at h
      simp at h
    | function =>
      rw [h1, h2] at h
      simp only [List.append_assoc] at h
      have h := List.append_cancel_left h
      obtain ⟨k1, k2⟩ := cut_inj hf.name hg.name h
      have k2 := List.append_cancel_left (as := c!") external ") k2
      obtain ⟨k3, k4⟩ := mods_inj hf.modifiers hg.modifiers k2
      have k4 := (List.cons.inj k4).2
      obtain ⟨k5, k6⟩ := items_inj hf.comments hg.comments k4
      exact ⟨by simp only [codeOf, h1, h2, k1, k3, k5], k6⟩

theorem stanzas_inj {l l' : List HFn} (hl : ∀ f ∈ l, Plainly f ∧ BareModifier f) (hl' : ∀ f ∈ l', Plainly f ∧ BareModifier f)
    (h : stanzas (l.map solFn) ++ c!"}" = stanzas (l'.map solFn) ++ c!"}") : l.map codeOf = l'.map codeOf := by
  have ne : ∀ (f : HFn) (r : Str), solFn f ++ r ≠ c!"}" := by
    intro f r k
    unfold solFn at k
    cases h1 : f.ty <;> rw [h1] at k <;> simp at k
  have one : ∀ (f : HFn) (r : List HFn), ∃ x, stanzas ((f :: r).map solFn) ++ c!"}" = solFn f ++ x ∧
      ((r = [] ∧ x = c!"}") ∨ (r ≠ [] ∧ x = c!"\n\n" ++ (stanzas (r.map solFn) ++ c!"}"))) := by
    intro f r
    cases r with
    | nil => exact ⟨c!"}", rfl, .inl ⟨rfl, rfl⟩⟩
    | cons g r => exact ⟨_, by simp [stanzas], .inr ⟨by simp, rfl⟩⟩
  induction l generalizing l' with
  | nil =>
    cases l' with
    | nil => rfl
    | cons f l' =>
      obtain ⟨x, k, _⟩ := one f l'
      rw [k] at h
      exact absurd h.symm (ne f x)
  | cons f l ih =>
    obtain ⟨x, k, kx⟩ := one f l
    rw [k] at h
    cases l' with
    | nil => exact absurd h (ne f x)
    | cons f' l' =>
      obtain ⟨x', k', kx'⟩ := one f' l'
      rw [k'] at h
      obtain ⟨a1, a2⟩ := hl f (List.mem_cons_self ..)
      obtain ⟨b1, b2⟩ := hl' f' (List.mem_cons_self ..)
      obtain ⟨e1, rfl⟩ := solFn_inj a1 b1 a2 b2 h
      rw [List.map_cons, List.map_cons, e1]
      congr 1
      rcases kx with ⟨rfl, rfl⟩ | ⟨_, rfl⟩
      · rcases kx' with ⟨rfl, _⟩ | ⟨_, e⟩
        · rfl
        · simp at e
      · rcases kx' with ⟨rfl, e⟩ | ⟨_, e⟩
        · simp at e
        · exact ih (fun f hf => hl f (List.mem_cons_of_mem _ hf)) (fun f hf => hl' f (List.mem_cons_of_mem _ hf)) (List.append_cancel_left e)

theorem solFile_inj {v : Str} {skip : Bool} {n n' : Str} (hn : ' ' ∉ n) (hn' : ' ' ∉ n') {l l' : List HFn} (hl : ∀ f ∈ l, Plainly f ∧ BareModifier f) (hl' : ∀ f ∈ l', Plainly f ∧ BareModifier f)
    (h : solFile v skip n l = solFile v skip n' l') : n = n' ∧ l.map codeOf = l'.map codeOf := by
  unfold solFile at h
  simp only [List.append_assoc] at h
  have h := List.append_cancel_left (List.append_cancel_left (List.append_cancel_left (List.append_cancel_left (List.append_cancel_left h))))
  obtain ⟨k1, k2⟩ := cut_inj hn hn' h
  have k2 := List.append_cancel_left (List.append_cancel_left (List.append_cancel_left (as := []) k2))
  exact ⟨k1, stanzas_inj hl hl' k2⟩

theorem solFn_code {f g : HFn} (h : codeOf f = codeOf g) : solFn f = solFn g := by
  simp only [codeOf, Prod.mk.injEq] at h
  unfold solFn
  rw [h.1, h.2.1, h.2.2.1, h.2.2.2]

theorem stanzas_code {l l' : List HFn} (h : l.map codeOf = l'.map codeOf) : l.map solFn = l'.map solFn := by
  induction l generalizing l' with
  | nil => rw [List.map_nil, eq_comm, List.map_eq_nil_iff] at h; subst h; rfl
  | cons f l ih =>
    cases l' with
    | nil => cases h
    | cons g l' =>
      rw [List.map_cons, List.map_cons, List.cons.injEq] at h
      rw [List.map_cons, List.map_cons, solFn_code h.1, ih h.2]

theorem tree_plainly [LawfulUcd] {order : HashOrder} (ho : ∀ l, (order l).Perm l) {text : Str} {ast : Ast} (h : parse order text = .ok [ast]) (cfg : Config) :
    ∀ f ∈ expected cfg.emitVmSkip (kids ast), Plainly f ∧ BareModifier f := by
  intro f hf
  have ha := parse_accepted h ast (List.mem_singleton_self _)
  have hg := accepted_good ha
  have hx : ∀ g ∈ expected cfg.emitVmSkip (kids ast), ∀ c ∈ g.identifier, U.isXid c = true := by
    intro g hg' c hc
    obtain ⟨d, r, e, hd, hr⟩ := (expected_names hg hg').1
    rw [e] at hc
    rcases List.mem_cons.1 hc with rfl | hc
    · rw [LawfulUcd.plain_xid _ (letter_plain hd)]
      simp only [Bool.or_eq_true]
      left
      unfold IsLetter at hd
      simp only [isAsciiAlnum, Bool.or_eq_true, Bool.and_eq_true, decide_eq_true_eq]
      omega
    · exact hr c hc
  have nx : ∀ c : Char, c = '(' ∨ c = ' ' ∨ c = '{' → U.isXid c = false := by
    rintro c (rfl | rfl | rfl) <;> rw [LawfulUcd.plain_xid _ (by decide)] <;> decide
  have off : ∀ {c : Char} {g : HFn}, g ∈ expected cfg.emitVmSkip (kids ast) → (c = '(' ∨ c = ' ' ∨ c = '{') → c ∉ g.identifier := by
    intro c g hg' hc hm
    have := hx g hg' c hm
    rw [nx c hc] at this
    cases this
  refine ⟨⟨off hf (.inl rfl), ?_, ?_⟩, ?_⟩
  · intro m hm
    obtain ⟨b, hb⟩ := ha
    obtain ⟨n, fns, k1, _, k3⟩ := C21_declared_before_use ho hb cfg
    rw [translateOne_eq hb cfg] at k1
    simp only [Res.ok.injEq, HRoot.mk.injEq, List.cons.injEq, HContract.mk.injEq, and_true] at k1
    obtain ⟨A, B, e⟩ := List.append_of_mem hf
    obtain ⟨g, hgA, _, rfl⟩ := k3 A f B (by rw [← k1.2, e]) m hm
    have hgm : g ∈ expected cfg.emitVmSkip (kids ast) := by rw [e]; exact List.mem_append_left _ hgA
    exact ⟨off hgm (.inr (.inl rfl)), off hgm (.inr (.inr rfl))⟩
  · intro t ht
    exact (C35_no_line_break_partial (C30_single h cfg) f hf t ht).1
  · intro hty
    have : f ∈ (expected cfg.emitVmSkip (kids ast)).filter HFn.isModifier := List.mem_filter.2 ⟨hf, by unfold HFn.isModifier; rw [hty]; rfl⟩
    rw [expected_modifiers hg] at this
    obtain ⟨c, _, rfl⟩ := List.mem_map.1 this
    exact ⟨rfl, rfl⟩

/-- **C111, text.** Without `-m`, the text generated from two trees, before `forge fmt`, is the same exactly if the trees have the same title, up to characters that are removed, and the
same branches, up to what `LookalikeTop` leaves open. -/
theorem C111_text [LawfulUcd] {order order' : HashOrder} (ho : ∀ l, (order l).Perm l) (ho' : ∀ l, (order' l).Perm l) {text text' : Str} {ast ast' : Ast}
    (h : parse order text = .ok [ast]) (h' : parse order' text' = .ok [ast']) {cfg : Config} (hq : '"' ∉ cfg.solidityVersion) (hn : '\n' ∉ cfg.solidityVersion)
    (hm : cfg.skipModifiers = false) :
    scaffoldSource order cfg text = scaffoldSource order' cfg text' ↔ sanitize (titleOf ast) = sanitize (titleOf ast') ∧ LookalikeTop (kids ast) (kids ast') := by
  have ht := C30_single h cfg
  have ht' := C30_single h' cfg
  rw [C33_source hq hn ht, C33_source hq hn ht', written, written, hm]
  simp only [Bool.false_eq_true, if_false, Res.ok.injEq]
  have ha := parse_accepted h ast (List.mem_singleton_self _)
  have ha' := parse_accepted h' ast' (List.mem_singleton_self _)
  constructor
  · intro e
    have sp : ∀ {order : HashOrder} {text : Str} {ast : Ast}, translate order cfg text = .ok ⟨[⟨titleOf ast, expected cfg.emitVmSkip (kids ast)⟩]⟩ → ' ' ∉ sanitize (titleOf ast) := by
      intro order text ast ht
      obtain ⟨n, fns, e, h1, _, _⟩ := translate_ok ht
      simp only [HRoot.mk.injEq, List.cons.injEq, HContract.mk.injEq, and_true] at e
      rw [e.1]
      exact fun k => (sanitize_sub k).elim h1 (by decide)
    obtain ⟨k1, k2⟩ := solFile_inj (sp ht) (sp ht') (tree_plainly ho h cfg) (tree_plainly ho' h' cfg) e
    exact ⟨k1, top_unique (accepted_good ha) (accepted_good ha') (accepted_usable ho ha) (accepted_usable ho' ha') k2⟩
  · rintro ⟨e, hl⟩
    have := stanzas_code (top_alike (skip := cfg.emitVmSkip) hl (accepted_good ha) (accepted_good ha'))
    unfold solFile
    rw [e, this]

end
end Bulloak
