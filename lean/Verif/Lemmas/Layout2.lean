import Verif.Lemmas.Layout
import Verif.Props.Split
import Verif.Props.Sol
/-! # Texts that differ in layout only: the generated functions -/

namespace Bulloak
open Spec
set_option linter.unusedSectionVars false

section
variable [U : Ucd] {D : Str → Str}

theorem kids_shape (a : Ast) : kids (shape D a) = (kids a).map (shape D) := by
  cases a <;> simp [shape, kids, shapeAll_map]

theorem isAction_shape (a : Ast) : (shape D a).isAction = a.isAction := by cases a <;> simp [shape, Ast.isAction]

theorem isCondition_shape (a : Ast) : (shape D a).isCondition = a.isCondition := by
  cases a <;> simp [shape, Ast.isCondition]

theorem titleOf_shape_cond {a : Ast} (h : a.isCondition = true) : titleOf (shape D a) = titleOf a := by
  cases a <;> simp_all [shape, titleOf, Ast.isCondition]

theorem titleOf_shape_act {a : Ast} (h : a.isAction = true) : titleOf (shape D a) = titleOf a := by
  cases a <;> simp_all [shape, titleOf, Ast.isAction]

theorem D_titleOf_shape (hD : ∀ t, D (D t) = D t) (a : Ast) : D (titleOf (shape D a)) = D (titleOf a) := by
  cases a <;> simp [shape, titleOf, hD]

theorem preAll_shape_aux (n : Nat) : (∀ a : Ast, sizeOf a ≤ n → pre (shape D a) = (pre a).map (shape D)) ∧
    ∀ as : List Ast, sizeOf as ≤ n → preAll (shapeAll D as) = (preAll as).map (shape D) := by
  induction n with
  | zero =>
    constructor
    · intro a h; cases a <;> simp at h
    · intro as h; cases as <;> simp at h
  | succ n ih =>
    constructor
    · intro a h
      cases a with
      | root s t cs => simp at h; simp only [shape, pre, List.map_cons]; rw [ih.2 cs (by omega)]
      | condition s t cs => simp at h; simp only [shape, pre, List.map_cons]; rw [ih.2 cs (by omega)]
      | action s t cs => simp at h; simp only [shape, pre, List.map_cons]; rw [ih.2 cs (by omega)]
      | description s t => simp [shape, pre]
    · intro as h
      cases as with
      | nil => simp [shapeAll, preAll]
      | cons a as =>
        simp at h
        simp only [shapeAll, preAll, List.map_append]
        rw [ih.1 a (by omega), ih.2 as (by omega)]

theorem preAll_shape (as : List Ast) : preAll (shapeAll D as) = (preAll as).map (shape D) :=
  (preAll_shape_aux (sizeOf as)).2 as (Nat.le_refl _)

theorem conditionsOf_shape (as : List Ast) : conditionsOf (shapeAll D as) = (conditionsOf as).map (shape D) := by
  unfold conditionsOf
  rw [preAll_shape, List.filter_map]
  congr 1
  apply List.filter_congr
  intro a _
  simp [isCondition_shape]

theorem named_shape (as : List Ast) : named (shapeAll D as) = (named as).map (shape D) := by
  unfold named
  induction as with
  | nil => rfl
  | cons a as ih =>
    simp only [shapeAll, List.flatMap_cons, List.map_append, ih, isAction_shape]
    congr 1
    split
    · rfl
    · exact conditionsOf_shape [a]

theorem named_kind {as : List Ast} {a : Ast} (h : a ∈ named as) : a.isAction = true ∨ a.isCondition = true := by
  unfold named at h
  obtain ⟨b, _, hb⟩ := List.mem_flatMap.1 h
  split at hb
  · rename_i h1; simp at hb; subst hb; exact .inl h1
  · unfold conditionsOf at hb; exact .inr (List.mem_filter.1 hb).2

theorem identOf_shape {a : Ast} (h : a.isAction = true ∨ a.isCondition = true) : identOf (shape D a) = identOf a := by
  unfold identOf
  rcases h with h | h
  · rw [titleOf_shape_act h]
  · rw [titleOf_shape_cond h]

/-- What makes a tree acceptable. -/
def Sound (ast : Ast) : Prop :=
  kids ast ≠ [] ∧ (∀ c ∈ conditionsOf (kids ast), kids c ≠ []) ∧ ((named (kids ast)).map identOf).Nodup

theorem sound_shape (ast : Ast) : Sound (shape D ast) ↔ Sound ast := by
  unfold Sound
  rw [kids_shape, ← shapeAll_map, conditionsOf_shape, named_shape, List.map_map]
  have h1 : (named (kids ast)).map (identOf ∘ shape D) = (named (kids ast)).map identOf :=
    List.map_congr_left (fun a ha => identOf_shape (named_kind ha))
  rw [h1, shapeAll_map]
  simp [kids_shape]

/-! ## Functions -/

theorem modName_shape {a : Ast} (h : a.isCondition = true) : modName (shape D a) = modName a := by
  unfold modName; rw [titleOf_shape_cond h]

theorem hasNested_shape (a : Ast) : hasNested (shape D a) = hasNested a := by
  unfold hasNested
  rw [kids_shape, List.any_map]
  congr 1
  funext x
  simp [isCondition_shape]

theorem actionsOf_shape (a : Ast) : actionsOf (shape D a) = (actionsOf a).map (shape D) := by
  unfold actionsOf
  rw [kids_shape, List.filter_map]
  congr 1
  apply List.filter_congr
  intro a _
  simp [isAction_shape]

theorem reverts_shape (a : Ast) : reverts (shape D a) = reverts a := by
  unfold reverts
  rw [actionsOf_shape]
  cases h : actionsOf a with
  | nil => rfl
  | cons b bs =>
    have : b ∈ actionsOf a := by rw [h]; simp
    have := (List.mem_filter.1 this).2
    simp only [List.map_cons, revertAction, titleOf_shape_act this]

theorem testName_shape {a : Ast} (h : a.isCondition = true) : testName (shape D a) = testName a := by
  unfold testName; rw [titleOf_shape_cond h, reverts_shape]

theorem commentLines_shape (hD : ∀ t, D (D t) = D t) {a : Ast} :
    (commentLines (shape D a)).map D = (commentLines a).map D := by
  unfold commentLines
  simp only [List.map_cons, kids_shape, List.map_map, D_titleOf_shape hD]
  congr 1
  apply List.map_congr_left
  intro x _
  simp [D_titleOf_shape hD]

theorem commentsOf_shape (hD : ∀ t, D (D t) = D t) (a : Ast) : (commentsOf (shape D a)).map D = (commentsOf a).map D := by
  unfold commentsOf
  rw [actionsOf_shape]
  induction actionsOf a with
  | nil => rfl
  | cons b bs ih => simp only [List.map_cons, List.flatMap_cons, List.map_append, ih, commentLines_shape hD]

theorem lookItem_bodyOf (skip : Bool) (l : List Str) : (bodyOf skip l).map (lookItem D) = bodyOf skip (l.map D) := by
  unfold bodyOf
  cases skip <;> simp [lookItem, Function.comp_def]

theorem inScope_shape_aux (n : Nat) : (∀ a : Ast, sizeOf a ≤ n → ∀ encl, inScope (encl.map (shape D)) (shape D a) =
      (inScope encl a).map (fun p => (p.1.map (shape D), shape D p.2))) ∧
    ∀ as : List Ast, sizeOf as ≤ n → ∀ encl, inScopeAll (encl.map (shape D)) (shapeAll D as) =
      (inScopeAll encl as).map (fun p => (p.1.map (shape D), shape D p.2)) := by
  induction n with
  | zero =>
    constructor
    · intro a h; cases a <;> simp at h
    · intro as h; cases as <;> simp at h
  | succ n ih =>
    constructor
    · intro a h encl
      cases a with
      | condition s t cs =>
        simp at h
        have := ih.2 cs (by omega) (encl ++ [.condition s t cs])
        simp only [List.map_append, List.map_cons, List.map_nil, shape] at this
        simp only [shape, inScope, List.map_cons, this]
      | root s t cs => simp [shape, inScope]
      | action s t cs => simp [shape, inScope]
      | description s t => simp [shape, inScope]
    · intro as h encl
      cases as with
      | nil => simp [shapeAll, inScopeAll]
      | cons a as =>
        simp at h
        simp only [shapeAll, inScopeAll, List.map_append]
        rw [ih.1 a (by omega), ih.2 as (by omega)]

theorem inScope_shape (a : Ast) : inScope [] (shape D a) = (inScope [] a).map (fun p => (p.1.map (shape D), shape D p.2)) := by
  have := (inScope_shape_aux (D := D) (sizeOf a)).1 a (Nat.le_refl _) []
  simpa using this

theorem inScope_conds_aux (n : Nat) : (∀ a : Ast, sizeOf a ≤ n → ∀ encl : List Ast, (∀ e ∈ encl, e.isCondition = true) →
      ∀ p ∈ inScope encl a, (∀ e ∈ p.1, e.isCondition = true) ∧ p.2.isCondition = true) ∧
    ∀ as : List Ast, sizeOf as ≤ n → ∀ encl : List Ast, (∀ e ∈ encl, e.isCondition = true) →
      ∀ p ∈ inScopeAll encl as, (∀ e ∈ p.1, e.isCondition = true) ∧ p.2.isCondition = true := by
  induction n with
  | zero =>
    constructor
    · intro a h; cases a <;> simp at h
    · intro as h; cases as <;> simp at h
  | succ n ih =>
    constructor
    · intro a h encl he p hp
      cases a with
      | condition s t cs =>
        simp at h
        simp only [inScope, List.mem_cons] at hp
        rcases hp with rfl | hp
        · exact ⟨he, rfl⟩
        · refine ih.2 cs (by omega) _ ?_ p hp
          intro e hh
          rcases List.mem_append.1 hh with hh | hh
          · exact he e hh
          · simp at hh; subst hh; rfl
      | root s t cs => simp [inScope] at hp
      | action s t cs => simp [inScope] at hp
      | description s t => simp [inScope] at hp
    · intro as h encl he p hp
      cases as with
      | nil => simp [inScopeAll] at hp
      | cons a as =>
        simp at h
        simp only [inScopeAll, List.mem_append] at hp
        rcases hp with hp | hp
        · exact ih.1 a (by omega) encl he p hp
        · exact ih.2 as (by omega) encl he p hp

theorem inScope_conds {a : Ast} {p : List Ast × Ast} (h : p ∈ inScope [] a) :
    (∀ e ∈ p.1, e.isCondition = true) ∧ p.2.isCondition = true :=
  (inScope_conds_aux (sizeOf a)).1 a (Nat.le_refl _) [] (by simp) p h

theorem condFns_shape (hD : ∀ t, D (D t) = D t) (skip : Bool) {p : List Ast × Ast} (h1 : ∀ e ∈ p.1, e.isCondition = true)
    (h2 : p.2.isCondition = true) :
    (condFns skip (p.1.map (shape D), shape D p.2)).map (look D) = (condFns skip p).map (look D) := by
  obtain ⟨encl, c⟩ := p
  have hg : (guards (encl.map (shape D)) (shape D c)).map modName = (guards encl c).map modName := by
    unfold guards
    rw [hasNested_shape]
    simp only [List.map_append, List.map_map]
    congr 1
    · exact List.map_congr_left (fun e he => modName_shape (h1 e he))
    · split
      · simp only [List.map_cons, List.map_nil]; rw [modName_shape h2]
      · rfl
  unfold condFns
  simp only [hasNested_shape, actionsOf_shape, List.map_eq_nil_iff, List.map_append]
  congr 1
  · split
    · simp only [List.map_cons, List.map_nil, look, modFn, modName_shape h2]
    · rfl
  · split
    · rfl
    · simp only [List.map_cons, List.map_nil, look, condFn, testName_shape h2, hg, Option.map_some, lookItem_bodyOf,
        commentsOf_shape hD]

theorem expected_shape (hD : ∀ t, D (D t) = D t) (skip : Bool) (cs : List Ast) :
    (expected skip (shapeAll D cs)).map (look D) = (expected skip cs).map (look D) := by
  unfold expected
  induction cs with
  | nil => rfl
  | cons a as ih =>
    simp only [shapeAll, List.flatMap_cons, List.map_append, ih, isAction_shape]
    congr 1
    split
    · rename_i h
      simp only [List.map_cons, List.map_nil, look, actFn, titleOf_shape_act h, Option.map_some, lookItem_bodyOf,
        commentLines_shape hD]
    · rw [inScope_shape]
      have : ∀ l : List (List Ast × Ast), (∀ p ∈ l, (∀ e ∈ p.1, e.isCondition = true) ∧ p.2.isCondition = true) →
          List.map (look D) (List.flatMap (condFns skip) (l.map (fun p => (p.1.map (shape D), shape D p.2)))) =
          List.map (look D) (List.flatMap (condFns skip) l) := by
        intro l
        induction l with
        | nil => intro _; rfl
        | cons p l ihl =>
          intro h
          simp only [List.map_cons, List.flatMap_cons, List.map_append]
          rw [condFns_shape hD skip (h p (by simp)).1 (h p (by simp)).2, ihl (fun q hq => h q (by simp [hq]))]
      exact this _ (fun p hp => inScope_conds hp)

/-- The functions of trees that look the same look the same. -/
theorem expected_look (hD : ∀ t, D (D t) = D t) (skip : Bool) {a b : Ast} (h : shape D a = shape D b) :
    (expected skip (kids a)).map (look D) = (expected skip (kids b)).map (look D) := by
  rw [← expected_shape hD, ← expected_shape hD skip (kids b), shapeAll_map, shapeAll_map, ← kids_shape, ← kids_shape, h]

/-! ## Several trees -/

theorem look_prefixFn (part : Str) (f : HFn) : look D (prefixFn part f) = prefixFn part (look D f) := by
  obtain ⟨i, ty, sp, m, c⟩ := f
  cases ty <;> rfl

theorem firstOnly_look (fs : List HFn) : (firstOnly fs).map (look D) = firstOnly (fs.map (look D)) := by
  induction fs with
  | nil => rfl
  | cons f fs ih =>
    simp only [firstOnly, List.map_cons]
    rw [← ih, List.filter_map]
    rfl

theorem prefixedFns_look (hD : ∀ t, D (D t) = D t) (skip : Bool) {as bs : List Ast} (h : as.map (shape D) = bs.map (shape D)) :
    ∀ fs : List Str, (prefixedFns skip (as.zip fs)).map (look D) = (prefixedFns skip (bs.zip fs)).map (look D) := by
  induction as generalizing bs with
  | nil =>
    have : bs = [] := by simpa using h.symm
    subst this
    intro fs; rfl
  | cons a as ih =>
    obtain ⟨b, bs, rfl, h1, h2⟩ := List.map_eq_cons_iff.1 h.symm
    intro fs
    cases fs with
    | nil => rfl
    | cons f fs =>
      have h3 := ih h2.symm fs
      unfold prefixedFns at h3 ⊢
      simp only [List.zip_cons_cons, List.flatMap_cons, List.map_append, h3]
      congr 1
      rw [List.map_map, List.map_map]
      have e : (look D) ∘ (prefixFn f) = (prefixFn f) ∘ (look D) := by funext x; exact look_prefixFn f x
      rw [e, ← List.map_map, ← List.map_map, expected_look hD skip h1.symm]

end
end Bulloak
