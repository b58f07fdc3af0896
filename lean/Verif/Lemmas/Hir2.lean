import Verif.Lemmas.Hir
/-! # Lemmas about the functions of a tree -/

set_option linter.unusedSectionVars false

namespace Bulloak
open Spec

section
variable [U : Ucd]

theorem inScopeAll_append (e : List Ast) (a b : List Ast) : inScopeAll e (a ++ b) = inScopeAll e a ++ inScopeAll e b := by
  induction a with
  | nil => rfl
  | cons x a ih => simp [inScopeAll, ih]

theorem inScopeAll_flatMap (e : List Ast) (as : List Ast) : inScopeAll e as = as.flatMap (inScope e) := by
  induction as with
  | nil => rfl
  | cons x a ih => simp [inScopeAll, ih]

theorem inScope_snd {a : Ast} (h : GoodItem a) : ∀ e, (inScope e a).map Prod.snd = conditionsOf [a] := by
  induction h with
  | action h => intro e; rw [conditionsOf_action h]; rfl
  | @condition s t cs _ hcs ih =>
    intro e
    rw [inScope, conditionsOf_condition, List.map_cons]
    congr 1
    generalize e ++ [Ast.condition s t cs] = e'
    clear hcs
    induction cs with
    | nil => simp [inScopeAll, conditionsOf, preAll]
    | cons c cs ih2 =>
      rw [inScopeAll, List.map_append, ih c (by simp), ih2 (fun c hc => ih c (by simp [hc])), conditionsOf_cons c cs]

/-- Expressing the functions of the tree by the conditions in scope. -/
theorem expected_cons (skip : Bool) (a : Ast) (as : List Ast) :
    expected skip (a :: as) = (if a.isAction then [actFn skip a] else (inScope [] a).flatMap (condFns skip)) ++ expected skip as := by
  simp [expected]

theorem good_mem {cs : List Ast} (h : ∀ c ∈ cs, GoodItem c) : ∀ d ∈ conditionsOf cs, CondTitle (titleOf d) ∧ d.isCondition = true ∧ ∀ c ∈ kids d, GoodItem c := by
  have key : ∀ a, GoodItem a → ∀ d ∈ conditionsOf [a], CondTitle (titleOf d) ∧ d.isCondition = true ∧ ∀ c ∈ kids d, GoodItem c := by
    intro a ha
    induction ha with
    | action h => rw [conditionsOf_action h]; simp
    | @condition s t cs ht hcs ih =>
      intro d hd
      rw [conditionsOf_condition] at hd
      rcases List.mem_cons.1 hd with rfl | hd
      · exact ⟨ht, rfl, hcs⟩
      · clear hcs
        induction cs with
        | nil => simp [conditionsOf, preAll] at hd
        | cons c cs ih2 =>
          rw [conditionsOf_cons] at hd
          rcases List.mem_append.1 hd with hd | hd
          · exact ih c (by simp) d hd
          · exact ih2 (fun c hc => ih c (by simp [hc])) (by simp [hd]) hd
  induction cs with
  | nil => simp [conditionsOf, preAll]
  | cons c cs ih =>
    intro d hd
    rw [conditionsOf_cons] at hd
    rcases List.mem_append.1 hd with hd | hd
    · exact key c (h c (by simp)) d hd
    · exact ih (fun c hc => h c (by simp [hc])) d hd

theorem mem_expected {skip : Bool} {cs : List Ast} {f : HFn} : f ∈ expected skip cs ↔
    (∃ a ∈ cs, a.isAction = true ∧ f = actFn skip a) ∨ ∃ p ∈ inScopeAll [] cs, f ∈ condFns skip p := by
  induction cs with
  | nil => simp [expected, inScopeAll]
  | cons a as ih =>
    rw [expected_cons, List.mem_append, ih]
    cases a with
    | action => simp [Ast.isAction, inScopeAll, inScope, or_assoc]
    | _ =>
      simp only [Ast.isAction, Bool.false_eq_true, if_false, List.mem_flatMap, List.mem_cons, inScopeAll, List.mem_append]
      constructor
      · rintro (⟨p, h1, h2⟩ | ⟨x, h1, h2⟩ | ⟨p, h1, h2⟩)
        · exact Or.inr ⟨p, Or.inl h1, h2⟩
        · exact Or.inl ⟨x, Or.inr h1, h2⟩
        · exact Or.inr ⟨p, Or.inr h1, h2⟩
      · rintro (⟨x, h1 | h1, h2⟩ | ⟨p, h1 | h1, h2⟩)
        · subst h1; simp at h2
        · exact Or.inr (Or.inl ⟨x, h1, h2⟩)
        · exact Or.inl ⟨p, h1, h2⟩
        · exact Or.inr (Or.inr ⟨p, h1, h2⟩)

theorem mem_condFns {skip : Bool} {p : List Ast × Ast} {f : HFn} : f ∈ condFns skip p ↔
    (hasNested p.2 = true ∧ f = modFn p.2) ∨ (actionsOf p.2 ≠ [] ∧ f = condFn skip p.1 p.2) := by
  unfold condFns
  by_cases h1 : hasNested p.2 = true <;> by_cases h2 : actionsOf p.2 = [] <;> simp [h1, h2]

/-- The conditions in scope are those reached by paths. -/
theorem mem_inScope {a : Ast} (h : GoodItem a) : ∀ (e q : List Ast) (c : Ast), (q, c) ∈ inScope e a ↔
    ∃ p, q = e ++ p ∧ Path [a] p c := by
  induction h with
  | @action s t cs _ =>
    intro e q c
    simp only [inScope, List.not_mem_nil, false_iff]
    rintro ⟨p, _, hp⟩
    cases hp with
    | here h1 h2 => rw [List.mem_singleton.1 h1] at h2; cases h2
    | down h1 h2 => rw [List.mem_singleton.1 h1] at h2; cases h2
  | @condition s t cs _ hcs ih =>
    intro e q c
    have hl : ∀ e q c, (q, c) ∈ inScopeAll e cs ↔ ∃ p, q = e ++ p ∧ Path cs p c := by
      intro e q c
      rw [inScopeAll_flatMap, List.mem_flatMap]
      constructor
      · rintro ⟨a, ha, hm⟩
        obtain ⟨p, rfl, hp⟩ := (ih a ha e q c).1 hm
        refine ⟨p, rfl, ?_⟩
        cases hp with
        | here h1 h2 => rw [List.mem_singleton.1 h1] at h2 ⊢; exact .here ha h2
        | down h1 h2 h3 => rw [List.mem_singleton.1 h1] at h2 h3 ⊢; exact .down ha h2 h3
      · rintro ⟨p, rfl, hp⟩
        cases hp with
        | here h1 h2 => exact ⟨c, h1, (ih c h1 _ _ _).2 ⟨[], by simp, .here (by simp) h2⟩⟩
        | @down _ d p' _ h1 h2 h3 => exact ⟨d, h1, (ih d h1 _ _ _).2 ⟨d :: p', rfl, .down (by simp) h2 h3⟩⟩
    rw [inScope, List.mem_cons, hl]
    constructor
    · rintro (h | ⟨p, rfl, hp⟩)
      · cases h
        exact ⟨[], by simp, .here (by simp) rfl⟩
      · exact ⟨.condition s t cs :: p, by simp, .down (by simp) rfl hp⟩
    · rintro ⟨p, rfl, hp⟩
      cases hp with
      | here h1 h2 => left; rw [List.mem_singleton.1 h1]; simp
      | @down _ d p' _ h1 h2 h3 =>
        right
        rw [List.mem_singleton.1 h1] at h3 ⊢
        exact ⟨p', by simp, h3⟩

theorem mem_inScopeAll {cs : List Ast} (h : ∀ c ∈ cs, GoodItem c) (p : List Ast) (c : Ast) :
    (p, c) ∈ inScopeAll [] cs ↔ Path cs p c := by
  rw [inScopeAll_flatMap, List.mem_flatMap]
  constructor
  · rintro ⟨a, ha, hm⟩
    obtain ⟨p', rfl, hp⟩ := (mem_inScope (h a ha) [] p c).1 hm
    cases hp with
    | here h1 h2 => rw [List.mem_singleton.1 h1] at h2 ⊢; exact .here ha h2
    | down h1 h2 h3 => rw [List.mem_singleton.1 h1] at h2 h3 ⊢; exact .down ha h2 h3
  · intro hp
    cases hp with
    | here h1 h2 => exact ⟨c, h1, (mem_inScope (h c h1) _ _ _).2 ⟨[], by simp, .here (by simp) h2⟩⟩
    | @down _ d p' _ h1 h2 h3 => exact ⟨d, h1, (mem_inScope (h d h1) _ _ _).2 ⟨d :: p', rfl, .down (by simp) h2 h3⟩⟩

theorem path_mem {cs : List Ast} {p : List Ast} {c : Ast} (h : Path cs p c) : c ∈ conditionsOf cs := by
  induction h with
  | @here ks a h1 h2 =>
    simp only [conditionsOf, List.mem_filter]
    exact ⟨mem_preAll h1, h2⟩
  | @down ks d p a h1 h2 _ ih =>
    obtain ⟨A, B, rfl⟩ := List.append_of_mem h1
    rw [conditionsOf_append, conditionsOf_cons]
    cases d with
    | condition s t cs => rw [conditionsOf_condition]; simp only [kids] at ih; simp [ih]
    | root => cases h2
    | action => cases h2
    | description => cases h2

theorem mem_path {cs : List Ast} (h : ∀ c ∈ cs, GoodItem c) {c : Ast} (hc : c ∈ conditionsOf cs) : ∃ p, Path cs p c := by
  have : c ∈ (inScopeAll [] cs).map Prod.snd := by
    rw [inScopeAll_flatMap, List.map_flatMap]
    have e : conditionsOf cs = cs.flatMap (fun a => conditionsOf [a]) := by
      clear h hc
      induction cs with
      | nil => rfl
      | cons a as ih => rw [conditionsOf_cons a as, ih]; rfl
    rw [e] at hc
    obtain ⟨a, ha, hm⟩ := List.mem_flatMap.1 hc
    rw [← inScope_snd (h a ha) []] at hm
    exact List.mem_flatMap.2 ⟨a, ha, hm⟩
  obtain ⟨⟨p, d⟩, hm, rfl⟩ := List.mem_map.1 this
  exact ⟨p, (mem_inScopeAll h p d).1 hm⟩

/-! ## Modifiers -/

theorem expected_modifiers {skip : Bool} {cs : List Ast} (h : ∀ c ∈ cs, GoodItem c) :
    (expected skip cs).filter HFn.isModifier = ((conditionsOf cs).filter hasNested).map modFn := by
  induction cs with
  | nil => rfl
  | cons a as ih =>
    rw [expected_cons, List.filter_append, ih (fun c hc => h c (by simp [hc])), conditionsOf_cons a as, List.filter_append,
      List.map_append]
    congr 1
    cases h a (by simp) with
    | action hd => rw [conditionsOf_action hd]; simp [Ast.isAction, actFn, HFn.isModifier]
    | @condition s t cs h1 h2 =>
      simp only [Ast.isAction, Bool.false_eq_true, if_false]
      rw [← inScope_snd (h _ (by simp)) []]
      generalize inScope [] (Ast.condition s t cs) = l
      induction l with
      | nil => rfl
      | cons p l ih2 =>
        rw [List.flatMap_cons, List.filter_append, ih2, List.map_cons]
        unfold condFns
        by_cases hn : hasNested p.2 = true <;> by_cases ha : actionsOf p.2 = [] <;>
          simp [hn, ha, HFn.isModifier, modFn, condFn]

theorem conditions_sublist (cs : List Ast) (h : ∀ c ∈ cs, GoodItem c) : (conditionsOf cs).Sublist (named cs) := by
  induction cs with
  | nil => simp [conditionsOf, preAll]
  | cons a as ih =>
    have ih := ih (fun c hc => h c (by simp [hc]))
    have e : named (a :: as) = named [a] ++ named as := by simp [named]
    rw [conditionsOf_cons a as, e]
    refine List.Sublist.append ?_ ih
    cases h a (by simp) with
    | action hd => rw [conditionsOf_action hd]; simp
    | condition => simp [named, Ast.isAction]

theorem identOf_cond {c : Ast} (h : CondTitle (titleOf c)) : identOf c = modName c := by
  obtain ⟨kw, rest, _, _, h3⟩ := h
  rw [identOf, h3, lowerFirst_pascal, modName]

theorem modNames_nodup {cs : List Ast} (h : ∀ c ∈ cs, GoodItem c) (hd : ((named cs).map identOf).Nodup) :
    ((conditionsOf cs).map modName).Nodup := by
  have : (conditionsOf cs).map modName = (conditionsOf cs).map identOf := by
    apply List.map_congr_left
    intro c hc
    rw [identOf_cond (good_mem h c hc).1]
  rw [this]
  exact ((conditions_sublist cs h).map identOf).nodup hd

/-! ## Use after declaration -/

/-- Every modifier used in the list is one of `known` or declared earlier in the list. -/
def Declared (known : List Str) (fs : List HFn) : Prop :=
  ∀ A f B, fs = A ++ f :: B → ∀ m ∈ f.modifiers.getD [], m ∈ known ∨ ∃ g ∈ A, g.isModifier = true ∧ g.identifier = m

theorem declared_append {known : List Str} {a b : List HFn} (ha : Declared known a)
    (hb : Declared (known ++ (a.filter HFn.isModifier).map HFn.identifier) b) : Declared known (a ++ b) := by
  intro A f B he m hm
  rcases List.append_eq_append_iff.1 he with ⟨A', rfl, h2⟩ | ⟨C, rfl, h2⟩
  · rcases hb A' f B h2 m hm with h | ⟨g, hg, h1, h2⟩
    · rcases List.mem_append.1 h with h | h
      · exact Or.inl h
      · obtain ⟨g, hg, rfl⟩ := List.mem_map.1 h
        rw [List.mem_filter] at hg
        exact Or.inr ⟨g, by simp [hg.1], hg.2, rfl⟩
    · exact Or.inr ⟨g, by simp [hg], h1, h2⟩
  · cases C with
    | nil =>
      simp only [List.append_nil] at ha hb
      simp only [List.nil_append] at h2
      rcases hb [] f B h2.symm m hm with h | ⟨g, hg, _⟩
      · rcases List.mem_append.1 h with h | h
        · exact Or.inl h
        · obtain ⟨g, hg, rfl⟩ := List.mem_map.1 h
          rw [List.mem_filter] at hg
          exact Or.inr ⟨g, hg.1, hg.2, rfl⟩
      · simp at hg
    | cons x C =>
      simp only [List.cons_append, List.cons.injEq] at h2
      obtain ⟨rfl, _⟩ := h2
      exact ha A f C rfl m hm

theorem declared_mono {k k' : List Str} {fs : List HFn} (hk : ∀ m ∈ k, m ∈ k') (h : Declared k fs) : Declared k' fs := by
  intro A f B he m hm
  rcases h A f B he m hm with h | h
  · exact Or.inl (hk m h)
  · exact Or.inr h

theorem declared_nil (k : List Str) : Declared k [] := by
  intro A f B he; simp at he

theorem modList_getD (l : List Str) : (modList l).getD [] = l := by
  unfold modList; split <;> simp_all

theorem declared_condFns (skip : Bool) (p : List Ast × Ast) : Declared (p.1.map modName) (condFns skip p) := by
  unfold condFns
  apply declared_append
  · by_cases hn : hasNested p.2 = true
    · rw [if_pos hn]
      intro A f B he m hm
      cases A with
      | nil => simp at he; rw [← he.1] at hm; simp [modFn] at hm
      | cons => simp at he
    · rw [if_neg hn]; exact declared_nil _
  · by_cases ha : actionsOf p.2 = []
    · rw [if_pos ha]; exact declared_nil _
    · rw [if_neg ha]
      intro A f B he m hm
      cases A with
      | nil =>
        simp at he
        rw [← he.1] at hm
        simp only [condFn, modList_getD, guards] at hm
        left
        by_cases hn : hasNested p.2 = true
        · simpa [hn, HFn.isModifier, modFn] using hm
        · simpa [hn] using hm
      | cons => simp at he

theorem declared_inScope {a : Ast} (h : GoodItem a) : ∀ (skip : Bool) (e : List Ast),
    Declared (e.map modName) ((inScope e a).flatMap (condFns skip)) := by
  induction h with
  | action => intro _ e; exact declared_nil _
  | @condition s t cs _ hcs ih =>
    intro skip e
    rw [inScope, List.flatMap_cons]
    apply declared_append (declared_condFns skip (e, .condition s t cs))
    by_cases hn : hasNested (.condition s t cs) = true
    · have hm : ∀ m ∈ (e ++ [Ast.condition s t cs]).map modName, m ∈ List.map modName e ++
          ((condFns skip (e, .condition s t cs)).filter HFn.isModifier).map HFn.identifier := by
        intro m hm
        simp only [List.map_append, List.mem_append] at hm ⊢
        rcases hm with hm | hm
        · exact Or.inl hm
        · right
          simp only [List.map_cons, List.map_nil, List.mem_singleton] at hm
          subst hm
          simp [condFns, hn, HFn.isModifier, modFn]
      refine declared_mono hm ?_
      generalize e ++ [Ast.condition s t cs] = e'
      clear hcs hn hm
      induction cs with
      | nil => exact declared_nil _
      | cons c cs ih2 =>
        rw [inScopeAll, List.flatMap_append]
        exact declared_append (ih c (by simp) skip e') (declared_mono (by simp +contextual) (ih2 (fun c hc => ih c (by simp [hc]))))
    · rw [hasNested_nil (by simpa using hn) hcs]
      exact declared_nil _

theorem declared_expected {cs : List Ast} (h : ∀ c ∈ cs, GoodItem c) (skip : Bool) : Declared [] (expected skip cs) := by
  induction cs with
  | nil => exact declared_nil _
  | cons a as ih =>
    rw [expected_cons]
    refine declared_append ?_ (declared_mono (by simp) (ih (fun c hc => h c (by simp [hc]))))
    cases h a (by simp) with
    | action =>
      intro A f B he m hm
      cases A with
      | nil => simp [Ast.isAction] at he; rw [← he.1] at hm; simp [actFn] at hm
      | cons => simp [Ast.isAction] at he
    | condition => exact declared_inScope (h _ (by simp)) skip []

/-! ## Comments -/

theorem comments_body {skip : Bool} {l : List Str} {n ty s m} : comments ⟨n, ty, s, m, some (bodyOf skip l)⟩ = l := by
  have h2 : ∀ l : List Str, (l.map BodyItem.comment).filterMap commentText = l := by
    intro l
    induction l with
    | nil => rfl
    | cons x l ih => rw [List.map_cons, List.filterMap_cons, ih]; rfl
  simp only [comments, Option.getD_some, bodyOf, List.filterMap_append, h2]
  cases skip <;> simp [commentText]

theorem comments_condFns (skip : Bool) (p : List Ast × Ast) : (condFns skip p).flatMap comments = commentsOf p.2 := by
  unfold condFns
  rw [List.flatMap_append]
  have h1 : (if hasNested p.2 = true then [modFn p.2] else []).flatMap comments = [] := by
    split <;> simp [modFn, comments]
  rw [h1, List.nil_append]
  by_cases h : actionsOf p.2 = []
  · simp [h, commentsOf]
  · simp [h, condFn, comments_body]

theorem leaves_append (a b : List Ast) : leaves (a ++ b) = leaves a ++ leaves b := by
  simp [leaves, preAll_append]

theorem leaves_cons (a : Ast) (b : List Ast) : leaves (a :: b) = leaves [a] ++ leaves b := leaves_append [a] b

theorem leaves_action {s t cs} (h : ∀ c ∈ cs, ∃ s' t', c = Ast.description s' t') :
    leaves [.action s t cs] = commentLines (.action s t cs) := by
  simp only [leaves, preAll, pre, List.append_nil, commentLines, titleOf, kids]
  rw [preAll_descs h, List.filter_cons_of_pos (by rfl), List.map_cons]
  congr 1
  rw [List.filter_eq_self.2]
  intro c hc
  obtain ⟨s', t', rfl⟩ := h c hc
  rfl

theorem leaves_condition {s t cs} : leaves [.condition s t cs] = leaves cs := by
  simp [leaves, preAll, pre, Ast.isCondition]

/-- Separating the actions of siblings from the conditions. -/
theorem leaves_split {cs : List Ast} (h : ∀ c ∈ cs, GoodItem c) :
    ((cs.filter Ast.isAction).flatMap commentLines ++ leaves (cs.filter Ast.isCondition)).Perm (leaves cs) := by
  induction cs with
  | nil => simp [leaves, preAll]
  | cons c cs ih =>
    have ih := ih (fun c hc => h c (by simp [hc]))
    rw [leaves_cons c cs]
    cases h c (by simp) with
    | action hd =>
      rw [List.filter_cons_of_pos (by rfl), List.filter_cons_of_neg (by simp [Ast.isCondition]), List.flatMap_cons,
        leaves_action hd, List.append_assoc]
      exact List.Perm.append_left _ ih
    | @condition s t ks =>
      rw [List.filter_cons_of_neg (by simp [Ast.isAction]), List.filter_cons_of_pos (by rfl), leaves_cons _ (List.filter _ _)]
      refine List.Perm.trans ?_ (List.Perm.append_left _ ih)
      simp only [← List.append_assoc]
      exact List.Perm.append_right _ List.perm_append_comm

theorem leaves_conditions {cs : List Ast} : leaves (cs.filter Ast.isCondition) = (cs.filter Ast.isCondition).flatMap (fun a => leaves [a]) := by
  generalize cs.filter Ast.isCondition = l
  induction l with
  | nil => rfl
  | cons c l ih => rw [leaves_cons c l, ih]; rfl

theorem inScopeAll_filter {e : List Ast} {cs : List Ast} (h : ∀ c ∈ cs, GoodItem c) :
    inScopeAll e (cs.filter Ast.isCondition) = inScopeAll e cs := by
  induction cs with
  | nil => rfl
  | cons c cs ih =>
    have ih := ih (fun c hc => h c (by simp [hc]))
    cases h c (by simp) with
    | action => rw [List.filter_cons_of_neg (by simp [Ast.isCondition]), ih]; rfl
    | condition => rw [List.filter_cons_of_pos (by rfl), inScopeAll, inScopeAll, ih]

theorem comments_inScope {a : Ast} (h : GoodItem a) : ∀ (skip : Bool) (e : List Ast), a.isCondition = true →
    (((inScope e a).flatMap (condFns skip)).flatMap comments).Perm (leaves [a]) := by
  induction h with
  | action => intro _ _ hc; cases hc
  | @condition s t cs _ hcs ih =>
    intro skip e _
    rw [inScope, List.flatMap_cons, List.flatMap_append, comments_condFns, leaves_condition]
    refine List.Perm.trans ?_ (leaves_split hcs)
    simp only [commentsOf, actionsOf, kids]
    refine List.Perm.append_left _ ?_
    rw [← inScopeAll_filter hcs]
    have hm : ∀ c ∈ cs.filter Ast.isCondition, c ∈ cs ∧ c.isCondition = true := fun c hc => List.mem_filter.1 hc
    generalize cs.filter Ast.isCondition = l at hm
    generalize e ++ [Ast.condition s t cs] = e'
    induction l with
    | nil => exact .refl _
    | cons c l ih2 =>
      rw [inScopeAll, List.flatMap_append, List.flatMap_append, leaves_cons c l]
      exact List.Perm.append (ih c (hm c (by simp)).1 skip e' (hm c (by simp)).2) (ih2 (fun c hc => hm c (by simp [hc])))

theorem comments_expected {cs : List Ast} (h : ∀ c ∈ cs, GoodItem c) (skip : Bool) :
    ((expected skip cs).flatMap comments).Perm (leaves cs) := by
  induction cs with
  | nil => exact .refl _
  | cons a as ih =>
    rw [expected_cons, List.flatMap_append, leaves_cons a as]
    refine List.Perm.append ?_ (ih (fun c hc => h c (by simp [hc])))
    cases h a (by simp) with
    | action hd => rw [leaves_action hd]; simp [Ast.isAction, actFn, comments_body]
    | condition => exact comments_inScope (h _ (by simp)) skip [] rfl

/-- With actions before nested conditions everywhere the comments are in source order. -/
theorem leaves_split_eq {cs : List Ast} {s t} (h : ∀ c ∈ cs, GoodItem c) (hf : ActionsFirst (.condition s t cs)) :
    (cs.filter Ast.isAction).flatMap commentLines ++ leaves (cs.filter Ast.isCondition) = leaves cs := by
  obtain ⟨A, B, he, hA, hB⟩ := hf
  simp only [kids] at he
  subst he
  have h1 : A.filter Ast.isCondition = [] := by
    rw [List.filter_eq_nil_iff]
    intro a ha
    have := hA a ha
    cases a <;> simp [Ast.isAction, Ast.isCondition] at this ⊢
  have h2 : B.filter Ast.isAction = [] := by
    rw [List.filter_eq_nil_iff]
    intro b hb
    have := hB b hb
    cases b <;> simp [Ast.isAction, Ast.isCondition] at this ⊢
  rw [List.filter_append, List.filter_append, h1, h2, List.filter_eq_self.2 hA, List.filter_eq_self.2 hB]
  rw [List.append_nil, List.nil_append, leaves_append]
  congr 1
  clear h1 h2 hB
  induction A with
  | nil => rfl
  | cons a A ih =>
    rw [leaves_cons a A, List.flatMap_cons, ih (fun a ha => hA a (by simp [ha])) (fun c hc => h c (by rw [List.cons_append]; exact List.mem_cons_of_mem _ hc))]
    congr 1
    cases h a (by simp) with
    | action hd => rw [leaves_action hd]
    | condition => have := hA _ (List.mem_cons_self); simp [Ast.isAction] at this

theorem comments_inScope_eq {a : Ast} (h : GoodItem a) : ∀ (skip : Bool) (e : List Ast), a.isCondition = true →
    (∀ c ∈ conditionsOf [a], ActionsFirst c) → ((inScope e a).flatMap (condFns skip)).flatMap comments = leaves [a] := by
  induction h with
  | action => intro _ _ hc; cases hc
  | @condition s t cs _ hcs ih =>
    intro skip e _ hf
    rw [conditionsOf_condition] at hf
    rw [inScope, List.flatMap_cons, List.flatMap_append, comments_condFns, leaves_condition,
      ← leaves_split_eq hcs (hf (.condition s t cs) (by simp))]
    simp only [commentsOf, actionsOf, kids]
    congr 1
    rw [← inScopeAll_filter hcs]
    have hm : ∀ c ∈ cs.filter Ast.isCondition, c ∈ cs ∧ c.isCondition = true := fun c hc => List.mem_filter.1 hc
    generalize cs.filter Ast.isCondition = l at hm
    generalize e ++ [Ast.condition s t cs] = e'
    induction l with
    | nil => rfl
    | cons c l ih2 =>
      rw [inScopeAll, List.flatMap_append, List.flatMap_append, leaves_cons c l, ih2 (fun c hc => hm c (by simp [hc])),
        ih c (hm c (by simp)).1 skip e' (hm c (by simp)).2]
      intro d hd
      refine hf d (List.mem_cons_of_mem _ ?_)
      obtain ⟨A, B, he⟩ := List.append_of_mem (hm c (by simp)).1
      rw [he, conditionsOf_append, conditionsOf_cons]
      simp [hd]

theorem comments_expected_eq {cs : List Ast} (h : ∀ c ∈ cs, GoodItem c) (skip : Bool)
    (hf : ∀ c ∈ conditionsOf cs, ActionsFirst c) : (expected skip cs).flatMap comments = leaves cs := by
  induction cs with
  | nil => rfl
  | cons a as ih =>
    rw [expected_cons, List.flatMap_append, leaves_cons a as,
      ih (fun c hc => h c (by simp [hc])) (fun c hc => hf c (by rw [conditionsOf_cons]; simp [hc]))]
    congr 1
    cases h a (by simp) with
    | action hd => rw [leaves_action hd]; simp [Ast.isAction, actFn, comments_body]
    | condition =>
      exact comments_inScope_eq (h _ (by simp)) skip [] rfl (fun c hc => hf c (by rw [conditionsOf_cons]; simp [hc]))

/-! ## Outline -/

theorem outline_eq {cs : List Ast} (h : ∀ c ∈ cs, GoodItem c) (skip : Bool) :
    (expected skip cs).map (fun f => (f.ty, f.identifier)) = outline cs := by
  induction cs with
  | nil => rfl
  | cons a as ih =>
    have e : outline (a :: as) = outline [a] ++ outline as := by simp [outline]
    rw [expected_cons, List.map_append, ih (fun c hc => h c (by simp [hc])), e]
    congr 1
    cases h a (by simp) with
    | action => simp [Ast.isAction, outline, actFn, titleOf]
    | @condition s t cs h1 h2 =>
      simp only [Ast.isAction, Bool.false_eq_true, if_false, outline, List.flatMap_cons, List.flatMap_nil, List.append_nil]
      rw [← inScope_snd (h _ (by simp)) []]
      generalize inScope [] (Ast.condition s t cs) = l
      induction l with
      | nil => rfl
      | cons p l ih2 =>
        rw [List.flatMap_cons, List.map_append, ih2, List.map_cons, List.flatMap_cons]
        congr 1
        unfold condFns
        by_cases hn : hasNested p.2 = true <;> by_cases ha : actionsOf p.2 = [] <;> simp [hn, ha, modFn, condFn]

end
end Bulloak
