import Verif.Spec.Semantics
import Verif.Lemmas.Parse3
/-! # Lemmas about semantic analysis -/

set_option linter.unusedSectionVars false

namespace Bulloak
open Spec

theorem firsts_snoc (l : List Str) (x : Str) : firsts (l ++ [x]) = if x ∈ l then firsts l else firsts l ++ [x] := by
  induction l with
  | nil => simp [firsts]
  | cons y l ih =>
    simp only [List.cons_append, firsts, ih]
    by_cases hy : x = y
    · subst hy
      by_cases hl : x ∈ l
      · simp [hl]
      · simp [hl, List.filter_append]
    · by_cases hl : x ∈ l
      · simp [hl]
      · simp [hl, hy, List.filter_append]

theorem mem_firsts (l : List Str) (x : Str) : x ∈ firsts l ↔ x ∈ l := by
  induction l with
  | nil => simp [firsts]
  | cons y l ih =>
    simp only [firsts, List.mem_cons, List.mem_filter, ih]
    by_cases h : x = y
    · simp [h]
    · simp [h]

theorem firsts_nodup (l : List Str) : (firsts l).Nodup := by
  induction l with
  | nil => simp [firsts]
  | cons y l ih =>
    simp only [firsts, List.nodup_cons]
    refine ⟨by simp, ih.filter _⟩

/-- What the identifier map contains after some insertions. -/
def group (L : List (Str × Span)) : List (Str × List Span) :=
  (firsts (L.map Prod.fst)).map (fun i => (i, (L.filter (fun p => p.1 = i)).map Prod.snd))

theorem addIdentifier_map (id : Str) (sp : Span) (ks : List Str) (f : Str → List Span) (hn : ks.Nodup) :
    addIdentifier id sp (ks.map (fun k => (k, f k))) =
      if id ∈ ks then ks.map (fun k => (k, if k = id then f k ++ [sp] else f k))
      else ks.map (fun k => (k, f k)) ++ [(id, [sp])] := by
  induction ks with
  | nil => simp [addIdentifier]
  | cons k ks ih =>
    simp only [List.nodup_cons] at hn
    simp only [List.map_cons, addIdentifier]
    by_cases hk : k = id
    · subst hk
      simp only [if_true, List.mem_cons, true_or]
      congr 1
      apply List.map_congr_left
      intro a ha
      rw [if_neg]
      rintro rfl; exact hn.1 ha
    · rw [if_neg hk, ih hn.2]
      have : (id ∈ k :: ks) ↔ id ∈ ks := by simp [Ne.symm hk]
      by_cases hm : id ∈ ks
      · rw [if_pos hm, if_pos (this.2 hm), if_neg hk]
      · rw [if_neg hm, if_neg (fun h => hm (this.1 h))]; rfl

theorem group_snoc (L : List (Str × Span)) (id : Str) (sp : Span) :
    addIdentifier id sp (group L) = group (L ++ [(id, sp)]) := by
  unfold group
  rw [addIdentifier_map _ _ _ _ (firsts_nodup _)]
  simp only [List.map_append, List.map_cons, List.map_nil, firsts_snoc, mem_firsts]
  split
  · rename_i h
    apply List.map_congr_left
    intro a _
    by_cases ha : a = id
    · subst ha; simp
    · simp [ha, Ne.symm ha]
  · rename_i h
    rw [List.map_append]
    congr 1
    · apply List.map_congr_left
      intro a ha
      have : id ≠ a := by rintro rfl; exact h ((mem_firsts _ _).1 ha)
      simp [this]
    · simp only [List.map_cons, List.map_nil, List.filter_append]
      have : L.filter (fun p => p.1 = id) = [] := by
        rw [List.filter_eq_nil_iff]
        intro p hp
        simp only [decide_eq_true_eq]
        rintro rfl
        exact h (List.mem_map.2 ⟨p, hp, rfl⟩)
      simp [this]

section
variable [U : Ucd]

/-- Identifier and span of a node. -/
def idSpan (a : Ast) : Str × Span := (identOf a, a.span)

/-- `ConditionEmpty` errors of a forest. -/
def emptyErrs (asts : List Ast) : List SemError :=
  ((conditionsOf asts).filter (fun c => (kids c).isEmpty)).map (fun c => ⟨.conditionEmpty, c.span⟩)

theorem conditionsOf_append (a b : List Ast) : conditionsOf (a ++ b) = conditionsOf a ++ conditionsOf b := by
  simp [conditionsOf, preAll_append]

theorem conditionsOf_cons (a : Ast) (as : List Ast) : conditionsOf (a :: as) = conditionsOf [a] ++ conditionsOf as :=
  conditionsOf_append [a] as

theorem conditionsOf_condition (s t cs) : conditionsOf [.condition s t cs] = .condition s t cs :: conditionsOf cs := by
  simp only [conditionsOf, preAll, pre, List.append_nil]
  rw [List.filter_cons_of_pos rfl]

theorem preAll_descs {cs : List Ast} (h : ∀ c ∈ cs, ∃ s' t', c = .description s' t') : preAll cs = cs := by
  induction cs with
  | nil => rfl
  | cons c cs ih =>
    obtain ⟨s', t', rfl⟩ := h c (by simp)
    simp [preAll, pre, ih (fun c hc => h c (by simp [hc]))]

theorem conditionsOf_action {s t cs} (h : ∀ c ∈ cs, ∃ s' t', c = Ast.description s' t') :
    conditionsOf [.action s t cs] = [] := by
  simp only [conditionsOf, preAll, pre, preAll_descs h, List.append_nil]
  rw [List.filter_eq_nil_iff]
  intro a ha
  rcases List.mem_cons.1 ha with rfl | ha
  · simp [Ast.isCondition]
  · obtain ⟨s', t', rfl⟩ := h a ha
    simp [Ast.isCondition]

theorem emptyErrs_append (a b : List Ast) : emptyErrs (a ++ b) = emptyErrs a ++ emptyErrs b := by
  simp [emptyErrs, conditionsOf_append]

theorem emptyErrs_cons (a : Ast) (b : List Ast) : emptyErrs (a :: b) = emptyErrs [a] ++ emptyErrs b :=
  emptyErrs_append [a] b

/-- The state after visiting some nodes. -/
def SemAfter (L : List (Str × Span)) (E : List SemError) (asts : List Ast) (ns : List Ast) : SemState :=
  ⟨E ++ emptyErrs asts, group (L ++ ns.map idSpan)⟩

theorem semItem {a : Ast} (h : ItemShape a) : ∀ E L,
    semConditionChild a ⟨E, group L⟩ = ⟨E ++ emptyErrs [a], group (L ++ (conditionsOf [a]).map idSpan)⟩ := by
  induction h with
  | @action s t cs hd =>
    intro E L
    simp [semConditionChild, emptyErrs, conditionsOf_action hd]
  | @condition s t cs hc ih =>
    intro E L
    have hl : ∀ (cs : List Ast), (∀ c ∈ cs, ∀ E L, semConditionChild c ⟨E, group L⟩ =
        ⟨E ++ emptyErrs [c], group (L ++ (conditionsOf [c]).map idSpan)⟩) → ∀ E L,
        semConditionChildren cs ⟨E, group L⟩ = ⟨E ++ emptyErrs cs, group (L ++ (conditionsOf cs).map idSpan)⟩ := by
      intro cs
      induction cs with
      | nil => intro _ E L; simp [semConditionChildren, emptyErrs, conditionsOf, preAll]
      | cons c cs ih2 =>
        intro h E L
        rw [semConditionChildren, h c (by simp), ih2 (fun c hc => h c (by simp [hc]))]
        rw [emptyErrs_cons c cs, conditionsOf_cons c cs]
        simp only [List.map_append, List.append_assoc]
    rw [semConditionChild, semCondition]
    simp only [conditionsOf_condition]
    have e1 : emptyErrs [Ast.condition s t cs] = (if cs.isEmpty then [⟨.conditionEmpty, s⟩] else []) ++ emptyErrs cs := by
      simp only [emptyErrs, conditionsOf_condition, List.filter_cons, kids]
      split <;> simp [Ast.span]
    have e2 : (if cs.isEmpty then (⟨E ++ [⟨.conditionEmpty, s⟩], group L⟩ : SemState) else ⟨E, group L⟩) =
        ⟨E ++ (if cs.isEmpty then [⟨.conditionEmpty, s⟩] else []), group L⟩ := by
      split <;> simp
    rw [e2]
    simp only [group_snoc]
    rw [hl cs ih, e1]
    simp [idSpan, identOf, titleOf, semIdent, Ast.span]

theorem semRootChild_eq {a : Ast} (h : ItemShape a) (E L) :
    semRootChild ⟨E, group L⟩ a = ⟨E ++ emptyErrs [a], group (L ++ (named [a]).map idSpan)⟩ := by
  cases h with
  | @action s t cs hd =>
    have : emptyErrs [Ast.action s t cs] = [] := by simp [emptyErrs, conditionsOf_action hd]
    simp [semRootChild, this, group_snoc, named, Ast.isAction, idSpan, identOf, titleOf, semIdent, Ast.span]
  | @condition s t cs hc =>
    have := semItem (ItemShape.condition hc (s := s) (t := t)) E L
    rw [semConditionChild] at this
    rw [semRootChild, this]
    simp [named, Ast.isAction]

theorem semRoot_eq (span : Span) {cs : List Ast} (h : ∀ c ∈ cs, ItemShape c) :
    semRoot span cs ⟨[], []⟩ = ⟨(if cs = [] then [⟨.treeEmpty, ⟨span.stop, span.stop⟩⟩] else []) ++ emptyErrs cs,
      group ((named cs).map idSpan)⟩ := by
  have hf : ∀ (cs : List Ast), (∀ c ∈ cs, ItemShape c) → ∀ E L, cs.foldl semRootChild ⟨E, group L⟩ =
      ⟨E ++ emptyErrs cs, group (L ++ (named cs).map idSpan)⟩ := by
    intro cs
    induction cs with
    | nil => intro _ E L; simp [emptyErrs, conditionsOf, preAll, named]
    | cons c cs ih =>
      intro h E L
      rw [List.foldl_cons, semRootChild_eq (h c (by simp)), ih (fun c hc => h c (by simp [hc])), emptyErrs_cons c cs]
      have : named (c :: cs) = named [c] ++ named cs := by simp [named]
      rw [this]; simp only [List.map_append, List.append_assoc]
  have := hf cs h (if cs = [] then [⟨.treeEmpty, ⟨span.stop, span.stop⟩⟩] else []) []
  rw [semRoot, ← List.nil_append ((named cs).map idSpan), ← this]
  have g0 : group [] = [] := rfl
  cases cs with
  | nil => simp [Span.splat, g0]
  | cons c cs => simp [g0]

theorem dupErrors_map (children : List Ast) (ks : List Str) :
    dupErrors (ks.map (placesOf children)) = ks.flatMap (dupComplaint children) := by
  induction ks with
  | nil => rfl
  | cons k ks ih =>
    simp only [dupErrors] at ih ⊢
    simp only [List.map_cons, List.filterMap_cons, List.flatMap_cons, ih]
    simp only [dupComplaint]
    rcases placesOf children k with _ | ⟨p, _ | ⟨q, r⟩⟩ <;> simp [Span.withEnd]

theorem group_named (children : List Ast) :
    (group ((named children).map idSpan)).map Prod.snd =
      (firsts ((named children).map identOf)).map (placesOf children) := by
  simp only [group, List.map_map]
  have : (Prod.fst ∘ idSpan) = (identOf : Ast → Str) := rfl
  rw [this]
  apply List.map_congr_left
  intro i _
  simp only [Function.comp, placesOf, List.filter_map, List.map_map]
  rfl

theorem analyze_perm {order : HashOrder} (ho : ∀ l, (order l).Perm l) {span : Span} {n : Str} {cs : List Ast}
    (h : ∀ c ∈ cs, ItemShape c) : (analyze order (.root span n cs)).Perm (complaints span cs) := by
  simp only [analyze, semVisit, semRoot_eq span h, complaints]
  apply List.Perm.append_left
  rw [group_named, ← dupErrors_map]
  exact (ho _).filterMap _

/-- No complaint about duplicates iff all identifiers differ. -/
theorem dup_nil_iff (children : List Ast) :
    (firsts ((named children).map identOf)).flatMap (dupComplaint children) = [] ↔ ((named children).map identOf).Nodup := by
  rw [List.flatMap_eq_nil_iff]
  simp only [mem_firsts]
  have h1 : ∀ i, dupComplaint children i = [] ↔ ((named children).map identOf).count i ≤ 1 := by
    intro i
    have : ((named children).map identOf).count i = (placesOf children i).length := by
      rw [List.count_eq_countP, List.countP_map, List.countP_eq_length_filter, placesOf, List.length_map]
      congr 1
      apply List.filter_congr
      intro a _
      simp only [Function.comp]
      rw [Bool.eq_iff_iff]; simp
    rw [this]
    simp only [dupComplaint]
    rcases placesOf children i with _ | ⟨p, _ | ⟨q, r⟩⟩ <;> simp
  rw [List.nodup_iff_count]
  constructor
  · intro h i
    by_cases hi : i ∈ (named children).map identOf
    · exact (h1 i).1 (h i hi)
    · rw [List.count_eq_zero.2 hi]; omega
  · intro h i _
    exact (h1 i).2 (h i)

end
end Bulloak
