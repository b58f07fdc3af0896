import Verif.Spec.Edit
import Verif.Props.FixWhole
/-!
# Editing a tree: C95, C96
-/

namespace Bulloak
open Spec
set_option linter.unusedSectionVars false

section
variable [U : Ucd]

theorem within_append {α : Type} {R : α → α → Prop} {a a' b b' : List α} (h : Within R a a') (h' : Within R b b') :
    Within R (a ++ b) (a' ++ b') := by
  induction h with
  | done => exact h'
  | add _ ih => exact .add ih
  | keep r _ ih => exact .keep r ih

theorem within_before {α : Type} {R : α → α → Prop} {b b' : List α} (a' : List α) (h : Within R b b') : Within R b (a' ++ b') := by
  induction a' with
  | nil => exact h
  | cons x xs ih => exact .add ih

theorem within_refl {α : Type} {R : α → α → Prop} (hr : ∀ a, R a a) (l : List α) : Within R l l := by
  induction l with
  | nil => exact .done
  | cons a l ih => exact .keep (hr a) ih

theorem within_map {α β : Type} {R : α → α → Prop} {f : α → β} (hf : ∀ a b, R a b → f b = f a) {l l' : List α} (h : Within R l l') :
    (l.map f).Sublist (l'.map f) := by
  induction h with
  | done => exact .slnil
  | add _ ih => exact .cons _ ih
  | keep r _ ih => rw [List.map_cons, List.map_cons, hf _ _ r]; exact ih.cons_cons _

theorem body_comments (skip : Bool) (l : List Str) : ((bodyOf skip l).filterMap commentText) = l := by
  unfold bodyOf
  rw [List.filterMap_append]
  have h1 : ∀ l : List Str, (l.map BodyItem.comment).filterMap commentText = l := by
    intro l
    induction l with
    | nil => rfl
    | cons a l ih => simp [commentText, ih]
  rw [h1]
  cases skip <;> simp [commentText]

theorem firstAction_none {l : List Ast} : firstAction l = none ↔ l.filter Ast.isAction = [] := by
  simp [firstAction]

theorem extended_nested {l l' : List Ast} (h : Extended l l') (hn : l.any Ast.isCondition = true) : l'.any Ast.isCondition = true := by
  induction h with
  | done => exact hn
  | add _ ih => simp [ih hn]
  | action _ _ ih =>
    have := ih (by simpa [Ast.isCondition] using hn)
    simpa [Ast.isCondition] using this
  | condition => simp [Ast.isCondition]

theorem extended_actions {l l' : List Ast} (h : Extended l l') (hn : l.filter Ast.isAction ≠ []) : l'.filter Ast.isAction ≠ [] := by
  induction h with
  | done => exact hn
  | @add n l l' _ ih =>
    rw [List.filter_cons]
    split
    · simp
    · exact ih hn
  | action => simp [Ast.isAction]
  | condition _ _ _ _ ih =>
    have := ih (by simpa [Ast.isAction] using hn)
    simpa [Ast.isAction] using this

theorem extended_comments {l l' : List Ast} (h : Extended l l') :
    ((l.filter Ast.isAction).flatMap commentLines).Sublist ((l'.filter Ast.isAction).flatMap commentLines) := by
  induction h with
  | done => exact .slnil
  | @add n l l' _ ih =>
    rw [List.filter_cons]
    split
    · rw [List.flatMap_cons]
      exact ih.trans (List.sublist_append_right _ _)
    · exact ih
  | action hd _ ih =>
    simp only [List.filter_cons, Ast.isAction, if_true, List.flatMap_cons]
    exact List.Sublist.append (by simp only [commentLines, titleOf, kids]; exact hd.cons_cons _) ih
  | condition _ _ _ _ ih => simpa [Ast.isAction] using ih

theorem reverts_first {s s' : Span} {t t' : Str} {ks ks' : List Ast} (h : firstAction ks' = firstAction ks) :
    reverts (.condition s' t' ks') = reverts (.condition s t ks) := by
  unfold reverts actionsOf
  simp only [kids]
  unfold firstAction at h
  cases h1 : ks'.filter Ast.isAction <;> cases h2 : ks.filter Ast.isAction <;> simp_all [revertAction]

/-- The functions of a condition get richer. -/
theorem condFns_richer {skip skip' : Bool} {encl encl' : List Ast} (he : encl'.map modName = encl.map modName) {s s' : Span} {t : Str}
    {ks ks' : List Ast} (h : Extended ks ks') (hf : firstAction ks = none ∨ firstAction ks' = firstAction ks) :
    Within Richer (condFns skip (encl, .condition s t ks)) (condFns skip' (encl', .condition s' t ks')) := by
  unfold condFns
  apply within_append
  · by_cases hn : hasNested (Ast.condition s t ks) = true
    · have hn' : hasNested (Ast.condition s' t ks') = true := extended_nested h hn
      rw [if_pos hn, if_pos hn']
      exact .keep ⟨rfl, .slnil, .slnil⟩ .done
    · rw [if_neg hn]
      split
      · exact .add .done
      · exact .done
  · by_cases ha : actionsOf (Ast.condition s t ks) = []
    · rw [if_pos ha]
      split
      · exact .done
      · exact .add .done
    · have ha' : actionsOf (Ast.condition s' t ks') ≠ [] := extended_actions h ha
      rw [if_neg ha, if_neg ha']
      have hf' : firstAction ks' = firstAction ks := hf.resolve_left (fun h => ha (firstAction_none.1 h))
      refine .keep ⟨?_, ?_, ?_⟩ .done
      · simp only [nameOf, condFn, testName, titleOf, reverts_first (s := s) (s' := s') (t := t) (t' := t) hf']
      · simp only [condFn, modList_getD, guards, List.map_append, he]
        apply List.Sublist.append_left
        by_cases hn : hasNested (Ast.condition s t ks) = true
        · have hn' : hasNested (Ast.condition s' t ks') = true := extended_nested h hn
          rw [if_pos hn, if_pos hn']
          exact List.Sublist.refl _
        · rw [if_neg hn]
          exact List.nil_sublist _
      · simp only [comments, condFn, Option.getD_some, body_comments]
        exact extended_comments h

theorem inScopeAll_richer {skip skip' : Bool} {l l' : List Ast} (h : Extended l l') : ∀ {encl encl' : List Ast}, encl'.map modName = encl.map modName →
    Within Richer ((inScopeAll encl l).flatMap (condFns skip)) ((inScopeAll encl' l').flatMap (condFns skip')) := by
  induction h with
  | done => intro _ _ _; exact .done
  | add _ ih =>
    intro encl encl' he
    rw [inScopeAll.eq_2, List.flatMap_append]
    exact within_before _ (ih he)
  | action _ _ ih =>
    intro encl encl' he
    rw [inScopeAll.eq_2, inScopeAll.eq_2]
    simp only [inScope, List.nil_append]
    exact ih he
  | condition hk hf _ ihk ihl =>
    intro encl encl' he
    rw [inScopeAll.eq_2, inScopeAll.eq_2]
    simp only [inScope, List.cons_append, List.flatMap_cons, List.flatMap_append]
    refine within_append (condFns_richer he hk hf) (within_append (ihk ?_) (ihl he))
    simp [he, modName, titleOf]

theorem expected_richer {skip skip' : Bool} {l l' : List Ast} (h : Extended l l') :
    Within Richer (expected skip l) (expected skip' l') := by
  induction h with
  | done => exact .done
  | add _ ih =>
    unfold expected at ih ⊢
    rw [List.flatMap_cons]
    exact within_before _ ih
  | action hd _ ih =>
    unfold expected at ih ⊢
    rw [List.flatMap_cons, List.flatMap_cons]
    refine within_append ?_ ih
    simp only [Ast.isAction, if_true]
    refine .keep ⟨rfl, .slnil, ?_⟩ .done
    simp only [comments, actFn, Option.getD_some, body_comments, commentLines, titleOf, kids]
    exact hd.cons_cons _
  | condition hk hf _ _ ihl =>
    unfold expected at ihl ⊢
    rw [List.flatMap_cons, List.flatMap_cons]
    refine within_append ?_ ihl
    simp only [Ast.isAction, Bool.false_eq_true, if_false, inScope, List.flatMap_cons]
    exact within_append (condFns_richer rfl hk hf) (inScopeAll_richer hk (by simp [modName, titleOf]))

/-- The contract of a file with one tree. -/
theorem translate_single [LawfulUcd] {order : HashOrder} {text : Str} {ast : Ast} (h : parse order text = .ok [ast]) (cfg : Config) :
    translate order cfg text = .ok ⟨[⟨titleOf ast, expected cfg.emitVmSkip (kids ast)⟩]⟩ := by
  have h1 := (C13_parse_ok _ _ _).1 h
  generalize splitTrees text = bs at h1
  cases h1 with
  | cons h2 _ =>
    unfold translate
    rw [h]
    simp only [Res.mapErr, Res.bind_ok, translateOne_eq h2 cfg]

/-- **C95.** Adding branches to a tree keeps all functions, in order; those that are kept keep their names and kinds, and at most gain
modifiers and comments. -/
theorem C95_functions [LawfulUcd] {order order' : HashOrder} {text text' : Str} {ast ast' : Ast} (h : parse order text = .ok [ast])
    (h' : parse order' text' = .ok [ast']) (he : Extended (kids ast) (kids ast')) (cfg : Config) :
    ∃ fns fns', translate order cfg text = .ok ⟨[⟨titleOf ast, fns⟩]⟩ ∧ translate order' cfg text' = .ok ⟨[⟨titleOf ast', fns'⟩]⟩ ∧
      Within Richer fns fns' :=
  ⟨_, _, translate_single h cfg, translate_single h' cfg, expected_richer he⟩

/-! ## Checking the edited tree -/

theorem matches_name {f g : HFn} (h : nameOf f = nameOf g) (p : SolPart) : Matches f p ↔ Matches g p := by
  simp only [nameOf, Prod.mk.injEq] at h
  cases p with
  | fn k => simp only [Matches, h.1, h.2]
  | other => rfl

theorem present_name {f g : HFn} (h : nameOf f = nameOf g) (ps : List SolPart) : Present ps f ↔ Present ps g := by
  simp only [Present, matches_name h]

theorem at_name {f g : HFn} (h : nameOf f = nameOf g) (ps : List SolPart) (i : Nat) : At ps f i ↔ At ps g i := by
  simp only [At, matches_name h]

theorem inOrder_names {fns fns' : List HFn} (h : (fns.map nameOf).Sublist (fns'.map nameOf)) {ps : List SolPart}
    (ho : InOrder fns' ps) : InOrder fns ps := by
  let R : FnTy × Str → FnTy × Str → Prop := fun a b => ∀ i j, At ps ⟨a.2, a.1, Span.default, none, none⟩ i →
    At ps ⟨b.2, b.1, Span.default, none, none⟩ j → i ≤ j
  have hR : ∀ l : List HFn, InOrder l ps ↔ (l.map nameOf).Pairwise R := by
    intro l
    rw [List.pairwise_map]
    unfold InOrder
    have : ∀ f g : HFn, (∀ i j, At ps f i → At ps g j → i ≤ j) ↔ R (nameOf f) (nameOf g) := by
      intro f g
      simp only [R]
      have h1 := at_name (f := f) (g := ⟨(nameOf f).2, (nameOf f).1, Span.default, none, none⟩) rfl ps
      have h2 := at_name (f := g) (g := ⟨(nameOf g).2, (nameOf g).1, Span.default, none, none⟩) rfl ps
      simp only [h1, h2]
    simp only [this]
  exact (hR _).2 (((hR _).1 ho).sublist h)

theorem names_mem {fns fns' : List HFn} (h : (fns.map nameOf).Sublist (fns'.map nameOf)) {f : HFn} (hf : f ∈ fns) :
    ∃ g ∈ fns', nameOf g = nameOf f := by
  have := h.subset (List.mem_map_of_mem hf)
  obtain ⟨g, hg, e⟩ := List.mem_map.1 this
  exact ⟨g, hg, e⟩

/-- `check` after removing functions. -/
theorem check_less {ctx : Context} {n : Str} {fns fns' : List HFn} (hh : ctx.hir = ⟨[⟨n, fns'⟩]⟩) (hc : checkCtx ctx = .ok [])
    (hs : (fns.map nameOf).Sublist (fns'.map nameOf)) : checkCtx { ctx with hir := ⟨[⟨n, fns⟩]⟩ } = .ok [] := by
  obtain ⟨s, h1, h2, h3, h4⟩ := (C37_silent_iff hh).1 hc
  refine (C37_silent_iff (ctx := { ctx with hir := ⟨[⟨n, fns⟩]⟩ }) rfl).2 ⟨s, h1, h2, ?_, inOrder_names hs h4⟩
  intro f hf
  obtain ⟨g, hg, e⟩ := names_mem hs hf
  rcases h3 g hg with h | ⟨h, h'⟩
  · exact .inl ((present_name e _).1 h)
  · refine .inr ⟨h, ?_⟩
    have := congrArg Prod.fst e
    simp only [nameOf] at this
    rw [← this]; exact h'

/-- **C96.** Removing branches from a tree never makes `check` complain about a file it was content with. -/
theorem C96_remove [LawfulUcd] {order order' : HashOrder} {text text' : Str} {ast ast' : Ast} (h : parse order text = .ok [ast])
    (h' : parse order' text' = .ok [ast']) (hn : titleOf ast = titleOf ast') (he : Extended (kids ast) (kids ast')) (cfg : Config)
    {ctx : Context} {hir : HRoot} (ht : translate order cfg text = .ok hir) (ht' : translate order' cfg text' = .ok ctx.hir)
    (hc : checkCtx ctx = .ok []) : checkCtx { ctx with hir := hir } = .ok [] := by
  rw [translate_single h] at ht
  rw [translate_single h'] at ht'
  obtain rfl := Res.ok.inj ht
  rw [hn]
  exact check_less (Res.ok.inj ht').symm hc (within_map (fun _ _ r => r.name) (expected_richer he))

/-- If the name is right and the functions are in order, only missing functions are reported. -/
theorem check_in_order {ctx : Context} {n : Str} {fns : List HFn} (hh : ctx.hir = ⟨[⟨n, fns⟩]⟩) {s : SolContract} (hs : FirstContract ctx.pt s)
    (hname : ∀ m, s.name = some m → m = sanitize n) (hord : InOrder fns s.parts) :
    checkCtx ctx = .ok (presentAndMissing ctx s 0 fns).2 := by
  have hu : unsortedPairs (presentAndMissing ctx s 0 fns).1 = [] := by
    apply List.eq_nil_iff_forall_not_mem.2
    rintro ⟨i, a⟩ hp
    obtain ⟨f, hf, ha, j, g, b, hij, hg, hb, hlt⟩ := (mem_inversions ctx s fns i a).1 hp
    unfold InOrder at hord
    rw [List.pairwise_iff_getElem] at hord
    obtain ⟨hi, rfl⟩ := List.getElem?_eq_some_iff.1 hf
    obtain ⟨hj, rfl⟩ := List.getElem?_eq_some_iff.1 hg
    have := hord i j hi hj hij a b ha hb
    omega
  have hn : checkContractNames ctx ⟨n, fns⟩ s = .ok [] := by
    unfold checkContractNames
    cases he : s.name with
    | none => rfl
    | some m => simp only; rw [if_neg (by simpa using hname m he)]
  have hf : checkFnsStructure ctx ⟨n, fns⟩ s = .ok (presentAndMissing ctx s 0 fns).2 := by
    unfold checkFnsStructure
    simp only [hu, orderViolations]
    split
    · rfl
    · simp
  unfold checkCtx
  rw [(findContract_iff _ _).2 hs, hh]
  simp only [HRoot.findContract, List.head?_cons]
  rw [hn, hf]
  rfl

theorem pairwise_within {α : Type} {R : α → α → Prop} {l l' : List α} (h : l.Sublist l') (hd : l'.Nodup) (hp : l.Pairwise R) :
    l'.Pairwise (fun a b => a ∈ l → b ∈ l → R a b) := by
  induction h with
  | slnil => exact .nil
  | @cons l₁ l₂ a hs ih =>
    rw [List.nodup_cons] at hd
    exact List.pairwise_cons.2 ⟨fun b _ ha => absurd (hs.subset ha) hd.1, ih hd.2 hp⟩
  | @cons_cons l₁ l₂ a hs ih =>
    rw [List.nodup_cons] at hd
    rw [List.pairwise_cons] at hp
    refine List.pairwise_cons.2 ⟨?_, ?_⟩
    · intro b hb _ hbl
      rcases List.mem_cons.1 hbl with rfl | hbl
      · exact absurd hb hd.1
      · exact hp.1 b hbl
    · refine (ih hd.2 hp.2).imp_of_mem ?_
      intro x y hx hy hR hxl hyl
      refine hR ?_ ?_
      · rcases List.mem_cons.1 hxl with rfl | h
        · exact absurd hx hd.1
        · exact h
      · rcases List.mem_cons.1 hyl with rfl | h
        · exact absurd hy hd.1
        · exact h

theorem distinct_nodup {fns : List HFn} (h : Distinct fns) : (fns.map nameOf).Nodup := by
  unfold List.Nodup
  rw [List.pairwise_map]
  refine h.imp ?_
  intro f g hn e
  simp only [nameOf, Prod.mk.injEq] at e
  exact hn ⟨e.2, e.1⟩

/-- Functions that are not in the contract do not disturb the order. -/
theorem inOrder_more {fns fns' : List HFn} (h : (fns.map nameOf).Sublist (fns'.map nameOf)) (hd : Distinct fns') {ps : List SolPart}
    (ho : InOrder fns ps) (hnew : ∀ f ∈ fns', nameOf f ∉ fns.map nameOf → ¬ Present ps f) : InOrder fns' ps := by
  let R : FnTy × Str → FnTy × Str → Prop := fun a b => ∀ i j, At ps ⟨a.2, a.1, Span.default, none, none⟩ i →
    At ps ⟨b.2, b.1, Span.default, none, none⟩ j → i ≤ j
  have hR : ∀ f g : HFn, (∀ i j, At ps f i → At ps g j → i ≤ j) ↔ R (nameOf f) (nameOf g) := by
    intro f g
    simp only [R]
    have h1 := at_name (f := f) (g := ⟨(nameOf f).2, (nameOf f).1, Span.default, none, none⟩) rfl ps
    have h2 := at_name (f := g) (g := ⟨(nameOf g).2, (nameOf g).1, Span.default, none, none⟩) rfl ps
    simp only [h1, h2]
  have h1 : (fns.map nameOf).Pairwise R := by
    rw [List.pairwise_map]
    exact ho.imp (fun {f g} h => (hR f g).1 h)
  have h2 := pairwise_within h (distinct_nodup hd) h1
  rw [List.pairwise_map] at h2
  refine h2.imp_of_mem ?_
  intro f g hf hg hr i j hi hj
  have hm : ∀ f ∈ fns', Present ps f → nameOf f ∈ fns.map nameOf :=
    fun f hf hp => Classical.byContradiction fun hc => hnew f hf hc hp
  exact (hR f g).2 (hr (hm f hf (at_present hi)) (hm g hg (at_present hj))) i j hi hj

/-- `check` after adding functions. -/
theorem check_more {ctx : Context} {n : Str} {fns fns' : List HFn} (hh : ctx.hir = ⟨[⟨n, fns⟩]⟩) (hc : checkCtx ctx = .ok [])
    (h : (fns.map nameOf).Sublist (fns'.map nameOf)) (hd : Distinct fns')
    (hnew : ∀ s, FirstContract ctx.pt s → ∀ f ∈ fns', nameOf f ∉ fns.map nameOf → ¬ Present s.parts f) :
    ∃ vs, checkCtx { ctx with hir := ⟨[⟨n, fns'⟩]⟩ } = .ok vs ∧ Increasing (vs.filterMap missingIdx) ∧
      ∀ v, v ∈ vs ↔ ∃ f i, fns'[i]? = some f ∧ nameOf f ∉ fns.map nameOf ∧ ¬ (ctx.skipModifiers = true ∧ f.ty = .modifier) ∧
        v = ⟨.matchingFunctionMissing f i, .code ctx.tree f.span.start.line⟩ := by
  obtain ⟨s, h1, h2, h3, h4⟩ := (C37_silent_iff hh).1 hc
  have hv := check_in_order (ctx := { ctx with hir := ⟨[⟨n, fns'⟩]⟩ }) rfl h1 h2 (inOrder_more h hd h4 (hnew s h1))
  have hold : ∀ f, ¬ Present s.parts f → ¬ (ctx.skipModifiers = true ∧ f.ty = .modifier) → nameOf f ∉ fns.map nameOf := by
    intro f hp hs hm
    obtain ⟨g, hg, e⟩ := List.mem_map.1 hm
    rcases h3 g hg with h | ⟨h, h'⟩
    · exact hp ((present_name e _).1 h)
    · have := congrArg Prod.fst e
      simp only [nameOf] at this
      exact hs ⟨h, by rw [← this]; exact h'⟩
  refine ⟨_, hv, (C38_missing (ctx := { ctx with hir := ⟨[⟨n, fns'⟩]⟩ }) rfl h1 hv).2, ?_⟩
  obtain ⟨m1, m2, _⟩ := presentAndMissing_missing { ctx with hir := ⟨[⟨n, fns'⟩]⟩ } s fns' 0
  intro v
  constructor
  · intro hm
    obtain ⟨f, i, _, hi, e, h5, h6⟩ := m1 v hm
    exact ⟨f, i, by simpa using hi, hold f h5 h6, h6, e⟩
  · rintro ⟨f, i, hi, h5, h6, rfl⟩
    exact m2 f i (Nat.zero_le _) (by simpa using hi) (hnew s h1 f (List.mem_of_getElem? hi) h5) h6

/-- **C95**, check: against a file that conforms to a tree, the tree with branches added is reported to miss exactly the functions of the new
branches, each with the line of its branch, in the order of the tree.  (The new functions must differ, and not happen to be in the file.) -/
theorem C95_check [LawfulUcd] {order order' : HashOrder} {text text' : Str} {ast ast' : Ast} (h : parse order text = .ok [ast])
    (h' : parse order' text' = .ok [ast']) (he : Extended (kids ast) (kids ast')) (cfg : Config)
    {ctx : Context} {hir' : HRoot} (ht : translate order cfg text = .ok ctx.hir) (ht' : translate order' cfg text' = .ok hir')
    (hc : checkCtx ctx = .ok []) {n : Str} {fns fns' : List HFn} (hh : ctx.hir = ⟨[⟨n, fns⟩]⟩) (hh' : hir' = ⟨[⟨n, fns'⟩]⟩) (hd : Distinct fns')
    (hnew : ∀ s, FirstContract ctx.pt s → ∀ f ∈ fns', nameOf f ∉ fns.map nameOf → ¬ Present s.parts f) :
    ∃ vs, checkCtx { ctx with hir := hir' } = .ok vs ∧ Increasing (vs.filterMap missingIdx) ∧
      ∀ v, v ∈ vs ↔ ∃ f i, fns'[i]? = some f ∧ nameOf f ∉ fns.map nameOf ∧ ¬ (ctx.skipModifiers = true ∧ f.ty = .modifier) ∧
        v = ⟨.matchingFunctionMissing f i, .code ctx.tree f.span.start.line⟩ := by
  rw [translate_single h, hh] at ht
  rw [translate_single h', hh'] at ht'
  simp only [Res.ok.injEq, HRoot.mk.injEq, List.cons.injEq, HContract.mk.injEq, and_true] at ht ht'
  obtain ⟨rfl, rfl⟩ := ht
  obtain ⟨hn, rfl⟩ := ht'
  rw [hh']
  exact check_more hh hc (within_map (fun _ _ r => r.name) (expected_richer he)) hd hnew

/-- `check --fix` after adding functions. -/
theorem fix_more [LawfulUcd] {P : SolParser} {G : SolGrammar} (hG : G.HasGenerated) (hP : Reader P G) {ctx : Context} {hir' : HRoot}
    (hc : checkCtx ctx = .ok []) {n : Str} {fns fns' : List HFn} (hh : ctx.hir = ⟨[⟨n, fns⟩]⟩) (hh' : hir' = ⟨[⟨n, fns'⟩]⟩) (hd : Distinct fns')
    (hsub : (fns.map nameOf).Sublist (fns'.map nameOf))
    (hf : ∀ f ∈ fns', ReadableFn f) {L : Layout} (hL : L.Fits G) (hsrc : ctx.src = L.text) (hpt : P ctx.src = some ctx.pt) (hb : '{' ∉ L.header)
    (hnew : ∀ f ∈ fns', nameOf f ∉ fns.map nameOf → ¬ Present L.parts f) (hm : ¬ (ctx.skipModifiers = true ∧ BehindMissing fns' L)) :
    ∃ (L' : Layout) (u : SolUnit) (k : Nat), fixContext P { ctx with hir := hir' } = .ok ({ ctx with hir := hir', src := L'.text, pt := u }, k) ∧ L'.Fits G ∧
      FirstContract u L'.contract ∧ L'.before = L.before ∧ L'.header = L.header ∧ L'.rest = L.rest ∧ L.text.Sublist L'.text ∧
      (L.segs.map Prod.fst).Sublist (L'.segs.map Prod.fst) ∧
      (L'.segs.map Prod.fst).Perm (L.segs.map Prod.fst ++
        (fns'.filter (fun f => nameOf f ∉ fns.map nameOf ∧ ¬ (ctx.skipModifiers = true ∧ f.ty = .modifier))).map newSeg) ∧
      (∀ i f, fns'[i]? = some f → nameOf f ∉ fns.map nameOf → ¬ (ctx.skipModifiers = true ∧ f.ty = .modifier) →
        (i = 0 → At L'.parts f 0) ∧ ∀ j g, i = j + 1 → fns'[j]? = some g → ∃ a, At L'.parts g a ∧ At L'.parts f (a + 1)) ∧
      checkCtx { ctx with hir := hir', src := L'.text, pt := u } = .ok [] ∧ checkCtx { ctx with src := L'.text, pt := u } = .ok [] := by
  have hfc : FirstContract ctx.pt L.contract := reader_first hP hL (by rw [← hsrc]; exact hpt)
  obtain ⟨s, h1, h2, h3, h4⟩ := (C37_silent_iff hh).1 hc
  obtain rfl : s = L.contract := Option.some.inj (((findContract_iff _ _).2 h1).symm.trans ((findContract_iff _ _).2 hfc))
  obtain ⟨vs, hv, _⟩ := check_more hh hc hsub hd (by
    intro s hs
    obtain rfl : s = L.contract := Option.some.inj (((findContract_iff _ _).2 hs).symm.trans ((findContract_iff _ _).2 hfc))
    exact hnew)
  have hrep : ∀ f ∈ fns', Reported ctx.skipModifiers L f ↔
      (nameOf f ∉ fns.map nameOf ∧ ¬ (ctx.skipModifiers = true ∧ f.ty = .modifier)) := by
    intro f hf
    constructor
    · rintro ⟨hp, hs⟩
      refine ⟨fun hm => ?_, hs⟩
      obtain ⟨g, hg, e⟩ := List.mem_map.1 hm
      rcases h3 g hg with h | ⟨h, h'⟩
      · exact hp ((present_name e _).1 h)
      · have := congrArg Prod.fst e
        simp only [nameOf] at this
        exact hs ⟨h, by rw [← this]; exact h'⟩
    · rintro ⟨h5, h6⟩
      exact ⟨hnew f hf h5, h6⟩
  obtain ⟨L', u, h5, h6, h7, h8, h9⟩ := C91_fix_missing hG hP (ctx := { ctx with hir := hir' }) hh' hf hL hL hsrc hpt (.same h2) hb (by
    intro i f g hf hg hs hty hnp hrep
    refine hm ⟨hs, i, f, g, hf, hg, hty, ?_, hnp, hrep.1⟩
    cases hgt : g.ty with
    | function => rfl
    | modifier => exact absurd ⟨hs, hgt⟩ hrep.2) hd (inOrder_more hsub hd h4 hnew) (by rw [hh']; exact hv)
  refine ⟨L', u, vs.length, h5, h6, h7, h8.same.1, h8.same.2.2.1, h8.same.2.2.2, h8.text, h8.kept, ?_, ?_, h9, ?_⟩
  · have := h8.only
    rw [List.filter_congr (q := fun f => decide (nameOf f ∉ fns.map nameOf ∧
      ¬ (ctx.skipModifiers = true ∧ f.ty = .modifier))) (fun f hf => decide_eq_decide.2 (hrep f hf))] at this
    exact this
  · intro i f hi h10 h11
    exact h8.placed hd i f hi ((hrep f (List.mem_of_getElem? hi)).2 ⟨h10, h11⟩)
  · have := check_less (ctx := { ctx with hir := hir', src := L'.text, pt := u }) hh' h9 hsub
    rw [← hh] at this
    exact this

/-- **C95**, fix: on a valid file that conforms to a tree, `check --fix` with branches added to the tree inserts exactly the functions of the new
branches, each directly behind its predecessor in the tree, keeps everything else, and ends with a file that conforms to the new and to the
old tree.  (With `-m`, no new test may come directly behind a missing modifier, see C93.) -/
theorem C95_fix [LawfulUcd] {P : SolParser} {G : SolGrammar} (hG : G.HasGenerated) (hP : Reader P G) {order order' : HashOrder}
    {text text' : Str} {ast ast' : Ast} (h : parse order text = .ok [ast])
    (h' : parse order' text' = .ok [ast']) (he : Extended (kids ast) (kids ast')) (cfg : Config)
    {ctx : Context} {hir' : HRoot} (ht : translate order cfg text = .ok ctx.hir) (ht' : translate order' cfg text' = .ok hir')
    (hc : checkCtx ctx = .ok []) {n : Str} {fns fns' : List HFn} (hh : ctx.hir = ⟨[⟨n, fns⟩]⟩) (hh' : hir' = ⟨[⟨n, fns'⟩]⟩) (hd : Distinct fns')
    (hf : ∀ f ∈ fns', ReadableFn f) {L : Layout} (hL : L.Fits G) (hsrc : ctx.src = L.text) (hpt : P ctx.src = some ctx.pt) (hb : '{' ∉ L.header)
    (hnew : ∀ f ∈ fns', nameOf f ∉ fns.map nameOf → ¬ Present L.parts f) (hm : ¬ (ctx.skipModifiers = true ∧ BehindMissing fns' L)) :
    ∃ (L' : Layout) (u : SolUnit) (k : Nat), fixContext P { ctx with hir := hir' } = .ok ({ ctx with hir := hir', src := L'.text, pt := u }, k) ∧ L'.Fits G ∧
      FirstContract u L'.contract ∧ L'.before = L.before ∧ L'.header = L.header ∧ L'.rest = L.rest ∧ L.text.Sublist L'.text ∧
      (L.segs.map Prod.fst).Sublist (L'.segs.map Prod.fst) ∧
      (L'.segs.map Prod.fst).Perm (L.segs.map Prod.fst ++
        (fns'.filter (fun f => nameOf f ∉ fns.map nameOf ∧ ¬ (ctx.skipModifiers = true ∧ f.ty = .modifier))).map newSeg) ∧
      (∀ i f, fns'[i]? = some f → nameOf f ∉ fns.map nameOf → ¬ (ctx.skipModifiers = true ∧ f.ty = .modifier) →
        (i = 0 → At L'.parts f 0) ∧ ∀ j g, i = j + 1 → fns'[j]? = some g → ∃ a, At L'.parts g a ∧ At L'.parts f (a + 1)) ∧
      checkCtx { ctx with hir := hir', src := L'.text, pt := u } = .ok [] ∧ checkCtx { ctx with src := L'.text, pt := u } = .ok [] := by
  rw [translate_single h, hh] at ht
  rw [translate_single h', hh'] at ht'
  simp only [Res.ok.injEq, HRoot.mk.injEq, List.cons.injEq, HContract.mk.injEq, and_true] at ht ht'
  obtain ⟨rfl, rfl⟩ := ht
  obtain ⟨hn, rfl⟩ := ht'
  exact fix_more hG hP hc hh hh' hd (within_map (fun _ _ r => r.name) (expected_richer he)) hf hL hsrc hpt hb hnew hm

end
end Bulloak
