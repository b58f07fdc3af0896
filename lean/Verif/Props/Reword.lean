import Verif.Spec.Reword
import Verif.Props.Edit4
import Verif.Props.LayoutCheck
import Verif.Props.SolFile
/-!
# Rewording actions: C113
-/

namespace Bulloak
open Spec
set_option linter.unusedSectionVars false

section
variable [U : Ucd]

/-! ## The functions -/

theorem body_code (skip : Bool) (l : List Str) : (bodyOf skip l).filter (fun b => commentText b = none) = if skip then [.vmSkip] else [] := by
  unfold bodyOf
  rw [List.filter_append]
  have h1 : (l.map BodyItem.comment).filter (fun b => commentText b = none) = [] := by
    rw [List.filter_eq_nil_iff]
    intro b hb
    obtain ⟨t, _, rfl⟩ := List.mem_map.1 hb
    simp [commentText]
  rw [h1]
  cases skip <;> rfl

theorem leads_none {l : List Ast} : leadsWith l = none ↔ l.filter Ast.isAction = [] := by
  simp [leadsWith]

theorem leads_reverts {s s' : Span} {t t' : Str} {ks ks' : List Ast} (h : leadsWith ks = leadsWith ks') :
    reverts (.condition s' t' ks') = reverts (.condition s t ks) := by
  unfold reverts actionsOf
  simp only [kids]
  unfold leadsWith at h
  cases h1 : ks'.filter Ast.isAction <;> cases h2 : ks.filter Ast.isAction <;> simp_all

theorem reworded_any {l l' : List Ast} (h : Reworded l l') : l'.any Ast.isCondition = l.any Ast.isCondition := by
  induction h with
  | done => rfl
  | left h _ ih => rw [List.any_cons, h, Bool.false_or, ih]
  | right h _ ih => rw [List.any_cons, h, Bool.false_or, ih]
  | condition => simp [Ast.isCondition]

theorem condFns_reworded {skip : Bool} {encl encl' : List Ast} (he : encl'.map modName = encl.map modName) {s s' : Span} {t : Str}
    {ks ks' : List Ast} (hf : leadsWith ks = leadsWith ks') (h : Reworded ks ks') :
    Each BodyCommentsOnly (condFns skip (encl, .condition s t ks)) (condFns skip (encl', .condition s' t ks')) := by
  unfold condFns
  have hn : hasNested (Ast.condition s' t ks') = hasNested (Ast.condition s t ks) := reworded_any h
  apply each_append
  · simp only [hn]
    split
    · exact .cons ⟨rfl, rfl, rfl⟩ .nil
    · exact .nil
  · by_cases ha : actionsOf (Ast.condition s t ks) = []
    · have ha' : actionsOf (Ast.condition s' t ks') = [] := leads_none.1 (hf.symm.trans (leads_none.2 ha))
      rw [if_pos ha, if_pos ha']
      exact .nil
    · have ha' : actionsOf (Ast.condition s' t ks') ≠ [] := fun h => ha (leads_none.1 (hf.trans (leads_none.2 h)))
      rw [if_neg ha, if_neg ha']
      refine .cons ⟨?_, ?_, ?_⟩ .nil
      · simp only [nameOf, condFn, testName, titleOf, leads_reverts (s := s) (s' := s') (t := t) (t' := t) hf]
      · simp only [condFn, guards, List.map_append, he, hn]
        split <;> rfl
      · simp only [condFn, Option.getD_some, body_code]

theorem inScopeAll_reworded {skip : Bool} {l l' : List Ast} (h : Reworded l l') : ∀ {encl encl' : List Ast}, encl'.map modName = encl.map modName →
    Each BodyCommentsOnly ((inScopeAll encl l).flatMap (condFns skip)) ((inScopeAll encl' l').flatMap (condFns skip)) := by
  have skipped : ∀ {a : Ast} {encl l}, a.isCondition = false → inScopeAll encl (a :: l) = inScopeAll encl l := by
    intro a encl l ha
    rw [inScopeAll.eq_2]
    cases a <;> first | rfl | cases ha
  induction h with
  | done => intro _ _ _; exact .nil
  | left ha _ ih => intro encl encl' he; rw [skipped ha]; exact ih he
  | right ha _ ih => intro encl encl' he; rw [skipped ha]; exact ih he
  | condition hf hk _ ihk ihl =>
    intro encl encl' he
    rw [inScopeAll.eq_2, inScopeAll.eq_2]
    simp only [inScope, List.cons_append, List.flatMap_cons, List.flatMap_append]
    refine each_append (condFns_reworded he hf hk) (each_append (ihk ?_) (ihl he))
    simp [he, modName, titleOf]

theorem expected_reworded {skip : Bool} {l l' : List Ast} (h : RewordedTop l l') : Each BodyCommentsOnly (expected skip l) (expected skip l') := by
  induction h with
  | done => exact .nil
  | action hd _ ih =>
    unfold expected at ih ⊢
    rw [List.flatMap_cons, List.flatMap_cons]
    refine each_append ?_ ih
    simp only [Ast.isAction, if_true]
    refine .cons ⟨?_, rfl, ?_⟩ .nil
    · simp only [nameOf, actFn, titleOf]
      unfold topName at hd
      rw [hd]
    · simp only [actFn, Option.getD_some, body_code]
  | condition hf hk _ ih =>
    unfold expected at ih ⊢
    rw [List.flatMap_cons, List.flatMap_cons]
    refine each_append ?_ ih
    simp only [Ast.isAction, Bool.false_eq_true, if_false, inScope, List.flatMap_cons]
    exact each_append (condFns_reworded rfl hf hk) (inScopeAll_reworded hk (by simp [modName, titleOf]))

theorem each_map {α β : Type} {R : α → α → Prop} {S : β → β → Prop} {f : α → β} (hf : ∀ a b, R a b → S (f a) (f b)) {l l' : List α} (h : Each R l l') :
    Each S (l.map f) (l'.map f) := by
  induction h with
  | nil => exact .nil
  | cons r _ ih => exact .cons (hf _ _ r) ih

theorem prefix_reworded (part : Str) {f f' : HFn} (h : BodyCommentsOnly f f') : BodyCommentsOnly (prefixFn part f) (prefixFn part f') := by
  refine ⟨prefix_name h.name, ?_, ?_⟩
  · have := h.modifiers; unfold prefixFn; split <;> split <;> exact this
  · have := h.code; unfold prefixFn; split <;> split <;> exact this

theorem each_imp {α β : Type} {R S : α → β → Prop} (hi : ∀ a b, R a b → S a b) {l : List α} {m : List β} (h : Each R l m) : Each S l m := by
  induction h with
  | nil => exact .nil
  | cons r _ ih => exact .cons (hi _ _ r) ih

/-- Trees with the same title whose functions differ only in comments. -/
def SameFunctions (a a' : Ast) : Prop := titleOf a = titleOf a' ∧ ∀ skip, Each BodyCommentsOnly (expected skip (kids a)) (expected skip (kids a'))

theorem reworded_functions {a a' : Ast} (h : titleOf a = titleOf a' ∧ RewordedTop (kids a) (kids a')) : SameFunctions a a' :=
  ⟨h.1, fun _ => expected_reworded h.2⟩

theorem prefixed_reworded {skip : Bool} {asts asts' : List Ast} (h : Each SameFunctions asts asts')
    (fs : List Str) : Each BodyCommentsOnly (prefixedFns skip (asts.zip fs)) (prefixedFns skip (asts'.zip fs)) := by
  unfold prefixedFns
  induction h generalizing fs with
  | nil => exact .nil
  | cons r _ ih =>
    cases fs with
    | nil => exact .nil
    | cons p fs =>
      simp only [List.zip_cons_cons, List.flatMap_cons]
      exact each_append (each_map (f := prefixFn p) (fun _ _ => prefix_reworded p) (r.2 skip)) (ih fs)

theorem firstOnly_reworded {l l' : List HFn} (h : Each BodyCommentsOnly l l') : Each BodyCommentsOnly (firstOnly l) (firstOnly l') := by
  have key : ∀ {n : Str} {l l' : List HFn}, Each BodyCommentsOnly l l' →
      Each BodyCommentsOnly (l.filter (fun g => g.identifier ≠ n)) (l'.filter (fun g => g.identifier ≠ n)) := by
    intro n l l' h
    induction h with
    | nil => exact .nil
    | @cons a b _ _ r _ ih =>
      have e : b.identifier = a.identifier := congrArg Prod.snd r.name
      rw [List.filter_cons, List.filter_cons, e]
      by_cases hn : a.identifier = n
      · rw [if_neg (by simp [hn]), if_neg (by simp [hn])]; exact ih
      · rw [if_pos (by simp [hn]), if_pos (by simp [hn])]; exact .cons r ih
  induction h with
  | nil => exact .nil
  | @cons a b _ _ r _ ih =>
    have e : b.identifier = a.identifier := congrArg Prod.snd r.name
    rw [firstOnly, firstOnly, e]
    exact .cons r (key ih)

theorem reworded_symm {l l' : List Ast} (h : Reworded l l') : Reworded l' l := by
  induction h with
  | done => exact .done
  | left h _ ih => exact .right h ih
  | right h _ ih => exact .left h ih
  | condition hf _ _ ih1 ih2 => exact .condition hf.symm ih1 ih2

theorem rewordedTop_symm {l l' : List Ast} (h : RewordedTop l l') : RewordedTop l' l := by
  induction h with
  | done => exact .done
  | action h _ ih => exact .action h.symm ih
  | condition hf hk _ ih => exact .condition hf.symm (reworded_symm hk) ih

theorem rewordedText_symm {order : HashOrder} {text text' : Str} (h : RewordedText order text text') : RewordedText order text' text := by
  obtain ⟨a, a', h1, h2, h3⟩ := h
  exact ⟨a', a, h2, h1, each_symm (R := fun a a' => titleOf a = titleOf a' ∧ RewordedTop (kids a) (kids a')) (fun _ _ r => ⟨r.1.symm, rewordedTop_symm r.2⟩) h3⟩

theorem each_splits_of {n : Str} {asts asts' : List Ast} {fs : List Str} (h : Each SameFunctions asts asts')
    (hs : Each (fun a f => Splits (titleOf a) n f) asts fs) : Each (fun a f => Splits (titleOf a) n f) asts' fs := by
  induction h generalizing fs with
  | nil => cases hs; exact .nil
  | cons r _ ih =>
    cases hs with
    | cons h1 h2 => exact .cons (r.1 ▸ h1) (ih h2)

/-- Texts with contracts that are the same up to comments, or both rejected. -/
def SameContract (order : HashOrder) (text text' : Str) : Prop := ∀ cfg,
  (∃ n fns fns', translate order cfg text = .ok ⟨[⟨n, fns⟩]⟩ ∧ translate order cfg text' = .ok ⟨[⟨n, fns'⟩]⟩ ∧ Each BodyCommentsOnly fns fns') ∨
  ∃ e e', translate order cfg text = .err e ∧ translate order cfg text' = .err e'

theorem sameContract_symm {order : HashOrder} {text text' : Str} (h : SameContract order text text') : SameContract order text' text := by
  intro cfg
  rcases h cfg with ⟨n, fns, fns', h1, h2, h3⟩ | ⟨e, e', h1, h2⟩
  · exact .inl ⟨n, fns', fns, h2, h1, each_symm (fun _ _ r => ⟨r.name.symm, r.modifiers.symm, r.code.symm⟩) h3⟩
  · exact .inr ⟨e', e, h2, h1⟩

/-- Texts whose trees have the same functions up to comments have contracts that are the same up to comments, or are both rejected. -/
theorem functions_same [LawfulUcd] {order : HashOrder} {text text' : Str} {asts asts' : List Ast} (h1 : parse order text = .ok asts) (h2 : parse order text' = .ok asts')
    (h3 : Each SameFunctions asts asts') (cfg : Config) :
    (∃ n fns fns', translate order cfg text = .ok ⟨[⟨n, fns⟩]⟩ ∧ translate order cfg text' = .ok ⟨[⟨n, fns'⟩]⟩ ∧ Each BodyCommentsOnly fns fns') ∨
    ∃ e e', translate order cfg text = .err e ∧ translate order cfg text' = .err e' := by
  have hlen : asts.length = asts'.length := each_len h3
  rcases translate_cases h1 cfg with ⟨ast, rfl, ht⟩ | ⟨rfl, ht⟩ | ⟨hl, n, fs, hn, hs, ht⟩ | ⟨hl, n, A, a, B, e, _, _, _, ht⟩
  · cases h3 with
    | cons r h3 =>
      cases h3
      exact .inl ⟨_, _, _, ht, r.1 ▸ translate_single h2 cfg, r.2 _⟩
  · cases h3
    rcases translate_cases h2 cfg with ⟨ast, e, _⟩ | ⟨_, ht'⟩ | ⟨hl, _⟩ | ⟨hl, _⟩
    · cases e
    · exact .inl ⟨_, _, _, ht, ht', .nil⟩
    · simp at hl
    · simp at hl
  · obtain ⟨r', hr'⟩ := (C28_accepted_iff h2 cfg).2 (.inr ⟨n, fun a ha => ⟨hn, by
      obtain ⟨f, _, hf⟩ := each_mem (each_splits_of h3 hs) ha
      exact ⟨f, hf⟩⟩⟩)
    obtain ⟨n', fs', hs', rfl⟩ := C29_combined h2 (by omega) cfg hr'
    have hs1 := each_splits_of h3 hs
    have : n = n' ∧ fs = fs' := by
      have hl' : 2 ≤ asts'.length := by omega
      clear hr' h1 h2 h3 ht hl hlen hs
      have hfs : ∀ {asts : List Ast} {fs fs' : List Str}, Each (fun a f => Splits (titleOf a) n f) asts fs → Each (fun a f => Splits (titleOf a) n' f) asts fs' → fs = fs' := by
        intro asts fs fs' h h'
        induction h generalizing fs' with
        | nil => cases h'; rfl
        | cons r _ ih =>
          cases h' with
          | cons r' h' => rw [ih h', (splits_unique r r').2]
      refine ⟨?_, hfs hs1 hs'⟩
      cases hs1 with
      | nil => simp at hl'
      | cons r _ => cases hs' with | cons r' _ => exact (splits_unique r r').1
    obtain ⟨rfl, rfl⟩ := this
    exact .inl ⟨_, _, _, ht, hr', firstOnly_reworded (prefixed_reworded h3 fs)⟩
  · refine .inr ⟨.combiner text e, ?_⟩
    cases ht' : translate order cfg text' with
    | err e' => exact ⟨e', ht, rfl⟩
    | panic =>
      rcases translate_cases h2 cfg with ⟨ast, _, h⟩ | ⟨_, h⟩ | ⟨_, _, _, _, _, h⟩ | ⟨_, _, _, _, _, _, _, _, _, h⟩ <;> rw [ht'] at h <;> cases h
    | ok r =>
      exfalso
      rcases (C28_accepted_iff h2 cfg).1 ⟨r, ht'⟩ with hk | ⟨m, hk⟩
      · omega
      · obtain ⟨r, hr⟩ := (C28_accepted_iff h1 cfg).2 (.inr ⟨m, fun a ha => by
          obtain ⟨b, hb, e, _⟩ := each_mem h3 ha
          rw [e]; exact hk b hb⟩)
        rw [ht] at hr
        cases hr

/-- **C113.** Rewording, adding, removing and moving actions below conditions, and rewording actions below the root without renaming their tests, changes nothing but comments:
the contract keeps its name and has the same functions in the same order with the same modifiers.  This holds for files with any number of trees. -/
theorem C113_functions [LawfulUcd] {order : HashOrder} {text text' : Str} (h : RewordedText order text text') (cfg : Config) :
    (∃ n fns fns', translate order cfg text = .ok ⟨[⟨n, fns⟩]⟩ ∧ translate order cfg text' = .ok ⟨[⟨n, fns'⟩]⟩ ∧ Each BodyCommentsOnly fns fns') ∨
    ∃ e e', translate order cfg text = .err e ∧ translate order cfg text' = .err e' := by
  obtain ⟨asts, asts', h1, h2, h3⟩ := h
  exact functions_same h1 h2 (each_imp (fun _ _ => reworded_functions) h3) cfg

/-! ## The reports -/

theorem findMatching_name {f f' : HFn} (h : nameOf f' = nameOf f) (s : SolContract) : findMatchingFn s f' = findMatchingFn s f := by
  unfold findMatchingFn
  have key : ∀ (ps : List SolPart) (k : Nat), findMatchingFnFrom f' k ps = findMatchingFnFrom f k ps := by
    intro ps
    induction ps with
    | nil => intro k; rfl
    | cons p ps ih =>
      intro k
      simp only [nameOf, Prod.mk.injEq] at h
      cases p with
      | fn g =>
        have e : fnsMatch f' g = fnsMatch f g := by unfold fnsMatch; rw [h.1, h.2]
        simp only [findMatchingFnFrom, e, ih]
      | other => simp only [findMatchingFnFrom, ih]
  exact key _ _

theorem present_names {ctx : Context} {hir' : HRoot} {s : SolContract} {fns fns' : List HFn} (h : Each (fun f f' => nameOf f' = nameOf f) fns fns') : ∀ k,
    (presentAndMissing { ctx with hir := hir' } s k fns').1 = (presentAndMissing ctx s k fns).1 ∧
    Each Echo (presentAndMissing ctx s k fns).2 (presentAndMissing { ctx with hir := hir' } s k fns').2 := by
  induction h with
  | nil => intro k; exact ⟨rfl, .nil⟩
  | @cons f f' _ _ r _ ih =>
    intro k
    obtain ⟨i1, i2⟩ := ih (k + 1)
    have hm : f'.isModifier = f.isModifier := by
      simp only [nameOf, Prod.mk.injEq] at r
      simp only [HFn.isModifier, r.1]
    simp only [presentAndMissing, findMatching_name r, hm]
    cases findMatchingFn s f with
    | some p => exact ⟨by simp only [i1], i2⟩
    | none =>
      simp only
      split
      · exact ⟨i1, i2⟩
      · exact ⟨i1, .cons (.missing r) i2⟩

theorem order_names {ctx : Context} {hir' : HRoot} {s : SolContract} {n n' : Str} {fns fns' : List HFn} (h : fns.length = fns'.length) (l : List (Nat × Nat)) :
    orderViolations { ctx with hir := hir' } ⟨n', fns'⟩ s l = orderViolations ctx ⟨n, fns⟩ s l := by
  induction l with
  | nil => rfl
  | cons p l ih =>
    obtain ⟨i, a⟩ := p
    simp only [orderViolations, ih]
    by_cases hi : i < fns.length
    · have h1 : fns[i]? = some fns[i] := List.getElem?_eq_getElem hi
      have h2 : fns'[i]? = some (fns'[i]'(h ▸ hi)) := List.getElem?_eq_getElem (h ▸ hi)
      rw [h1, h2]
      cases s.parts[a]? with
      | none => rfl
      | some q => cases q <;> rfl
    · have h1 : fns[i]? = none := List.getElem?_eq_none (by omega)
      have h2 : fns'[i]? = none := List.getElem?_eq_none (by omega)
      rw [h1, h2]

theorem each_echo_refl (vs : List Violation) : Each Echo vs vs := by
  induction vs with
  | nil => exact .nil
  | cons v vs ih => exact .cons .same ih

/-- **C113**, names only: what `check` reports depends, of the functions of the tree, only on their kinds and names. -/
theorem C113_names_only {ctx : Context} {n : Str} {fns fns' : List HFn} (hh : ctx.hir = ⟨[⟨n, fns⟩]⟩) (h : fns'.map nameOf = fns.map nameOf) :
    EchoReport (checkCtx ctx) (checkCtx { ctx with hir := ⟨[⟨n, fns'⟩]⟩ }) := by
  have he : Each (fun f f' => nameOf f' = nameOf f) fns fns' := by
    induction fns generalizing fns' ctx with
    | nil => rw [List.map_nil, List.map_eq_nil_iff] at h; subst h; exact .nil
    | cons f fns ih =>
      cases fns' with
      | nil => cases h
      | cons f' fns' =>
        rw [List.map_cons, List.map_cons, List.cons.injEq] at h
        exact .cons h.1 (ih (ctx := { ctx with hir := ⟨[⟨n, fns⟩]⟩ }) rfl h.2)
  unfold checkCtx
  rw [hh]
  simp only [HRoot.findContract, List.head?_cons]
  cases findContract ctx.pt with
  | none => exact .ok (each_echo_refl _)
  | some s =>
    simp only
    have e1 : checkContractNames { ctx with hir := ⟨[⟨n, fns'⟩]⟩ } ⟨n, fns'⟩ s = checkContractNames ctx ⟨n, fns⟩ s := rfl
    rw [e1]
    cases checkContractNames ctx ⟨n, fns⟩ s with
    | err e => exact e.elim
    | panic => exact .panic
    | ok v1 =>
      simp only [Res.bind_ok]
      obtain ⟨i1, i2⟩ := present_names (ctx := ctx) (hir' := ⟨[⟨n, fns'⟩]⟩) (s := s) he 0
      unfold checkFnsStructure
      simp only [i1]
      split
      · simp only [Res.bind_ok]
        exact .ok (each_append (each_echo_refl _) i2)
      · rw [order_names (n := n) (fns := fns) (each_len he)]
        cases orderViolations ctx ⟨n, fns⟩ s (unsortedPairs (presentAndMissing ctx s 0 fns).1) with
        | err e => exact e.elim
        | panic => exact .panic
        | ok v3 =>
          simp only [Res.bind_ok]
          exact .ok (each_append (each_echo_refl _) (each_append i2 (each_echo_refl _)))

theorem onlyComments_names {fns fns' : List HFn} (h : Each BodyCommentsOnly fns fns') : fns'.map nameOf = fns.map nameOf := by
  induction h with
  | nil => rfl
  | cons r _ ih => rw [List.map_cons, List.map_cons, r.name, ih]

theorem check_same {order : HashOrder} {text text' : Str} {cfg : Config} (h : SameContract order text text') {ctx : Context} {hir' : HRoot}
    (ht : translate order cfg text = .ok ctx.hir) (ht' : translate order cfg text' = .ok hir') :
    EchoReport (checkCtx ctx) (checkCtx { ctx with hir := hir' }) := by
  rcases h cfg with ⟨n, fns, fns', h1, h2, h3⟩ | ⟨_, _, h1, _⟩
  · rw [ht] at h1
    rw [ht'] at h2
    cases h2
    exact C113_names_only (Res.ok.inj h1) (onlyComments_names h3)
  · rw [ht] at h1; cases h1

/-- **C113**, reports: for every Solidity file, conforming or not, `check` reports the same for a tree and for the tree with its actions reworded; only the line in the tree and
the new text of a missing test differ.  In particular it does not notice that comments are out of date. -/
theorem C113_check [LawfulUcd] {order : HashOrder} {text text' : Str} (h : RewordedText order text text') {cfg : Config} {ctx : Context} {hir' : HRoot}
    (ht : translate order cfg text = .ok ctx.hir) (ht' : translate order cfg text' = .ok hir') :
    EchoReport (checkCtx ctx) (checkCtx { ctx with hir := hir' }) := check_same (C113_functions h) ht ht'

theorem echoReport_silent {r r' : Res Empty (List Violation)} (h : EchoReport r r') : (r = .ok [] ↔ r' = .ok []) ∧ (r = .panic ↔ r' = .panic) := by
  cases h with
  | panic => simp
  | ok h =>
    constructor
    · cases h <;> simp
    · simp

theorem exit_same [LawfulUcd] {env : Env} {a : CheckArgs} {fs fs' : Fs} (hf : a.fix = false)
    (hs : ∀ t ∈ a.files, ∀ p, SolOf t p → fs'.state p = fs.state p)
    (ht : ∀ t ∈ a.files, fs'.state t = fs.state t ∨ ∃ text text', fs.state t = .text text ∧ fs'.state t = .text text' ∧ SameContract env.order text text') :
    (checkRun env a fs').exit = (checkRun env a fs).exit := by
  have key : ∀ {fs fs' : Fs}, (∀ t ∈ a.files, ∀ p, SolOf t p → fs'.state p = fs.state p) →
      (∀ t ∈ a.files, fs'.state t = fs.state t ∨ ∃ text text', fs.state t = .text text ∧ fs'.state t = .text text' ∧ SameContract env.order text text') →
      ∀ t ∈ a.files, ∀ ctx, Opens env a.skipModifiers fs t ctx → ∃ ctx', Opens env a.skipModifiers fs' t ctx' ∧ EchoReport (checkCtx ctx) (checkCtx ctx') := by
    intro fs fs' hs ht t hta ctx ho
    obtain ⟨text, hir, p, src, u, h1, h2, h3, h4, h5, rfl⟩ := ho
    have h4' := (hs t hta p h3).trans h4
    rcases ht t hta with e | ⟨x, x', e1, e2, hr⟩
    · refine ⟨_, ⟨text, hir, p, src, u, e.trans h1, h2, h3, h4', h5, rfl⟩, ?_⟩
      cases hc : checkCtx ⟨t.str, hir, p.str, src, u, a.skipModifiers⟩ with
      | ok vs => exact .ok (each_echo_refl vs)
      | err e => exact e.elim
      | panic => exact .panic
    · rw [h1] at e1
      cases e1
      rcases hr .default with ⟨n, fns, fns', k1, k2, k3⟩ | ⟨_, _, k1, _⟩
      · exact ⟨_, ⟨x', _, p, src, u, e2, k2, h3, h4', h5, rfl⟩, check_same hr (ctx := ⟨t.str, hir, p.str, src, u, a.skipModifiers⟩) h2 k2⟩
      · rw [h2] at k1; cases k1
  have k1 := key hs ht
  have k2 := key (fs := fs') (fs' := fs) (fun t h p h' => (hs t h p h').symm) (fun t h => by
    rcases ht t h with e | ⟨x, x', e1, e2, hr⟩
    · exact .inl e.symm
    · exact .inr ⟨x', x, e2, e1, sameContract_symm hr⟩)
  rcases C51_exit (env := env) (fs := fs) hf with ⟨e1, c1⟩ | ⟨e1, c1, t, ht, c2⟩ | ⟨e1, t, ht, ctx, c1, c2⟩ <;>
    rcases C51_exit (env := env) (fs := fs') hf with ⟨e2, d1⟩ | ⟨e2, d1, t', ht', d2⟩ | ⟨e2, t', ht', ctx', d1, d2⟩ <;> rw [e1, e2]
  · obtain ⟨ctx, o, c⟩ := c1 t' ht'
    obtain ⟨ctx', o', r⟩ := k1 t' ht' ctx o
    exact absurd ((echoReport_silent r).1.1 c) (d2 ctx' o')
  · obtain ⟨ctx, o, c⟩ := c1 t' ht'
    obtain ⟨ctx'', o'', r⟩ := k2 t' ht' ctx' d1
    have : ctx'' = ctx := opens_unique o'' o
    subst this
    rw [(echoReport_silent r).2.1 d2] at c
    cases c
  · obtain ⟨ctx, o, c⟩ := d1 t ht
    obtain ⟨ctx', o', r⟩ := k2 t ht ctx o
    exact absurd ((echoReport_silent r).1.1 c) (c2 ctx' o')
  · obtain ⟨ctx, o, r⟩ := k2 t' ht' ctx' d1
    exact absurd ((echoReport_silent r).2.1 d2) (c1 t' ht' ctx o)
  · obtain ⟨ctx'', o, c⟩ := d1 t ht
    obtain ⟨ctx', o', r⟩ := k1 t ht ctx c1
    have : ctx' = ctx'' := opens_unique o' o
    subst this
    rw [(echoReport_silent r).2.1 c2] at c
    cases c
  · obtain ⟨ctx', o', r⟩ := k1 t ht ctx c1
    exact absurd ((echoReport_silent r).2.1 c2) (d1 t ht ctx' o')

/-- **C113**, commands: `check` without `--fix` has the same exit code, if actions in any of the trees are reworded and the Solidity files are left alone. -/
theorem C113_exit [LawfulUcd] {env : Env} {a : CheckArgs} {fs fs' : Fs} (hf : a.fix = false)
    (hs : ∀ t ∈ a.files, ∀ p, SolOf t p → fs'.state p = fs.state p)
    (ht : ∀ t ∈ a.files, fs'.state t = fs.state t ∨ ∃ text text', fs.state t = .text text ∧ fs'.state t = .text text' ∧ RewordedText env.order text text') :
    (checkRun env a fs').exit = (checkRun env a fs).exit :=
  exit_same hf hs (fun t h => (ht t h).imp_right (fun ⟨x, x', h1, h2, h3⟩ => ⟨x, x', h1, h2, C113_functions h3⟩))

/-! ## Telling trees apart -/

theorem sublist_of_indices {α : Type} {l : List α} {xs : List α} {is : List Nat} (h : Each (fun x i => l[i]? = some x) xs is) (hp : is.Pairwise (· < ·)) :
    ∀ k, (∀ i ∈ is, k ≤ i) → xs.Sublist (l.drop k) := by
  induction h with
  | nil => intro k _; exact List.nil_sublist _
  | @cons x i xs is hx _ ih =>
    intro k hk
    rw [List.pairwise_cons] at hp
    have h1 := ih hp.2 (i + 1) (fun j hj => hp.1 j hj)
    obtain ⟨hi, hx⟩ := List.getElem?_eq_some_iff.1 hx
    have h2 : l.drop i = x :: l.drop (i + 1) := by rw [List.drop_eq_getElem_cons hi, hx]
    have h3 : (l.drop i).Sublist (l.drop k) := by
      have := List.drop_sublist (i - k) (l.drop k)
      rwa [List.drop_drop, show k + (i - k) = i by have := hk i (List.mem_cons_self ..); omega] at this
    exact (h2 ▸ h1.cons_cons x).trans h3

theorem written_name {fs : List HFn} {ps : List SolPart} (h : Written fs ps) : ∀ {i : Nat} {p : SolPart} {g : HFn}, ps[i]? = some p → Matches g p → (fs.map nameOf)[i]? = some (nameOf g) := by
  induction h with
  | nil => intro i p g hp; simp at hp
  | @cons f q fs ps hn ht _ ih =>
    intro i p g hp hm
    cases i with
    | zero =>
      simp only [List.getElem?_cons_zero, Option.some.injEq] at hp
      subst hp
      obtain ⟨m1, m2⟩ := hm
      rw [hn, Option.some.injEq] at m1
      rw [ht, Option.some.injEq] at m2
      simp [nameOf, m1, m2]
    | succ i =>
      simp only [List.map_cons, List.getElem?_cons_succ] at hp ⊢
      exact ih hp hm

theorem written_sublist {fs fs' : List HFn} {ps : List SolPart} (h : Written fs ps) (hd : Distinct fs') (hp : ∀ f ∈ fs', Present ps f) (ho : InOrder fs' ps) :
    (fs'.map nameOf).Sublist (fs.map nameOf) := by
  obtain ⟨is, his⟩ := each_exists (R := fun f i => At ps f i) (fun f hf => present_at (hp f hf))
  have key : ∀ {fs' : List HFn} {is : List Nat}, Each (fun f i => At ps f i) fs' is → Distinct fs' → InOrder fs' ps →
      Each (fun x i => (fs.map nameOf)[i]? = some x) (fs'.map nameOf) is ∧ is.Pairwise (· < ·) := by
    intro fs' is he hd ho
    induction he with
    | nil => exact ⟨.nil, .nil⟩
    | @cons f i l js ha he ih =>
      unfold Distinct at hd
      unfold InOrder at ho
      rw [List.pairwise_cons] at hd ho
      obtain ⟨i1, i2⟩ := ih hd.2 ho.2
      have name : ∀ {f : HFn} {i}, At ps f i → (fs.map nameOf)[i]? = some (nameOf f) := by
        rintro f i ⟨⟨p, h1, h2⟩, _⟩
        exact written_name h h1 h2
      refine ⟨.cons (name ha) i1, List.pairwise_cons.2 ⟨fun j hj => ?_, i2⟩⟩
      obtain ⟨g, hg, hgj⟩ := each_mem_right he hj
      have hle := ho.1 g hg i j ha hgj
      rcases Nat.lt_or_ge i j with h' | h'
      · exact h'
      · exfalso
        obtain rfl : i = j := Nat.le_antisymm hle h'
        have := (name ha).symm.trans (name hgj)
        simp only [Option.some.injEq, nameOf, Prod.mk.injEq] at this
        exact hd.1 g hg ⟨this.2, this.1⟩
  obtain ⟨k1, k2⟩ := key his hd ho
  simpa using sublist_of_indices k1 k2 0 (fun _ _ => Nat.zero_le _)

/-- **C113**, telling trees apart: if the Solidity file written for each of two trees passes the check against the other tree, the trees have contracts of the same
name and functions of the same kinds and names in the same order.  With `C113_names_only`, `check` tells two trees apart exactly if these differ. -/
theorem C113_told_apart [LawfulUcd] {env : Env} {G : SolGrammar} (hG : G.HasGenerated) (hP : Reader env.solParse G) (hF : KeepsFiles env.forgeFmt G)
    {cfg : Config} (hm : cfg.skipModifiers = false) (hv : UsualVersion cfg.solidityVersion) (hb : G.before (headTokens cfg.solidityVersion cfg.emitVmSkip))
    {text text' out out' : Str} (hl : Legible env.order cfg text) (hl' : Legible env.order cfg text') (hy : Yields env cfg text out) (hy' : Yields env cfg text' out')
    {n n' : Str} {fns fns' : List HFn} (ht : translate env.order cfg text = .ok ⟨[⟨n, fns⟩]⟩) (ht' : translate env.order cfg text' = .ok ⟨[⟨n', fns'⟩]⟩)
    (hd : Distinct fns) (hd' : Distinct fns') {ctx ctx' : Context} (hs : ctx.skipModifiers = false) (hs' : ctx'.skipModifiers = false)
    (hh : ctx.hir = ⟨[⟨n', fns'⟩]⟩) (hh' : ctx'.hir = ⟨[⟨n, fns⟩]⟩) (hp : env.solParse out = some ctx.pt) (hp' : env.solParse out' = some ctx'.pt)
    (hc : checkCtx ctx = .ok []) (hc' : checkCtx ctx' = .ok []) :
    sanitize n = sanitize n' ∧ fns.map nameOf = fns'.map nameOf := by
  have one : ∀ {text out : Str} {n n' : Str} {fns fns' : List HFn} {ctx : Context}, Legible env.order cfg text → Yields env cfg text out →
      translate env.order cfg text = .ok ⟨[⟨n, fns⟩]⟩ → Distinct fns' → ctx.skipModifiers = false → ctx.hir = ⟨[⟨n', fns'⟩]⟩ →
      env.solParse out = some ctx.pt → checkCtx ctx = .ok [] → sanitize n = sanitize n' ∧ (fns'.map nameOf).Sublist (fns.map nameOf) := by
    intro text out n n' fns fns' ctx hl hy ht hd hs hh hp hc
    obtain ⟨L, rfl, _, ⟨u, hu, hfu⟩, h3, h4⟩ := C90_reads_back hG hP hF hv hb hl hy ht
    rw [hu] at hp
    cases hp
    obtain ⟨s, k1, k2, k3, k4⟩ := (C37_silent_iff hh).1 hc
    obtain rfl : L.contract = s := Option.some.inj (((findContract_iff _ _).2 hfu).symm.trans ((findContract_iff _ _).2 k1))
    refine ⟨k2 _ h3, ?_⟩
    unfold written at h4
    rw [if_neg (by simp [hm])] at h4
    exact written_sublist h4 hd (fun f hf => (k3 f hf).resolve_right (by simp [hs])) k4
  obtain ⟨e1, s1⟩ := one hl hy ht hd' hs hh hp hc
  obtain ⟨_, s2⟩ := one hl' hy' ht' hd hs' hh' hp' hc'
  exact ⟨e1, s2.eq_of_length_le s1.length_le⟩

end
end Bulloak
