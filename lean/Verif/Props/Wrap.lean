import Verif.Spec.Wrap
import Verif.Props.Edit3
import Verif.Props.EditRuns2
import Verif.Props.Session
/-! # Putting branches below a new condition (C133) -/

namespace Bulloak
open Spec
set_option linter.unusedSectionVars false

section
variable [U : Ucd]

private theorem reguarded_same {f f' : HFn} (h : Reguarded [] [] f f') : SameCode f f' := by
  have hn := h.name
  simp only [nameOf, Prod.mk.injEq] at hn
  have hm : f'.modifiers.getD [] = f.modifiers.getD [] := by
    cases ht : f.ty with
    | modifier => rw [h.modifier ht]
    | function =>
      obtain ⟨x, e1, e2⟩ := h.test ht
      rw [e1, e2]
  simp only [SameCode, codeOf, hn.1, hn.2, hm, h.body]

private theorem reguarded_less {E E' e : List Str} {f f' : HFn} (h : Reguarded (E ++ e) (E' ++ e) f f') : Reguarded E E' f f' := by
  refine ⟨h.name, h.body, h.modifier, fun ht => ?_⟩
  obtain ⟨x, e1, e2⟩ := h.test ht
  exact ⟨e ++ x, by rw [e1, List.append_assoc], by rw [e2, List.append_assoc]⟩

private theorem condFns_reguarded {skip : Bool} {encl encl' : List Ast} {s s' : Span} {u : Str} {k k' : List Ast} (hn : k'.any Ast.isCondition = k.any Ast.isCondition)
    (hf : firstAction k' = firstAction k) (hc : (k'.filter Ast.isAction).flatMap commentLines = (k.filter Ast.isAction).flatMap commentLines) :
    Each (Reguarded (encl.map modName) (encl'.map modName)) (condFns skip (encl, .condition s u k)) (condFns skip (encl', .condition s' u k')) := by
  have hn' : hasNested (.condition s' u k') = hasNested (.condition s u k) := hn
  have ha : actionsOf (.condition s' u k') = [] ↔ actionsOf (.condition s u k) = [] := by
    unfold actionsOf; simp only [kids]; rw [← firstAction_none, ← firstAction_none, hf]
  unfold condFns
  apply each_append'
  · simp only [hn']
    split
    · exact .cons ⟨rfl, rfl, fun _ => rfl, fun h => nomatch h⟩ .nil
    · exact .nil
  · by_cases h : actionsOf (.condition s u k) = []
    · rw [if_pos h, if_pos (ha.2 h)]; exact .nil
    · rw [if_neg h, if_neg (fun h' => h (ha.1 h'))]
      refine .cons ⟨?_, ?_, (fun h => nomatch h), fun _ => ⟨if hasNested (Ast.condition s u k) then [camel u] else [], ?_, ?_⟩⟩ .nil
      · simp only [nameOf, condFn, testName, titleOf, reverts_first (s := s) (s' := s') (t := u) (t' := u) hf]
      · simp only [condFn, bodyOf, commentsOf, actionsOf, kids, hc]
      · simp only [condFn, modList_getD, guards, List.map_append]
        split <;> simp [modName, titleOf]
      · simp only [condFn, modList_getD, guards, List.map_append, hn']
        split <;> simp [modName, titleOf]

private theorem resited_reguarded {skip : Bool} {l l' : List Ast} (h : Resited l l') : ∀ {encl encl' : List Ast},
    Each (Reguarded (encl.map modName) (encl'.map modName)) ((inScopeAll encl l).flatMap (condFns skip)) ((inScopeAll encl' l').flatMap (condFns skip)) := by
  induction h with
  | done => intro _ _; exact .nil
  | action _ _ ih =>
    intro encl encl'
    rw [inScopeAll.eq_2, inScopeAll.eq_2]
    simp only [inScope, List.nil_append]
    exact ih
  | @condition s s' u ks ks' l l' hk _ ihk ihl =>
    intro encl encl'
    rw [inScopeAll.eq_2, inScopeAll.eq_2]
    simp only [inScope, List.cons_append, List.flatMap_cons, List.flatMap_append]
    refine each_append' (condFns_reguarded (resited_nested hk) (resited_first hk) (resited_comments hk)) (each_append' ?_ ihl)
    have h1 := ihk (encl := encl ++ [Ast.condition s u ks]) (encl' := encl' ++ [Ast.condition s' u ks'])
    simp only [List.map_append, List.map_cons, List.map_nil] at h1
    rw [show modName (Ast.condition s' u ks') = modName (Ast.condition s u ks) from rfl] at h1
    exact each_imp (fun _ _ => reguarded_less) h1

private theorem same_empty {E : List Str} {f f' : HFn} (h : Reguarded E E f f') : SameCode f f' :=
  reguarded_same (reguarded_less (E := []) (E' := []) (e := E) h)

private theorem resited_code {skip : Bool} {l l' : List Ast} (h : Resited l l') {encl encl' : List Ast} (he : encl'.map modName = encl.map modName) :
    Each SameCode ((inScopeAll encl l).flatMap (condFns skip)) ((inScopeAll encl' l').flatMap (condFns skip)) := by
  have h1 := resited_reguarded (skip := skip) h (encl := encl) (encl' := encl')
  rw [he] at h1
  exact each_imp (fun _ _ => same_empty) h1

/-- The names below conditions do not depend on what is around. -/
private theorem names_scope (skip : Bool) (B : List Ast) (encl : List Ast) : ((inScopeAll encl B).flatMap (condFns skip)).map nameOf = namesIn B := by
  have hc : ∀ p ∈ inScopeAll encl B, (condFns skip p).map nameOf = ownNames (titleOf p.2) (kids p.2) := by
    have key : (∀ a : Ast, ∀ encl, ∀ p ∈ inScope encl a, ∃ s t k, p.2 = Ast.condition s t k) ∧ True := by
      refine ⟨fun a => ?_, trivial⟩
      refine Ast.rec (motive_1 := fun a => ∀ encl, ∀ p ∈ inScope encl a, ∃ s t k, p.2 = Ast.condition s t k)
        (motive_2 := fun l => ∀ encl, ∀ p ∈ inScopeAll encl l, ∃ s t k, p.2 = Ast.condition s t k) ?_ ?_ ?_ ?_ ?_ ?_ a
      · intro _ _ _ _ _ p hp; cases hp
      · intro s t k ih encl p hp
        rw [inScope] at hp
        rcases List.mem_cons.1 hp with rfl | hp
        · exact ⟨s, t, k, rfl⟩
        · exact ih _ p hp
      · intro _ _ _ _ _ p hp; cases hp
      · intro _ _ _ p hp; cases hp
      · intro _ p hp; cases hp
      · intro a l iha ihl encl p hp
        rw [inScopeAll.eq_2] at hp
        rcases List.mem_append.1 hp with hp | hp
        · exact iha _ p hp
        · exact ihl _ p hp
    intro p hp
    rw [inScopeAll_flatMap] at hp
    obtain ⟨a, _, hp⟩ := List.mem_flatMap.1 hp
    obtain ⟨e, c⟩ := p
    obtain ⟨s, t, k, rfl⟩ := key.1 a encl _ hp
    rw [condFns_names]
    rfl
  have hs : ∀ encl, (inScopeAll encl B).map Prod.snd = (inScopeAll [] B).map Prod.snd := by
    have key : ∀ l : List Ast, ∀ e e', (inScopeAll e l).map Prod.snd = (inScopeAll e' l).map Prod.snd := by
      intro l
      refine Ast.rec_1 (motive_1 := fun a => ∀ e e', (inScope e a).map Prod.snd = (inScope e' a).map Prod.snd)
        (motive_2 := fun l => ∀ e e', (inScopeAll e l).map Prod.snd = (inScopeAll e' l).map Prod.snd) ?_ ?_ ?_ ?_ ?_ ?_ l
      · intros; rfl
      · intro s t k ih e e'
        simp only [inScope, List.map_cons, ih (e ++ [Ast.condition s t k]) (e' ++ [Ast.condition s t k])]
      · intros; rfl
      · intros; rfl
      · intros; rfl
      · intro a l iha ihl e e'
        simp only [inScopeAll.eq_2, List.map_append, iha e e', ihl e e']
    exact fun encl => key B encl []
  have e1 : ((inScopeAll encl B).flatMap (condFns skip)).map nameOf = (inScopeAll encl B).flatMap (fun p => ownNames (titleOf p.2) (kids p.2)) := by
    rw [List.map_flatMap]
    generalize inScopeAll encl B = l at hc
    induction l with
    | nil => rfl
    | cons p l ih => rw [List.flatMap_cons, List.flatMap_cons, hc p (by simp), ih (fun q hq => hc q (by simp [hq]))]
  have e2 : ∀ l : List (List Ast × Ast), l.flatMap (fun p => ownNames (titleOf p.2) (kids p.2)) = (l.map Prod.snd).flatMap (fun c => ownNames (titleOf c) (kids c)) := by
    intro l; rw [List.flatMap_map]
  rw [e1, namesIn, e2, e2, hs]

private theorem wrapped_nested {t : Str} {B l l' : List Ast} {p : List Str} (h : Wrapped t B p l l') : l'.any Ast.isCondition = l.any Ast.isCondition := by
  induction h with
  | @here s B' l l' hne hB _ _ =>
    obtain ⟨b, B, rfl⟩ := List.exists_cons_of_ne_nil hne
    have hb := hB b (by simp)
    simp only [List.cons_append, List.any_cons, hb, Bool.true_or]
    rfl
  | inside => simp [Ast.isCondition]
  | @later a a' _ _ _ ha _ ih => have := resited_nested ha; simp_all

private theorem conds_actions {B : List Ast} (hB : ∀ b ∈ B, b.isCondition = true) : B.filter Ast.isAction = [] := by
  rw [List.filter_eq_nil_iff]
  intro b hb h
  have := hB b hb
  cases b <;> simp_all [Ast.isCondition, Ast.isAction]

private theorem wrapped_first {t : Str} {B l l' : List Ast} {p : List Str} (h : Wrapped t B p l l') : firstAction l' = firstAction l := by
  induction h with
  | here _ hB _ h => simpa [firstAction, List.filter_cons, List.filter_append, Ast.isAction, conds_actions hB] using resited_first h
  | inside _ h => simpa [firstAction, List.filter_cons, Ast.isAction] using resited_first h
  | later ha _ ih =>
    cases ha with
    | action _ _ => simp [firstAction, List.filter_cons, Ast.isAction, titleOf]
    | condition _ _ => simpa [firstAction, List.filter_cons, Ast.isAction] using ih

private theorem wrapped_comments {t : Str} {B l l' : List Ast} {p : List Str} (h : Wrapped t B p l l') :
    (l'.filter Ast.isAction).flatMap commentLines = (l.filter Ast.isAction).flatMap commentLines := by
  induction h with
  | here _ hB _ h => simpa [List.filter_cons, List.filter_append, Ast.isAction, conds_actions hB] using resited_comments h
  | inside _ h => simpa [List.filter_cons, Ast.isAction] using resited_comments h
  | later ha _ ih =>
    cases ha with
    | action hd _ => simp only [List.filter_cons, Ast.isAction, if_true, List.flatMap_cons, commentLines, titleOf, kids, hd, ih]
    | condition _ _ => simpa [List.filter_cons, Ast.isAction] using ih

/-- How two lists of functions differ when conditions with the functions `names` are put below a new condition. -/
private def Differ (old new : List Str) (m : Str) (names : List (FnTy × Str)) (fns fns' : List HFn) : Prop :=
  ∃ X Y Z X' g Y' Z', fns = X ++ Y ++ Z ∧ fns' = X' ++ g :: (Y' ++ Z') ∧ Each SameCode X X' ∧ Each SameCode Z Z' ∧
    Each (Reguarded old new) Y Y' ∧ Y.map nameOf = names ∧ nameOf g = (.modifier, m) ∧ g.children = none

private theorem differ_before {old new : List Str} {m : Str} {names : List (FnTy × Str)} {fns fns' A A' : List HFn} (hA : Each SameCode A A')
    (h : Differ old new m names fns fns') : Differ old new m names (A ++ fns) (A' ++ fns') := by
  obtain ⟨X, Y, Z, X', g, Y', Z', rfl, rfl, h1, h2, h3, h4, h5⟩ := h
  exact ⟨A ++ X, Y, Z, A' ++ X', g, Y', Z', by simp, by simp, each_append' hA h1, h2, h3, h4, h5⟩

private theorem differ_after {old new : List Str} {m : Str} {names : List (FnTy × Str)} {fns fns' A A' : List HFn} (hA : Each SameCode A A')
    (h : Differ old new m names fns fns') : Differ old new m names (fns ++ A) (fns' ++ A') := by
  obtain ⟨X, Y, Z, X', g, Y', Z', rfl, rfl, h1, h2, h3, h4, h5⟩ := h
  exact ⟨X, Y, Z ++ A, X', g, Y', Z' ++ A', by simp, by simp, h1, each_append' h2 hA, h3, h4, h5⟩

private theorem wrapped_fns {skip : Bool} {t : Str} {B l l' : List Ast} {p : List Str} (h : Wrapped t B p l l') : ∀ {encl encl' : List Ast}, encl'.map modName = encl.map modName →
    Differ (encl.map modName ++ p.map camel) (encl.map modName ++ p.map camel ++ [camel t]) (camel t) (namesIn B)
      ((inScopeAll encl l).flatMap (condFns skip)) ((inScopeAll encl' l').flatMap (condFns skip)) := by
  induction h with
  | @here s B' l l' hne hB hr hl =>
    intro encl encl' he
    rw [inScopeAll_append, inScopeAll.eq_2]
    simp only [inScope, List.cons_append, List.flatMap_cons, List.flatMap_append]
    have hnest : hasNested (Ast.condition s t B') = true := by
      show B'.any Ast.isCondition = true
      rw [resited_nested hr]
      obtain ⟨b, B, rfl⟩ := List.exists_cons_of_ne_nil hne
      simp [hB b (by simp)]
    have hact : actionsOf (Ast.condition s t B') = [] := by
      show B'.filter Ast.isAction = []
      rw [← firstAction_none, resited_first hr, firstAction_none]
      exact conds_actions hB
    have e : condFns skip (encl', Ast.condition s t B') = [modFn (Ast.condition s t B')] := by
      simp only [condFns, hnest, hact, if_true, List.append_nil]
    rw [e]
    have h1 := resited_reguarded (skip := skip) hr (encl := encl) (encl' := encl' ++ [Ast.condition s t B'])
    rw [List.map_append, he] at h1
    refine ⟨[], (inScopeAll encl B).flatMap (condFns skip), _, [], modFn (Ast.condition s t B'), (inScopeAll (encl' ++ [Ast.condition s t B']) B').flatMap (condFns skip), _, rfl, rfl, .nil, resited_code hl he, ?_, names_scope skip B encl, rfl, rfl⟩
    simpa [modName, titleOf] using h1
  | @inside s s' u p ks ks' l l' hk hl ih =>
    intro encl encl' he
    rw [inScopeAll.eq_2, inScopeAll.eq_2]
    simp only [inScope, List.cons_append, List.flatMap_cons, List.flatMap_append]
    have h1 := ih (encl := encl ++ [Ast.condition s u ks]) (encl' := encl' ++ [Ast.condition s' u ks']) (by simp [he, modName, titleOf])
    have h2 := condFns_reguarded (skip := skip) (encl := encl) (encl' := encl') (s := s) (s' := s') (u := u) (wrapped_nested hk) (wrapped_first hk) (wrapped_comments hk)
    rw [he] at h2
    have h3 := differ_before (each_imp (fun _ _ => same_empty) h2) (differ_after (resited_code (skip := skip) hl he) h1)
    simpa [modName, titleOf] using h3
  | @later a a' p l l' ha _ ih =>
    intro encl encl' he
    rw [inScopeAll.eq_2, inScopeAll.eq_2, List.flatMap_append, List.flatMap_append]
    have h1 := resited_code (skip := skip) ha he
    simp only [inScopeAll, List.append_nil] at h1
    exact differ_before h1 (ih he)

theorem expected_code {skip : Bool} {l l' : List Ast} (h : Resited l l') : Each SameCode (expected skip l) (expected skip l') := by
  induction h with
  | done => exact .nil
  | @action s s' u ds ds' l l' hd _ ih =>
    rw [expected_split skip _ l, expected_split skip _ l']
    refine each_append' (.cons ?_ .nil) ih
    simp only [SameCode, codeOf, actFn, bodyOf, commentLines, titleOf, kids, hd]
  | @condition s s' u ks ks' l l' hk hl _ ih =>
    rw [expected_split skip _ l, expected_split skip _ l', expected_condition, expected_condition]
    exact each_append' (resited_code (.condition hk .done) rfl) ih

private theorem expected_conds {skip : Bool} : ∀ {B : List Ast}, (∀ b ∈ B, b.isCondition = true) → expected skip B = (inScopeAll [] B).flatMap (condFns skip)
  | [], _ => rfl
  | b :: B, h => by
    rw [expected_split, expected_conds (B := B) (fun c hc => h c (by simp [hc])), inScopeAll.eq_2, List.flatMap_append]
    have := h b (by simp)
    cases b with
    | condition s u k => rw [expected_condition]; simp [inScopeAll]
    | root => simp [Ast.isCondition] at this
    | action => simp [Ast.isCondition] at this
    | description => simp [Ast.isCondition] at this

private theorem expected_wrapped {skip : Bool} {t : Str} {B l l' : List Ast} {p : List Str} (h : Wrapped t B p l l') :
    Differ (p.map camel) (p.map camel ++ [camel t]) (camel t) (namesIn B) (expected skip l) (expected skip l') := by
  induction h with
  | @here s B' l l' hne hB hr hl =>
    have e : expected skip (B ++ l) = expected skip B ++ expected skip l := by simp [expected]
    have h1 := wrapped_fns (skip := skip) (Wrapped.here (t := t) (s := s) hne hB hr .done) (encl := []) (encl' := []) rfl
    rw [e, expected_split skip _ l', expected_conds hB, expected_condition]
    refine differ_after (expected_code hl) ?_
    simpa using h1
  | @inside s s' u p ks ks' l l' hk hl _ =>
    rw [expected_split skip _ l, expected_split skip _ l', expected_condition, expected_condition]
    refine differ_after (expected_code hl) ?_
    simpa using wrapped_fns (skip := skip) (Wrapped.inside (s := s) (s' := s') (u := u) hk .done) (encl := []) (encl' := []) rfl
  | @later a a' p l l' ha _ ih =>
    rw [expected_split skip a l, expected_split skip a' l']
    exact differ_before (expected_code ha) ih

/-- **C133.** Putting neighbouring conditions below a new condition adds the modifier of the new condition, in front of their functions; their tests get this modifier behind those
of the conditions around the new one; nothing else changes. -/
theorem C133_functions [LawfulUcd] {order order' : HashOrder} {text text' : Str} {ast ast' : Ast} (h : parse order text = .ok [ast])
    (h' : parse order' text' = .ok [ast']) {t : Str} {B : List Ast} {path : List Str} (hw : Wrapped t B path (kids ast) (kids ast')) (cfg : Config) :
    ∃ X Y Z X' g Y' Z', translate order cfg text = .ok ⟨[⟨titleOf ast, X ++ Y ++ Z⟩]⟩ ∧
      translate order' cfg text' = .ok ⟨[⟨titleOf ast', X' ++ g :: (Y' ++ Z')⟩]⟩ ∧ Each SameCode X X' ∧ Each SameCode Z Z' ∧
      Each (Reguarded (path.map camel) (path.map camel ++ [camel t])) Y Y' ∧ Y.map nameOf = namesIn B ∧ nameOf g = (.modifier, camel t) ∧ g.children = none := by
  obtain ⟨X, Y, Z, X', g, Y', Z', e, e', r⟩ := expected_wrapped (skip := cfg.emitVmSkip) hw
  exact ⟨X, Y, Z, X', g, Y', Z', e ▸ translate_single h cfg, e' ▸ translate_single h' cfg, r⟩

private theorem same_names {l l' : List HFn} (h : Each SameCode l l') : l'.map nameOf = l.map nameOf := by
  induction h with
  | nil => rfl
  | cons r _ ih =>
    simp only [SameCode, codeOf, Prod.mk.injEq] at r
    simp only [List.map_cons, ih, nameOf, r.1, r.2.1]

private theorem reguarded_names {E E' : List Str} {l l' : List HFn} (h : Each (Reguarded E E') l l') : l'.map nameOf = l.map nameOf := by
  induction h with
  | nil => rfl
  | cons r _ ih => simp only [List.map_cons, ih, r.name]

/-- The names of the functions of both trees. -/
private theorem wrapped_names [LawfulUcd] {order order' : HashOrder} {text text' : Str} {ast ast' : Ast} (h : parse order text = .ok [ast])
    (h' : parse order' text' = .ok [ast']) {t : Str} {B : List Ast} {path : List Str} (hw : Wrapped t B path (kids ast) (kids ast')) (cfg : Config)
    {n n' : Str} {fns fns' : List HFn} (ht : translate order cfg text = .ok ⟨[⟨n, fns⟩]⟩) (ht' : translate order' cfg text' = .ok ⟨[⟨n', fns'⟩]⟩) :
    n = titleOf ast ∧ n' = titleOf ast' ∧ ∃ P Q, fns.map nameOf = P ++ Q ∧ fns'.map nameOf = P ++ (.modifier, camel t) :: Q := by
  obtain ⟨X, Y, Z, X', g, Y', Z', k1, k2, k3, k4, k5, _, k7, _⟩ := C133_functions h h' hw cfg
  rw [ht] at k1
  rw [ht'] at k2
  simp only [Res.ok.injEq, HRoot.mk.injEq, List.cons.injEq, HContract.mk.injEq, and_true] at k1 k2
  obtain ⟨rfl, rfl⟩ := k1
  obtain ⟨rfl, rfl⟩ := k2
  refine ⟨rfl, rfl, X.map nameOf, (Y ++ Z).map nameOf, by simp, ?_⟩
  simp only [List.map_append, List.map_cons, same_names k3, same_names k4, reguarded_names k5, k7]

/-- **C133**, taking the condition away again never makes `check` complain. -/
theorem C133_unwrap [LawfulUcd] {order order' : HashOrder} {text text' : Str} {ast ast' : Ast} (h : parse order text = .ok [ast])
    (h' : parse order' text' = .ok [ast']) (hn : titleOf ast = titleOf ast') {t : Str} {B : List Ast} {path : List Str} (hw : Wrapped t B path (kids ast) (kids ast'))
    {cfg : Config} {ctx : Context} {hir : HRoot} (ht : translate order cfg text = .ok hir) (ht' : translate order' cfg text' = .ok ctx.hir) (hc : checkCtx ctx = .ok []) :
    checkCtx { ctx with hir := hir } = .ok [] := by
  have e := translate_single h cfg
  have e' := translate_single h' cfg
  obtain ⟨_, _, P, Q, e1, e2⟩ := wrapped_names h h' hw cfg e e'
  rw [e] at ht
  rw [e'] at ht'
  cases ht
  rw [hn]
  refine check_less (Res.ok.inj ht').symm hc ?_
  rw [e1, e2]
  exact List.Sublist.append_left (List.sublist_cons_self _ _) _

private theorem one_of_increasing {v : Violation} {i : Nat} (hv : missingIdx v = some i) {vs : List Violation} (hi : Increasing (vs.filterMap missingIdx)) (hm : ∀ w, w ∈ vs ↔ w = v) :
    vs = [v] := by
  match vs with
  | [] => exact absurd ((hm v).2 rfl) (by simp)
  | [w] => rw [(hm w).1 (by simp)]
  | w :: x :: vs =>
    have e1 := (hm w).1 (by simp)
    have e2 := (hm x).1 (by simp)
    subst e1
    subst e2
    simp [Increasing, hv] at hi

/-- **C133**, checking: against a file that conforms to the tree, the tree with the new condition is reported to miss the modifier of this condition, and nothing else (nothing at all with `-m`).
That the tests do not carry it is not reported. -/
theorem C133_check [LawfulUcd] {order order' : HashOrder} {text text' : Str} {ast ast' : Ast} (h : parse order text = .ok [ast])
    (h' : parse order' text' = .ok [ast']) (hn : titleOf ast' = titleOf ast) {t : Str} {B : List Ast} {path : List Str} (hw : Wrapped t B path (kids ast) (kids ast')) {cfg : Config}
    {ctx : Context} (ht : translate order cfg text = .ok ctx.hir) {n' : Str} {fns' : List HFn} (ht' : translate order' cfg text' = .ok ⟨[⟨n', fns'⟩]⟩)
    (hc : checkCtx ctx = .ok []) (hd : Distinct fns')
    (hnew : ∀ s, FirstContract ctx.pt s → ∀ f ∈ fns', nameOf f = (.modifier, camel t) → ¬ Present s.parts f) :
    ∃ i g, fns'[i]? = some g ∧ nameOf g = (.modifier, camel t) ∧ checkCtx { ctx with hir := ⟨[⟨n', fns'⟩]⟩ } =
      .ok (if ctx.skipModifiers = true then [] else [⟨.matchingFunctionMissing g i, .code ctx.tree g.span.start.line⟩]) := by
  obtain ⟨n, fns, hh, _⟩ := translate_ok ht
  rw [hh] at ht
  obtain ⟨rfl, rfl, P, Q, e1, e2⟩ := wrapped_names h h' hw cfg ht ht'
  have hsub : (fns.map nameOf).Sublist (fns'.map nameOf) := by
    rw [e1, e2]
    exact List.Sublist.append_left (List.sublist_cons_self _ _) _
  have hnd := distinct_nodup hd
  have hnew' : ∀ f ∈ fns', nameOf f ∉ fns.map nameOf ↔ nameOf f = (.modifier, camel t) := by
    intro f hf
    have hm := List.mem_map_of_mem (f := nameOf) hf
    rw [e2] at hm hnd
    rw [e1]
    constructor
    · intro hni
      simp only [List.mem_append, List.mem_cons] at hm hni
      rcases hm with hm | hm | hm
      · exact absurd (.inl hm) hni
      · exact hm
      · exact absurd (.inr hm) hni
    · intro e hmem
      rw [e] at hmem
      rw [List.nodup_append] at hnd
      rcases List.mem_append.1 hmem with hmem | hmem
      · exact hnd.2.2 _ hmem _ (by simp) rfl
      · exact (List.nodup_cons.1 hnd.2.1).1 hmem
  obtain ⟨vs, g1, g2, g3⟩ := check_more hh hc hsub hd (fun s hs f hf hm => hnew s hs f hf ((hnew' f hf).1 hm))
  have hmem : (FnTy.modifier, camel t) ∈ fns'.map nameOf := by rw [e2]; simp
  obtain ⟨g, hg, eg⟩ := List.mem_map.1 hmem
  obtain ⟨i, hi⟩ := List.getElem?_of_mem hg
  have huniq : ∀ f j, fns'[j]? = some f → nameOf f = (.modifier, camel t) → j = i ∧ f = g := by
    intro f j hj ef
    have hlt := (List.getElem?_eq_some_iff.1 hj).1
    have : (fns'.map nameOf)[j]? = (fns'.map nameOf)[i]? := by rw [List.getElem?_map, List.getElem?_map, hj, hi]; simp [ef, eg]
    have := (List.getElem?_inj (by simpa using hlt) hnd).1 this
    subst this
    rw [hj] at hi
    exact ⟨rfl, Option.some.inj hi⟩
  refine ⟨i, g, hi, eg, ?_⟩
  rw [hn, g1]
  have hty : g.ty = .modifier := congrArg Prod.fst eg
  congr 1
  split
  · next hs =>
    refine List.eq_nil_iff_forall_not_mem.2 fun v hv => ?_
    obtain ⟨f, j, k1, k2, k3, _⟩ := (g3 v).1 hv
    exact k3 ⟨hs, congrArg Prod.fst ((hnew' f (List.mem_of_getElem? k1)).1 k2)⟩
  · next hs =>
    refine one_of_increasing rfl g2 fun w => ?_
    rw [g3 w]
    constructor
    · rintro ⟨f, j, k1, k2, _, rfl⟩
      obtain ⟨rfl, rfl⟩ := huniq f j k1 ((hnew' f (List.mem_of_getElem? k1)).1 k2)
      rfl
    · rintro rfl
      exact ⟨g, i, hi, (hnew' g hg).2 eg, fun h => hs h.1, rfl⟩

/-- **C133**, fixing: for a file that conforms to the tree, `check --fix` with the tree with the new condition adds the modifier of this condition, behind the function that precedes it, and nothing else;
then the file conforms to both trees.  The tests in the file are not given the new modifier. -/
theorem C133_fix [LawfulUcd] {P : SolParser} {G : SolGrammar} (hG : G.HasGenerated) (hP : Reader P G) {order order' : HashOrder} {text text' : Str} {ast ast' : Ast}
    (h : parse order text = .ok [ast]) (h' : parse order' text' = .ok [ast']) (hn : titleOf ast' = titleOf ast) {t : Str} {B : List Ast} {path : List Str}
    (hw : Wrapped t B path (kids ast) (kids ast')) {cfg : Config} {ctx : Context} (hm : ctx.skipModifiers = false) (ht : translate order cfg text = .ok ctx.hir) {n' : Str}
    {fns' : List HFn} (ht' : translate order' cfg text' = .ok ⟨[⟨n', fns'⟩]⟩) (hc : checkCtx ctx = .ok []) (hd : Distinct fns') (hf : ∀ f ∈ fns', ReadableFn f)
    {L : Layout} (hL : L.Fits G) (hsrc : ctx.src = L.text) (hpt : P ctx.src = some ctx.pt) (hb : '{' ∉ L.header)
    (hnew : ∀ f ∈ fns', nameOf f = (.modifier, camel t) → ¬ Present L.parts f) :
    ∃ A g C, fns' = A ++ g :: C ∧ nameOf g = (.modifier, camel t) ∧ ∃ (L' : Layout) (u : SolUnit) (k : Nat),
      fixContext P { ctx with hir := ⟨[⟨n', fns'⟩]⟩ } = .ok ({ ctx with hir := ⟨[⟨n', fns'⟩]⟩, src := L'.text, pt := u }, k) ∧ L'.Fits G ∧
      L'.before = L.before ∧ L'.header = L.header ∧ L'.rest = L.rest ∧ L.text.Sublist L'.text ∧ (L.segs.map Prod.fst).Sublist (L'.segs.map Prod.fst) ∧
      (L'.segs.map Prod.fst).Perm (L.segs.map Prod.fst ++ [newSeg g]) ∧
      (A = [] → At L'.parts g 0) ∧ (∀ f, A.getLast? = some f → ∃ a, At L'.parts f a ∧ At L'.parts g (a + 1)) ∧
      checkCtx { ctx with hir := ⟨[⟨n', fns'⟩]⟩, src := L'.text, pt := u } = .ok [] ∧ checkCtx { ctx with src := L'.text, pt := u } = .ok [] := by
  obtain ⟨n, fns, hh, _⟩ := translate_ok ht
  rw [hh] at ht
  obtain ⟨rfl, rfl, P0, Q0, e1, e2⟩ := wrapped_names h h' hw cfg ht ht'
  obtain ⟨A, C0, rfl, rfl, e3⟩ := List.map_eq_append_iff.1 e2
  obtain ⟨g, C, rfl, eg, rfl⟩ := List.map_eq_cons_iff.1 e3
  have hnd := distinct_nodup hd
  rw [e2, List.nodup_append, List.nodup_cons] at hnd
  have hni : nameOf g ∉ fns.map nameOf := by
    rw [e1, eg, List.mem_append]
    rintro (hm | hm)
    · exact hnd.2.2 _ hm _ (by simp) rfl
    · exact hnd.2.1.1 hm
  have hin : ∀ f, f ∈ A ∨ f ∈ C → nameOf f ∈ fns.map nameOf := by
    intro f hf
    rw [e1, List.mem_append]
    exact hf.imp (List.mem_map_of_mem) (List.mem_map_of_mem)
  have hg : ∀ f ∈ A ++ g :: C, nameOf f ∉ fns.map nameOf → f = g := by
    intro f hf hm
    rcases List.mem_append.1 hf with hf | hf
    · exact absurd (hin f (.inl hf)) hm
    · rcases List.mem_cons.1 hf with rfl | hf
      · rfl
      · exact absurd (hin f (.inr hf)) hm
  have hsub : (fns.map nameOf).Sublist ((A ++ g :: C).map nameOf) := by
    rw [e1, e2]
    exact List.Sublist.append_left (List.sublist_cons_self _ _) _
  obtain ⟨L', u, k, g1, g2, _, g4, g5, g6, g7, g8, g9, g10, g11, g12⟩ := fix_more hG hP (hir' := ⟨[⟨titleOf ast', A ++ g :: C⟩]⟩) hc hh (by rw [hn]) hd hsub hf hL hsrc hpt hb
    (fun f hf hm => hnew f hf (by rw [hg f hf hm]; exact eg)) (fun hs => by rw [hm] at hs; cases hs.1)
  have hfilter : (A ++ g :: C).filter (fun f => decide (nameOf f ∉ fns.map nameOf ∧ ¬ (ctx.skipModifiers = true ∧ f.ty = .modifier))) = [g] := by
    have none : ∀ l : List HFn, (∀ f ∈ l, nameOf f ∈ fns.map nameOf) →
        l.filter (fun f => decide (nameOf f ∉ fns.map nameOf ∧ ¬ (ctx.skipModifiers = true ∧ f.ty = .modifier))) = [] := by
      intro l hl
      rw [List.filter_eq_nil_iff]
      intro f hf hm
      exact (of_decide_eq_true hm).1 (hl f hf)
    rw [List.filter_append, List.filter_cons, none A (fun f hf => hin f (.inl hf)), none C (fun f hf => hin f (.inr hf)),
      if_pos (decide_eq_true ⟨hni, fun hs => by rw [hm] at hs; cases hs.1⟩)]
    rfl
  rw [hfilter] at g9
  obtain ⟨q1, q2⟩ := g10 A.length g (by simp) hni (fun hs => by rw [hm] at hs; cases hs.1)
  refine ⟨A, g, C, rfl, eg, L', u, k, g1, g2, g4, g5, g6, g7, g8, g9, fun e => q1 (by rw [e]; rfl), fun f hf => ?_, g11, g12⟩
  obtain ⟨D, rfl⟩ := List.getLast?_eq_some_iff.1 hf
  exact q2 D.length f (by simp) (by simp)

/-- **C133**, working: putting conditions below a new one, and taking it away, are steps of a session in the sense of C102, as long as the contract does not have the new modifier yet. -/
theorem C133_step [LawfulUcd] {env : Env} {G : SolGrammar} {s : Str} {w p : FPath} {fs : Fs} {text text' : Str} {ast ast' : Ast} (h : OneTree env text ast) (h' : OneTree env text' ast')
    (hn : titleOf ast' = titleOf ast) {t : Str} {B : List Ast} {path : List Str} (hw : Wrapped t B path (kids ast) (kids ast')) {n n' : Str} {fns fns' : List HFn}
    (ht : translate env.order .default text = .ok ⟨[⟨n, fns⟩]⟩) (ht' : translate env.order .default text' = .ok ⟨[⟨n', fns'⟩]⟩) {L : Layout} (hp : fs.state p = .text L.text) (hL : L.Fits G) :
    (fs.state w = .text text → InOrder fns L.parts → (∀ f ∈ fns', nameOf f = (.modifier, camel t) → ¬ Present L.parts f) → Step env G s w p fs (put fs w text')) ∧
    (fs.state w = .text text' → InOrder fns' L.parts → Step env G s w p fs (put fs w text)) := by
  obtain ⟨_, _, P, Q, e1, e2⟩ := wrapped_names h.parsed h'.parsed hw .default ht ht'
  have hsub : (fns.map nameOf).Sublist (fns'.map nameOf) := by
    rw [e1, e2]
    exact List.Sublist.append_left (List.sublist_cons_self _ _) _
  refine ⟨fun h1 h2 h3 => .reshape h1 h h' hn ht' hp hL (inOrder_more hsub (h'.distinct _ _ ht') h2 fun f hf hm => h3 f hf ?_),
    fun h1 h2 => .reshape h1 h' h hn.symm ht hp hL (inOrder_names hsub h2)⟩
  have hmem := List.mem_map_of_mem (f := nameOf) hf
  rw [e2] at hmem
  rw [e1] at hm
  simp only [List.mem_append, List.mem_cons] at hmem hm
  rcases hmem with hmem | hmem | hmem
  · exact absurd (.inl hmem) hm
  · exact hmem
  · exact absurd (.inr hmem) hm

/-- **C133**, commands: if `check` succeeds and conditions of one of the trees are put below a new one, then it exits with 1, or still succeeds if `-m` is given. -/
theorem C133_exit [LawfulUcd] {env : Env} {a : CheckArgs} {fs fs' : Fs} (hf : a.fix = false) (hs : ∀ t ∈ a.files, ∀ p, SolOf t p → fs'.state p = fs.state p)
    {w : FPath} (hta : w ∈ a.files) (hother : ∀ u ∈ a.files, u ≠ w → fs'.state u = fs.state u) {text text' : Str} {ast ast' : Ast}
    (h1 : fs.state w = .text text) (h2 : fs'.state w = .text text') (h : parse env.order text = .ok [ast]) (h' : parse env.order text' = .ok [ast'])
    (hn : titleOf ast' = titleOf ast) {t : Str} {B : List Ast} {path : List Str} (hw : Wrapped t B path (kids ast) (kids ast')) {n' : Str} {fns' : List HFn}
    (ht' : translate env.order .default text' = .ok ⟨[⟨n', fns'⟩]⟩) (hd : Distinct fns')
    (hnew : ∀ p src u s, SolOf w p → fs.state p = .text src → env.solParse src = some u → FirstContract u s → ∀ f ∈ fns', nameOf f = (.modifier, camel t) → ¬ Present s.parts f)
    (h0 : (checkRun env a fs).exit = .code 0) :
    (checkRun env a fs').exit = .code (if a.skipModifiers = true then 0 else 1) := by
  have k1 := translate_single h .default
  obtain ⟨p, src, u, m1, m2, m3, m4, m5, m6⟩ := edited_exit hf hs hta hother h1 h2 k1 ht' h0
  obtain ⟨i, g, _, _, hv⟩ := C133_check h h' hn hw (ctx := ⟨w.str, ⟨[⟨titleOf ast, _⟩]⟩, p.str, src, u, a.skipModifiers⟩) k1 ht' m4 hd
    (fun s hs => hnew p src u s m1 m2 m3 hs)
  by_cases hsk : a.skipModifiers = true
  · rw [if_pos hsk]
    rw [if_pos hsk] at hv
    exact m5.2 hv
  · rw [if_neg hsk]
    rw [if_neg hsk] at hv
    exact m6 _ hv (by simp)

end
end Bulloak
