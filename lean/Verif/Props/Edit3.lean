import Verif.Spec.Edit3
import Verif.Props.Edit
import Verif.Props.Keep
import Verif.Props.Order
/-!
# Rearranging trees and retitling conditions: C107, C108
-/

namespace Bulloak
open Spec
set_option linter.unusedSectionVars false

theorem permBy_refl {α : Type} {R : α → α → Prop} (hr : ∀ a, R a a) : ∀ l : List α, PermBy R l l
  | [] => .nil
  | a :: l => .cons (hr a) (permBy_refl hr l)

theorem permBy_perm {α : Type} {R : α → α → Prop} (hr : ∀ a, R a a) {l l' : List α} (h : l.Perm l') : PermBy R l l' := by
  induction h with
  | nil => exact .nil
  | cons a _ ih => exact .cons (hr a) ih
  | swap a b l => exact .swap
  | trans _ _ ih1 ih2 => exact .trans ih1 ih2

theorem permBy_append {α : Type} {R : α → α → Prop} (hr : ∀ a, R a a) {a a' b b' : List α} (h : PermBy R a a') (h' : PermBy R b b') :
    PermBy R (a ++ b) (a' ++ b') := by
  refine .trans (l' := a' ++ b) ?_ ?_
  · induction h with
    | nil => exact permBy_refl hr b
    | cons r _ ih => exact .cons r ih
    | swap => exact .swap
    | trans _ _ ih1 ih2 => exact .trans ih1 ih2
  · clear h
    induction a' with
    | nil => exact h'
    | cons x xs ih => exact .cons (hr x) ih

theorem permBy_map {α β : Type} {R : α → α → Prop} {f : α → β} (hf : ∀ a b, R a b → f b = f a) {l l' : List α} (h : PermBy R l l') :
    (l.map f).Perm (l'.map f) := by
  induction h with
  | nil => exact .nil
  | cons r _ ih => rw [List.map_cons, List.map_cons, hf _ _ r]; exact ih.cons _
  | swap => exact .swap _ _ _
  | trans _ _ ih1 ih2 => exact ih1.trans ih2

theorem sameUpToOrder_refl (f : HFn) : SameUpToOrder f f := ⟨rfl, rfl, .refl _⟩

theorem rearranged_nested {l l' : List Ast} (h : Rearranged l l') : l'.any Ast.isCondition = l.any Ast.isCondition := by
  induction h with
  | done => rfl
  | action _ _ ih => simp [Ast.isCondition, ih]
  | condition => simp [Ast.isCondition]
  | swap => simp only [List.any_cons, ← Bool.or_assoc, Bool.or_comm]
  | trans _ _ ih1 ih2 => rw [ih2, ih1]

theorem rearranged_comments {l l' : List Ast} (h : Rearranged l l') :
    ((l'.filter Ast.isAction).flatMap commentLines).Perm ((l.filter Ast.isAction).flatMap commentLines) := by
  induction h with
  | done => exact .refl _
  | action hd _ ih =>
    simp only [List.filter_cons, Ast.isAction, if_true, List.flatMap_cons, commentLines, titleOf, kids]
    exact ((hd.symm.cons _).append ih)
  | condition _ _ _ _ ih => simpa [List.filter_cons, Ast.isAction] using ih
  | @swap a b l =>
    apply List.Perm.flatMap_right
    exact (List.Perm.swap _ _ _).filter _
  | trans _ _ ih1 ih2 => exact ih2.trans ih1

theorem rearranged_actions {l l' : List Ast} (h : Rearranged l l') : l'.filter Ast.isAction = [] ↔ l.filter Ast.isAction = [] := by
  induction h with
  | done => exact Iff.rfl
  | action => simp [List.filter_cons, Ast.isAction]
  | condition _ _ _ _ ih => simpa [List.filter_cons, Ast.isAction] using ih
  | @swap a b l =>
    have := (List.Perm.swap a b l).filter Ast.isAction
    exact ⟨fun h => List.Perm.eq_nil (h ▸ this.symm), fun h => List.Perm.eq_nil (h ▸ this)⟩
  | trans _ _ ih1 ih2 => exact ih2.trans ih1

section
variable [U : Ucd]

theorem condFns_rearranged {skip : Bool} {encl encl' : List Ast} (he : encl'.map modName = encl.map modName) {s s' : Span} {t : Str}
    {ks ks' : List Ast} (h : Rearranged ks ks') (hf : firstAction ks' = firstAction ks) :
    PermBy SameUpToOrder (condFns skip (encl, .condition s t ks)) (condFns skip (encl', .condition s' t ks')) := by
  have hn : hasNested (.condition s' t ks') = hasNested (.condition s t ks) := rearranged_nested h
  have ha : actionsOf (.condition s' t ks') = [] ↔ actionsOf (.condition s t ks) = [] := rearranged_actions h
  unfold condFns
  apply permBy_append sameUpToOrder_refl
  · simp only [hn]
    split
    · exact .cons ⟨rfl, rfl, .refl _⟩ .nil
    · exact .nil
  · by_cases hc : actionsOf (.condition s t ks) = []
    · rw [if_pos hc, if_pos (ha.2 hc)]; exact .nil
    · rw [if_neg hc, if_neg (fun h => hc (ha.1 h))]
      refine .cons ⟨?_, ?_, ?_⟩ .nil
      · simp only [nameOf, condFn, testName, titleOf, reverts_first (s := s) (s' := s') (t := t) (t' := t) hf]
      · simp only [condFn, guards, List.map_append, he, hn]
        split <;> simp [modName, titleOf]
      · simp only [condFn, Option.getD_some, bodyOf]
        exact ((rearranged_comments h).map _).append_right _

mutual
theorem inScope_names (skip : Bool) : ∀ (a : Ast) {encl encl' : List Ast}, encl'.map modName = encl.map modName →
    (inScope encl' a).flatMap (condFns skip) = (inScope encl a).flatMap (condFns skip)
  | .root .., _, _, _ => rfl
  | .action .., _, _, _ => rfl
  | .description .., _, _, _ => rfl
  | .condition s t ks, encl, encl', he => by
    simp only [inScope, List.flatMap_cons]
    rw [inScopeAll_names skip ks (encl := encl ++ [Ast.condition s t ks]) (encl' := encl' ++ [Ast.condition s t ks]) (by simp [he])]
    congr 1
    simp only [condFns, condFn, guards, List.map_append, he]
theorem inScopeAll_names (skip : Bool) : ∀ (l : List Ast) {encl encl' : List Ast}, encl'.map modName = encl.map modName →
    (inScopeAll encl' l).flatMap (condFns skip) = (inScopeAll encl l).flatMap (condFns skip)
  | [], _, _, _ => rfl
  | a :: l, encl, encl', he => by
    rw [inScopeAll.eq_2, inScopeAll.eq_2, List.flatMap_append, List.flatMap_append, inScope_names skip a he, inScopeAll_names skip l he]
end

theorem inScopeAll_rearranged {skip : Bool} {l l' : List Ast} (h : Rearranged l l') : ∀ {encl encl' : List Ast}, encl'.map modName = encl.map modName →
    PermBy SameUpToOrder ((inScopeAll encl l).flatMap (condFns skip)) ((inScopeAll encl' l').flatMap (condFns skip)) := by
  induction h with
  | done => intro _ _ _; exact .nil
  | action _ _ ih =>
    intro encl encl' he
    rw [inScopeAll.eq_2, inScopeAll.eq_2]
    simp only [inScope, List.nil_append]
    exact ih he
  | condition hk hf _ ihk ihl =>
    intro encl encl' he
    rw [inScopeAll.eq_2, inScopeAll.eq_2]
    simp only [inScope, List.cons_append, List.flatMap_cons, List.flatMap_append]
    refine permBy_append sameUpToOrder_refl (condFns_rearranged he hk hf) (permBy_append sameUpToOrder_refl (ihk ?_) (ihl he))
    simp [he, modName, titleOf]
  | @swap a b l =>
    intro encl encl' he
    rw [inScopeAll_names skip (b :: a :: l) he]
    simp only [inScopeAll.eq_2, List.flatMap_append, ← List.append_assoc]
    exact permBy_append sameUpToOrder_refl (permBy_perm sameUpToOrder_refl List.perm_append_comm) (permBy_refl sameUpToOrder_refl _)
  | trans _ _ ih1 ih2 =>
    intro encl encl' he
    exact .trans (ih1 he) (ih2 rfl)

theorem expected_rearranged {skip : Bool} {l l' : List Ast} (h : Rearranged l l') :
    PermBy SameUpToOrder (expected skip l) (expected skip l') := by
  induction h with
  | done => exact .nil
  | action hd _ ih =>
    unfold expected at ih ⊢
    rw [List.flatMap_cons, List.flatMap_cons]
    refine permBy_append sameUpToOrder_refl ?_ ih
    simp only [Ast.isAction, if_true]
    refine .cons ⟨rfl, rfl, ?_⟩ .nil
    simp only [actFn, Option.getD_some, bodyOf, commentLines, titleOf, kids]
    exact (((hd.symm.cons _).map _)).append_right _
  | condition hk hf _ _ ihl =>
    unfold expected at ihl ⊢
    rw [List.flatMap_cons, List.flatMap_cons]
    refine permBy_append sameUpToOrder_refl ?_ ihl
    simp only [Ast.isAction, Bool.false_eq_true, if_false, inScope, List.flatMap_cons]
    exact permBy_append sameUpToOrder_refl (condFns_rearranged rfl hk hf) (inScopeAll_rearranged hk (by simp [modName, titleOf]))
  | swap =>
    unfold expected
    simp only [List.flatMap_cons, ← List.append_assoc]
    exact permBy_append sameUpToOrder_refl (permBy_perm sameUpToOrder_refl List.perm_append_comm) (permBy_refl sameUpToOrder_refl _)
  | trans _ _ ih1 ih2 => exact .trans ih1 ih2

/-- **C107.** Two files with one tree each, the branches of one being those of the other in another order (every condition keeping its first action): they have
the same functions, in another order, with the same modifiers and, in another order, the same comments. -/
theorem C107_functions [LawfulUcd] {order order' : HashOrder} {text text' : Str} {ast ast' : Ast} (h : parse order text = .ok [ast])
    (h' : parse order' text' = .ok [ast']) (he : Rearranged (kids ast) (kids ast')) (cfg : Config) :
    ∃ fns fns', translate order cfg text = .ok ⟨[⟨titleOf ast, fns⟩]⟩ ∧ translate order' cfg text' = .ok ⟨[⟨titleOf ast', fns'⟩]⟩ ∧
      PermBy SameUpToOrder fns fns' :=
  ⟨_, _, translate_single h cfg, translate_single h' cfg, expected_rearranged he⟩

theorem rearranged_names [LawfulUcd] {order order' : HashOrder} {text text' : Str} {ast ast' : Ast} (h : parse order text = .ok [ast])
    (h' : parse order' text' = .ok [ast']) (he : Rearranged (kids ast) (kids ast')) {cfg : Config} {n n' : Str} {fns fns' : List HFn}
    (ht : translate order cfg text = .ok ⟨[⟨n, fns⟩]⟩) (ht' : translate order' cfg text' = .ok ⟨[⟨n', fns'⟩]⟩) :
    (fns.map nameOf).Perm (fns'.map nameOf) := by
  rw [translate_single h] at ht
  rw [translate_single h'] at ht'
  simp only [Res.ok.injEq, HRoot.mk.injEq, List.cons.injEq, HContract.mk.injEq, and_true] at ht ht'
  rw [← ht.2, ← ht'.2]
  exact permBy_map (fun _ _ r => r.name) (expected_rearranged he)

/-- **C107, checking.** If the Solidity file conforms to the tree, then after rearranging the tree `check` reports nothing but functions out of order. -/
theorem C107_check [LawfulUcd] {order order' : HashOrder} {text text' : Str} {ast ast' : Ast} (h : parse order text = .ok [ast])
    (h' : parse order' text' = .ok [ast']) (hn : titleOf ast' = titleOf ast) (he : Rearranged (kids ast) (kids ast')) (cfg : Config)
    {ctx : Context} {hir' : HRoot} (ht : translate order cfg text = .ok ctx.hir) (ht' : translate order' cfg text' = .ok hir')
    (hc : checkCtx ctx = .ok []) {vs : List Violation} (hv : checkCtx { ctx with hir := hir' } = .ok vs) :
    ∀ v ∈ vs, ∃ g i j, v.kind = .functionOrderMismatch g i j := by
  have e := translate_single h cfg
  rw [ht] at e
  have hh := Res.ok.inj e
  have e' := translate_single h' cfg
  rw [ht'] at e'
  obtain rfl := Res.ok.inj e'
  have hp := rearranged_names h h' he (ht.trans (by rw [hh])) ht'
  obtain ⟨s, h1, h2, h3, _⟩ := (C37_silent_iff hh).1 hc
  obtain ⟨v1, v3, g1, rfl, g3⟩ := check_report (ctx := { ctx with hir := ⟨[⟨titleOf ast', expected cfg.emitVmSkip (kids ast')⟩]⟩ }) rfl h1 hv
  intro v hvm
  rcases List.mem_append.1 hvm with hvm | hvm
  · rcases names_report g1 with ⟨rfl, _⟩ | ⟨m, _, g4, g5, _⟩
    · cases hvm
    · exact absurd (h2 m g4) (by simpa [hn] using g5)
  rcases List.mem_append.1 hvm with hvm | hvm
  · obtain ⟨f, i, _, hf, _, hnp, hsk⟩ := (presentAndMissing_missing _ s _ 0).1 v hvm
    have hfm := List.mem_map_of_mem (f := nameOf) (List.mem_of_getElem? hf)
    obtain ⟨f0, hf0, e0⟩ := List.mem_map.1 (hp.mem_iff.2 hfm)
    rcases h3 f0 hf0 with h4 | ⟨h4, h5⟩
    · exact absurd ((present_name e0 _).1 h4) hnp
    · exact absurd ⟨h4, (congrArg Prod.fst e0).symm.trans h5⟩ hsk
  · obtain ⟨p, _, g, line, _, _, rfl⟩ := each_mem_right g3 hvm
    exact ⟨_, _, _, rfl⟩

/-- **C107, fixing.** If the Solidity file is valid and conforms to the tree, and no three functions come in reversed order after rearranging the tree, then `check --fix` only
moves parts of the contract around; and nothing is reported afterwards if and only if no function that stays has a part that is not in the tree in front of it
while a later function of the tree is moved. -/
theorem C107_fix [LawfulUcd] {P : SolParser} {G : SolGrammar} (hG : G.HasGenerated) (hP : Reader P G) {order order' : HashOrder} {text text' : Str} {ast ast' : Ast}
    (h : parse order text = .ok [ast]) (h' : parse order' text' = .ok [ast']) (hn : titleOf ast' = titleOf ast) (he : Rearranged (kids ast) (kids ast'))
    {cfg : Config} {ctx : Context} (ht : translate order cfg text = .ok ctx.hir) {n : Str} {fns' : List HFn}
    (ht' : translate order' cfg text' = .ok ⟨[⟨n, fns'⟩]⟩) (hc : checkCtx ctx = .ok []) (hsk : ctx.skipModifiers = false) (hd : Distinct fns')
    (hf : ∀ f ∈ fns', ReadableFn f) (hF : ∀ f ∈ fns', Ascii (emitFunction f)) {L : Layout} (hL : L.Fits G) (hsrc : ctx.src = L.text)
    (hpt : P ctx.src = some ctx.pt) (hb : '{' ∉ L.header) (hA : Ascii L.text) (hm : Mixed fns' L) (hD : DeclaredOnce fns' L)
    (h3 : NoReversedTriple fns' L.parts) :
    ∃ (L' : Layout) (u : SolUnit) (k : Nat), fixContext P { ctx with hir := ⟨[⟨n, fns'⟩]⟩ } = .ok ({ ctx with hir := ⟨[⟨n, fns'⟩]⟩, src := L'.text, pt := u }, k) ∧
      L'.Fits G ∧ FirstContract u L'.contract ∧ (L'.segs.map Prod.fst).Perm (L.segs.map Prod.fst) ∧
      (checkCtx { ctx with hir := ⟨[⟨n, fns'⟩]⟩, src := L'.text, pt := u } = .ok [] ↔ ¬ Blocked fns' L.parts) := by
  have e := translate_single h cfg
  rw [ht] at e
  have hh := Res.ok.inj e
  have e' := translate_single h' cfg
  rw [ht'] at e'
  simp only [Res.ok.injEq, HRoot.mk.injEq, List.cons.injEq, HContract.mk.injEq, and_true] at e'
  have hp := rearranged_names h h' he (ht.trans (by rw [hh])) ht'
  obtain ⟨s, h1, h2, h4, _⟩ := (C37_silent_iff hh).1 hc
  have hfc := reader_first hP hL (by rw [← hsrc]; exact hpt)
  obtain rfl : s = L.contract := Option.some.inj (((findContract_iff _ _).2 h1).symm.trans ((findContract_iff _ _).2 hfc))
  have hpres : ∀ f ∈ fns', Present L.parts f := by
    intro f hfm
    obtain ⟨f0, hf0, e0⟩ := List.mem_map.1 (hp.mem_iff.2 (List.mem_map_of_mem hfm))
    rcases h4 f0 hf0 with h5 | ⟨h5, _⟩
    · exact (present_name e0 _).1 h5
    · rw [hsk] at h5; cases h5
  obtain ⟨L', u, vs, _, g2, g3, g4, g5, g6⟩ := C101_exact hG hP (n := n) (fns := fns') (ctx := { ctx with hir := ⟨[⟨n, fns'⟩]⟩ }) rfl hf hL hL hsrc hpt
    (.same (by intro m hm'; rw [e'.1, hn]; exact h2 m hm')) hb hsk hd hm h3 hA hA hF hD
  refine ⟨L', u, _, g2, g3, g4, ?_, g6⟩
  rwa [List.filter_eq_nil_iff.2 (by intro f hfm; simpa using hpres f hfm), List.map_nil, List.append_nil] at g5

/-! ## Retitling a condition -/

theorem resited_nested {l l' : List Ast} (h : Resited l l') : l'.any Ast.isCondition = l.any Ast.isCondition := by
  induction h with
  | done => rfl
  | action _ _ ih => simp [Ast.isCondition, ih]
  | condition => simp [Ast.isCondition]

theorem resited_first {l l' : List Ast} (h : Resited l l') : firstAction l' = firstAction l := by
  induction h with
  | done => rfl
  | action => simp [firstAction, List.filter_cons, Ast.isAction, titleOf]
  | condition _ _ _ ih => simpa [firstAction, List.filter_cons, Ast.isAction] using ih

theorem resited_comments {l l' : List Ast} (h : Resited l l') :
    (l'.filter Ast.isAction).flatMap commentLines = (l.filter Ast.isAction).flatMap commentLines := by
  induction h with
  | done => rfl
  | action hd _ ih =>
    simp only [List.filter_cons, Ast.isAction, if_true, List.flatMap_cons, commentLines, titleOf, kids, hd, ih]
  | condition _ _ _ ih => simpa [List.filter_cons, Ast.isAction] using ih

theorem retitled_any {t t' : Str} {k l l' : List Ast} (h : Retitled t t' k l l') : l'.any Ast.isCondition = l.any Ast.isCondition := by
  induction h with
  | here => simp [Ast.isCondition]
  | inside => simp [Ast.isCondition]
  | @later a a' _ _ ha _ ih => have := resited_nested ha; simp_all

theorem retitled_first {t t' : Str} {k l l' : List Ast} (h : Retitled t t' k l l') : firstAction l' = firstAction l := by
  induction h with
  | here _ h => simpa [firstAction, List.filter_cons, Ast.isAction] using resited_first h
  | inside _ h => simpa [firstAction, List.filter_cons, Ast.isAction] using resited_first h
  | later ha _ ih =>
    cases ha with
    | action _ _ => simp [firstAction, List.filter_cons, Ast.isAction, titleOf]
    | condition _ _ => simpa [firstAction, List.filter_cons, Ast.isAction] using ih

theorem retitled_comments {t t' : Str} {k l l' : List Ast} (h : Retitled t t' k l l') :
    (l'.filter Ast.isAction).flatMap commentLines = (l.filter Ast.isAction).flatMap commentLines := by
  induction h with
  | here _ h => simpa [List.filter_cons, Ast.isAction] using resited_comments h
  | inside _ h => simpa [List.filter_cons, Ast.isAction] using resited_comments h
  | later ha _ ih =>
    cases ha with
    | action hd _ => simp only [List.filter_cons, Ast.isAction, if_true, List.flatMap_cons, commentLines, titleOf, kids, hd, ih]
    | condition _ _ => simpa [List.filter_cons, Ast.isAction] using ih

section
variable {t t' : Str}

/-- Names of modifiers, of which that of the condition `t` may be replaced. -/
def Swapped (t t' : Str) (m m' : Str) : Prop := m' = m ∨ (m = camel t ∧ m' = camel t')

theorem condFns_names (skip : Bool) (encl : List Ast) (s : Span) (u : Str) (k : List Ast) :
    (condFns skip (encl, .condition s u k)).map nameOf = ownNames u k := by
  have h2 : actionsOf (Ast.condition s u k) = [] ↔ firstAction k = none := firstAction_none.symm
  have e : condFns skip (encl, .condition s u k) = (if k.any Ast.isCondition then [modFn (.condition s u k)] else []) ++
    (if actionsOf (.condition s u k) = [] then [] else [condFn skip encl (.condition s u k)]) := rfl
  rw [e, ownNames, List.map_append]
  congr 1
  · by_cases hk : k.any Ast.isCondition = true
    · rw [if_pos hk, if_pos hk]; rfl
    · rw [if_neg hk, if_neg hk]; rfl
  · by_cases hk : firstAction k = none
    · rw [if_pos hk, if_pos (h2.2 hk)]; rfl
    · rw [if_neg hk, if_neg (fun h => hk (h2.1 h))]; rfl

theorem ownNames_same {u : Str} {k k' : List Ast} (hn : k'.any Ast.isCondition = k.any Ast.isCondition) (hf : firstAction k' = firstAction k) :
    ownNames u k' = ownNames u k := by
  unfold ownNames
  rw [hn, hf]
  simp only [testName, titleOf, reverts_first (s := Span.default) (s' := Span.default) (t := u) (t' := u) hf]

theorem condFns_retouched {skip : Bool} {encl encl' : List Ast} (he : Each (Swapped t t') (encl.map modName) (encl'.map modName)) {s s' : Span} {u u' : Str}
    (hu : Swapped t t' (camel u) (camel u')) {k k' : List Ast} (hn : k'.any Ast.isCondition = k.any Ast.isCondition) (hf : firstAction k' = firstAction k)
    (hc : (k'.filter Ast.isAction).flatMap commentLines = (k.filter Ast.isAction).flatMap commentLines) :
    Each (Retouched t t') (condFns skip (encl, .condition s u k)) (condFns skip (encl', .condition s' u' k')) := by
  have hn' : hasNested (.condition s' u' k') = hasNested (.condition s u k) := hn
  have ha : actionsOf (.condition s' u' k') = [] ↔ actionsOf (.condition s u k) = [] := by
    unfold actionsOf; simp only [kids]; rw [← firstAction_none, ← firstAction_none, hf]
  unfold condFns
  apply each_append'
  · simp only [hn']
    split
    · exact .cons ⟨rfl, rfl, .nil⟩ .nil
    · exact .nil
  · by_cases h : actionsOf (.condition s u k) = []
    · rw [if_pos h, if_pos (ha.2 h)]; exact .nil
    · rw [if_neg h, if_neg (fun h' => h (ha.1 h'))]
      refine .cons ⟨rfl, ?_, ?_⟩ .nil
      · simp only [condFn, bodyOf, commentsOf, actionsOf, kids, hc]
      · simp only [condFn, modList_getD, guards, List.map_append, hn']
        refine each_append' he ?_
        split
        · exact .cons hu .nil
        · exact .nil

theorem resited_fns {skip : Bool} {l l' : List Ast} (h : Resited l l') : ∀ {encl encl' : List Ast}, Each (Swapped t t') (encl.map modName) (encl'.map modName) →
    Each (Retouched t t') ((inScopeAll encl l).flatMap (condFns skip)) ((inScopeAll encl' l').flatMap (condFns skip)) ∧
    ((inScopeAll encl' l').flatMap (condFns skip)).map nameOf = ((inScopeAll encl l).flatMap (condFns skip)).map nameOf := by
  induction h with
  | done => intro _ _ _; exact ⟨.nil, rfl⟩
  | action _ _ ih =>
    intro encl encl' he
    rw [inScopeAll.eq_2, inScopeAll.eq_2]
    simp only [inScope, List.nil_append]
    exact ih he
  | @condition s s' u ks ks' l l' hk _ ihk ihl =>
    intro encl encl' he
    rw [inScopeAll.eq_2, inScopeAll.eq_2]
    simp only [inScope, List.cons_append, List.flatMap_cons, List.flatMap_append, List.map_append]
    obtain ⟨h1, h2⟩ := ihl he
    obtain ⟨h3, h4⟩ := ihk (encl := encl ++ [Ast.condition s u ks]) (encl' := encl' ++ [Ast.condition s' u ks'])
      (by rw [List.map_append, List.map_append]; exact each_append' he (.cons (.inl rfl) .nil))
    refine ⟨each_append' (condFns_retouched he (.inl rfl) (resited_nested hk) (resited_first hk) (resited_comments hk)) (each_append' h3 h1), ?_⟩
    rw [condFns_names, condFns_names, ownNames_same (resited_nested hk) (resited_first hk), h2, h4]

theorem retitled_fns {skip : Bool} {k l l' : List Ast} (h : Retitled t t' k l l') : ∀ {encl encl' : List Ast}, Each (Swapped t t') (encl.map modName) (encl'.map modName) →
    Each (Retouched t t') ((inScopeAll encl l).flatMap (condFns skip)) ((inScopeAll encl' l').flatMap (condFns skip)) ∧
    ∃ A B, ((inScopeAll encl l).flatMap (condFns skip)).map nameOf = A ++ ownNames t k ++ B ∧
      ((inScopeAll encl' l').flatMap (condFns skip)).map nameOf = A ++ ownNames t' k ++ B := by
  induction h with
  | @here s s' k' l l' hk hl =>
    intro encl encl' he
    rw [inScopeAll.eq_2, inScopeAll.eq_2]
    simp only [inScope, List.cons_append, List.flatMap_cons, List.flatMap_append, List.map_append]
    obtain ⟨h1, h2⟩ := resited_fns (skip := skip) hl he
    obtain ⟨h3, h4⟩ := resited_fns (skip := skip) hk (encl := encl ++ [Ast.condition s t k]) (encl' := encl' ++ [Ast.condition s' t' k'])
      (by rw [List.map_append, List.map_append]; exact each_append' he (.cons (.inr ⟨rfl, rfl⟩) .nil))
    refine ⟨each_append' (condFns_retouched he (.inr ⟨rfl, rfl⟩) (resited_nested hk) (resited_first hk) (resited_comments hk)) (each_append' h3 h1), [],
      ((inScopeAll (encl ++ [Ast.condition s t k]) k).flatMap (condFns skip)).map nameOf ++ ((inScopeAll encl l).flatMap (condFns skip)).map nameOf, ?_, ?_⟩
    · rw [condFns_names]; rfl
    · rw [condFns_names, ownNames_same (resited_nested hk) (resited_first hk), h2, h4]; rfl
  | @inside s s' u ks ks' l l' hk hl ih =>
    intro encl encl' he
    rw [inScopeAll.eq_2, inScopeAll.eq_2]
    simp only [inScope, List.cons_append, List.flatMap_cons, List.flatMap_append, List.map_append]
    obtain ⟨h1, h2⟩ := resited_fns (skip := skip) hl he
    obtain ⟨h3, A, B, h4, h5⟩ := ih (encl := encl ++ [Ast.condition s u ks]) (encl' := encl' ++ [Ast.condition s' u ks'])
      (by rw [List.map_append, List.map_append]; exact each_append' he (.cons (.inl rfl) .nil))
    refine ⟨each_append' (condFns_retouched he (.inl rfl) (retitled_any hk) (retitled_first hk) (retitled_comments hk)) (each_append' h3 h1),
      ownNames u ks ++ A, B ++ ((inScopeAll encl l).flatMap (condFns skip)).map nameOf, ?_, ?_⟩
    · rw [condFns_names, h4]; simp only [List.append_assoc]
    · rw [condFns_names, ownNames_same (retitled_any hk) (retitled_first hk), h2, h5]; simp only [List.append_assoc]
  | @later a a' l l' ha _ ih =>
    intro encl encl' he
    rw [inScopeAll.eq_2, inScopeAll.eq_2]
    simp only [List.flatMap_append, List.map_append]
    obtain ⟨h1, h2⟩ := resited_fns (skip := skip) ha he
    simp only [inScopeAll, List.append_nil] at h1 h2
    obtain ⟨h3, A, B, h4, h5⟩ := ih he
    refine ⟨each_append' h1 h3, ((inScope encl a).flatMap (condFns skip)).map nameOf ++ A, B, ?_, ?_⟩
    · rw [h4]; simp only [List.append_assoc]
    · rw [h5, h2]; simp only [List.append_assoc]

theorem expected_split (skip : Bool) (a : Ast) (l : List Ast) : expected skip (a :: l) = expected skip [a] ++ expected skip l := by
  simp [expected]

theorem expected_condition (skip : Bool) (s : Span) (u : Str) (k : List Ast) :
    expected skip [.condition s u k] = (inScopeAll [] [.condition s u k]).flatMap (condFns skip) := by
  simp [expected, inScopeAll, Ast.isAction]

theorem expected_resited {skip : Bool} {l l' : List Ast} (h : Resited l l') :
    Each (Retouched t t') (expected skip l) (expected skip l') ∧ (expected skip l').map nameOf = (expected skip l).map nameOf := by
  induction h with
  | done => exact ⟨.nil, rfl⟩
  | @action s s' u ds ds' l l' hd _ ih =>
    rw [expected_split skip _ l, expected_split skip _ l', List.map_append, List.map_append, ih.2]
    refine ⟨each_append' (.cons ⟨rfl, ?_, .nil⟩ .nil) ih.1, rfl⟩
    simp only [actFn, bodyOf, commentLines, titleOf, kids, hd]
  | @condition s s' u ks ks' l l' hk hl _ ih =>
    rw [expected_split skip _ l, expected_split skip _ l', List.map_append, List.map_append, ih.2, expected_condition, expected_condition]
    obtain ⟨h1, h2⟩ := resited_fns (skip := skip) (t := t) (t' := t') (l := [.condition s u ks]) (l' := [.condition s' u ks']) (.condition hk .done) (encl := []) (encl' := []) .nil
    exact ⟨each_append' h1 ih.1, by rw [h2]⟩

theorem expected_retitled {skip : Bool} {k l l' : List Ast} (h : Retitled t t' k l l') :
    Each (Retouched t t') (expected skip l) (expected skip l') ∧
    ∃ A B, (expected skip l).map nameOf = A ++ ownNames t k ++ B ∧ (expected skip l').map nameOf = A ++ ownNames t' k ++ B := by
  induction h with
  | @here s s' k' l l' hk hl =>
    obtain ⟨h1, h2⟩ := expected_resited (skip := skip) (t := t) (t' := t') hl
    obtain ⟨h3, A, B, h4, h5⟩ := retitled_fns (skip := skip) (Retitled.here (t := t) (t' := t') (s := s) (s' := s') hk .done) (encl := []) (encl' := []) .nil
    rw [expected_split skip _ l, expected_split skip _ l', List.map_append, List.map_append, h2, expected_condition, expected_condition, h4, h5]
    exact ⟨each_append' h3 h1, A, B ++ (expected skip l).map nameOf, by simp only [List.append_assoc], by simp only [List.append_assoc]⟩
  | @inside s s' u ks ks' l l' hk hl _ =>
    obtain ⟨h1, h2⟩ := expected_resited (skip := skip) (t := t) (t' := t') hl
    obtain ⟨h3, A, B, h4, h5⟩ := retitled_fns (skip := skip) (Retitled.inside (s := s) (s' := s') (u := u) hk .done) (encl := []) (encl' := []) .nil
    rw [expected_split skip _ l, expected_split skip _ l', List.map_append, List.map_append, h2, expected_condition, expected_condition, h4, h5]
    exact ⟨each_append' h3 h1, A, B ++ (expected skip l).map nameOf, by simp only [List.append_assoc], by simp only [List.append_assoc]⟩
  | @later a a' l l' ha _ ih =>
    obtain ⟨h1, h2⟩ := expected_resited (skip := skip) (t := t) (t' := t') ha
    obtain ⟨h3, A, B, h4, h5⟩ := ih
    rw [expected_split skip a l, expected_split skip a' l', List.map_append, List.map_append, h2, h4, h5]
    exact ⟨each_append' h1 h3, (expected skip [a]).map nameOf ++ A, B, by simp only [List.append_assoc], by simp only [List.append_assoc]⟩

/-- **C108.** Two files with one tree each, differing only in the title of one condition: the functions are the same in the same order, except that the modifier and
the test of this condition have other names, and that the modifier is replaced where tests carry it. -/
theorem C108_functions [LawfulUcd] {order order' : HashOrder} {text text' : Str} {ast ast' : Ast} (h : parse order text = .ok [ast])
    (h' : parse order' text' = .ok [ast']) {k : List Ast} (he : Retitled t t' k (kids ast) (kids ast')) (cfg : Config) :
    ∃ fns fns', translate order cfg text = .ok ⟨[⟨titleOf ast, fns⟩]⟩ ∧ translate order' cfg text' = .ok ⟨[⟨titleOf ast', fns'⟩]⟩ ∧
      Each (Retouched t t') fns fns' ∧
      ∃ A B, fns.map nameOf = A ++ ownNames t k ++ B ∧ fns'.map nameOf = A ++ ownNames t' k ++ B :=
  ⟨_, _, translate_single h cfg, translate_single h' cfg, expected_retitled he⟩

/-- The functions that a replacement of names leaves alone. -/
theorem kept_fns {fns fns' : List HFn} {A N N' B : List (FnTy × Str)} (e : fns.map nameOf = A ++ N ++ B) (e' : fns'.map nameOf = A ++ N' ++ B) :
    ∃ mid : List HFn, mid.map nameOf = A ++ B ∧ (mid.map nameOf).Sublist (fns.map nameOf) ∧ (mid.map nameOf).Sublist (fns'.map nameOf) ∧
      (Distinct fns' → ∀ f ∈ fns', nameOf f ∉ mid.map nameOf ↔ nameOf f ∈ N') := by
  obtain ⟨l1, l2, rfl, h1, h2⟩ := List.map_eq_append_iff.1 e
  obtain ⟨l3, l4, rfl, h3, h4⟩ := List.map_eq_append_iff.1 h1
  refine ⟨l3 ++ l2, by rw [List.map_append, h3, h2], ?_, ?_, ?_⟩
  · rw [e, List.map_append, h3, h2]
    exact List.Sublist.append (List.sublist_append_left _ _) (.refl _)
  · rw [e', List.map_append, h3, h2]
    exact List.Sublist.append (List.sublist_append_left _ _) (.refl _)
  · intro hd f hf
    have hnd := distinct_nodup hd
    have hm := List.mem_map_of_mem (f := nameOf) hf
    rw [e'] at hnd hm
    rw [List.map_append, h3, h2]
    simp only [List.mem_append] at hm ⊢
    constructor
    · intro h; rcases hm with (hm | hm) | hm
      · exact absurd (.inl hm) h
      · exact hm
      · exact absurd (.inr hm) h
    · intro hN
      rw [List.append_assoc, List.nodup_append] at hnd
      obtain ⟨_, g1, g2⟩ := hnd
      rw [List.nodup_append] at g1
      rintro (h | h)
      · exact g2 _ h _ (List.mem_append_left _ hN) rfl
      · exact g1.2.2 _ hN _ h rfl

/-- **C108, checking.** If the Solidity file conforms to the tree, then after retitling a condition exactly the functions of this condition are reported to be missing (unless functions of the new names
happen to be there); that tests below the condition carry the modifier of the old name is not reported. -/
theorem C108_check [LawfulUcd] {order order' : HashOrder} {text text' : Str} {ast ast' : Ast} (h : parse order text = .ok [ast])
    (h' : parse order' text' = .ok [ast']) {k : List Ast} (he : Retitled t t' k (kids ast) (kids ast')) (cfg : Config)
    {ctx : Context} {hir' : HRoot} (ht : translate order cfg text = .ok ctx.hir) (ht' : translate order' cfg text' = .ok hir')
    (hc : checkCtx ctx = .ok []) {n : Str} {fns fns' : List HFn} (hh : ctx.hir = ⟨[⟨n, fns⟩]⟩) (hh' : hir' = ⟨[⟨n, fns'⟩]⟩) (hd : Distinct fns')
    (hnew : ∀ s, FirstContract ctx.pt s → ∀ f ∈ fns', nameOf f ∈ ownNames t' k → ¬ Present s.parts f) :
    ∃ vs, checkCtx { ctx with hir := hir' } = .ok vs ∧ Increasing (vs.filterMap missingIdx) ∧
      ∀ v, v ∈ vs ↔ ∃ f i, fns'[i]? = some f ∧ nameOf f ∈ ownNames t' k ∧ ¬ (ctx.skipModifiers = true ∧ f.ty = .modifier) ∧
        v = ⟨.matchingFunctionMissing f i, .code ctx.tree f.span.start.line⟩ := by
  rw [translate_single h, hh] at ht
  rw [translate_single h', hh'] at ht'
  simp only [Res.ok.injEq, HRoot.mk.injEq, List.cons.injEq, HContract.mk.injEq, and_true] at ht ht'
  obtain ⟨rfl, rfl⟩ := ht
  obtain ⟨hn, rfl⟩ := ht'
  rw [hh']
  obtain ⟨_, A, B, e, e'⟩ := expected_retitled (skip := cfg.emitVmSkip) he
  obtain ⟨mid, _, m1, m2, m3⟩ := kept_fns e e'
  have hc' := check_less hh hc m1
  obtain ⟨vs, g1, g2, g3⟩ := check_more (ctx := { ctx with hir := ⟨[⟨titleOf ast, mid⟩]⟩ }) rfl hc' m2 hd
    (fun s hs f hf hm => hnew s hs f hf ((m3 hd f hf).1 hm))
  refine ⟨vs, g1, g2, fun v => (g3 v).trans ?_⟩
  constructor
  · rintro ⟨f, i, k1, k2, k3⟩; exact ⟨f, i, k1, (m3 hd f (List.mem_of_getElem? k1)).1 k2, k3⟩
  · rintro ⟨f, i, k1, k2, k3⟩; exact ⟨f, i, k1, (m3 hd f (List.mem_of_getElem? k1)).2 k2, k3⟩

/-- **C108, fixing.** In a valid file that conforms to the tree, `check --fix` after retitling a condition adds exactly the functions of this condition under their new names, keeps everything else
(also the functions of the old names, and the modifiers the tests below carry), and ends with a file that conforms to the new tree. -/
theorem C108_fix [LawfulUcd] {P : SolParser} {G : SolGrammar} (hG : G.HasGenerated) (hP : Reader P G) {order order' : HashOrder}
    {text text' : Str} {ast ast' : Ast} (h : parse order text = .ok [ast])
    (h' : parse order' text' = .ok [ast']) {k : List Ast} (he : Retitled t t' k (kids ast) (kids ast')) (cfg : Config)
    {ctx : Context} {hir' : HRoot} (ht : translate order cfg text = .ok ctx.hir) (ht' : translate order' cfg text' = .ok hir')
    (hc : checkCtx ctx = .ok []) {n : Str} {fns fns' : List HFn} (hh : ctx.hir = ⟨[⟨n, fns⟩]⟩) (hh' : hir' = ⟨[⟨n, fns'⟩]⟩) (hd : Distinct fns')
    (hf : ∀ f ∈ fns', ReadableFn f) {L : Layout} (hL : L.Fits G) (hsrc : ctx.src = L.text) (hpt : P ctx.src = some ctx.pt) (hb : '{' ∉ L.header)
    (hnew : ∀ f ∈ fns', nameOf f ∈ ownNames t' k → ¬ Present L.parts f) (hm : ¬ (ctx.skipModifiers = true ∧ BehindMissing fns' L)) :
    ∃ (L' : Layout) (u : SolUnit) (c : Nat), fixContext P { ctx with hir := hir' } = .ok ({ ctx with hir := hir', src := L'.text, pt := u }, c) ∧ L'.Fits G ∧
      FirstContract u L'.contract ∧ L'.before = L.before ∧ L'.header = L.header ∧ L'.rest = L.rest ∧ L.text.Sublist L'.text ∧
      (L.segs.map Prod.fst).Sublist (L'.segs.map Prod.fst) ∧
      (L'.segs.map Prod.fst).Perm (L.segs.map Prod.fst ++
        (fns'.filter (fun f => nameOf f ∈ ownNames t' k ∧ ¬ (ctx.skipModifiers = true ∧ f.ty = .modifier))).map newSeg) ∧
      checkCtx { ctx with hir := hir', src := L'.text, pt := u } = .ok [] := by
  rw [translate_single h, hh] at ht
  rw [translate_single h', hh'] at ht'
  simp only [Res.ok.injEq, HRoot.mk.injEq, List.cons.injEq, HContract.mk.injEq, and_true] at ht ht'
  obtain ⟨rfl, rfl⟩ := ht
  obtain ⟨hn, rfl⟩ := ht'
  obtain ⟨_, A, B, e, e'⟩ := expected_retitled (skip := cfg.emitVmSkip) he
  obtain ⟨mid, _, m1, m2, m3⟩ := kept_fns e e'
  have hc' := check_less hh hc m1
  obtain ⟨L', u, c, g1, g2, g3, g4, g5, g6, g7, g8, g9, _, g10, _⟩ := fix_more hG hP (ctx := { ctx with hir := ⟨[⟨titleOf ast, mid⟩]⟩ }) hc' rfl hh' hd m2 hf hL hsrc hpt hb
    (fun f hf hm => hnew f hf ((m3 hd f hf).1 hm)) hm
  refine ⟨L', u, c, g1, g2, g3, g4, g5, g6, g7, g8, ?_, g10⟩
  rw [List.filter_congr (q := fun f => decide (nameOf f ∈ ownNames t' k ∧ ¬ (ctx.skipModifiers = true ∧ f.ty = .modifier)))
    (fun f hf => decide_eq_decide.2 (by rw [m3 hd f hf]))] at g9
  exact g9

end
end
end Bulloak
