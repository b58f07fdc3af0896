import Verif.Props.Join
import Verif.Spec.Replace
/-! # Replacing some of the trees of a file (C134) -/

namespace Bulloak
open Spec

section
variable [U : Ucd] [LawfulUcd]

omit [LawfulUcd] in
private theorem from_tree {order : HashOrder} {skip : Bool} {n : Str} {X : List Str} {x : List Ast} {fx : List Str} (hX : Each (fun b a => parseOne order b = .ok a) X x)
    (hs : Each (fun a f => Splits (titleOf a) n f) x fx) {f : HFn} (h : f ∈ prefixedFns skip (x.zip fx)) : ∃ b ∈ X, FromTree order skip n b f := by
  obtain ⟨p, hp, hf⟩ := List.mem_flatMap.1 h
  have := zip_mem hs hp
  obtain ⟨b, hb, hpb⟩ := each_mem_right hX this.1
  exact ⟨b, hb, p.1, p.2, hpb, this.2.2, List.mem_flatMap.2 ⟨p, List.mem_singleton_self p, hf⟩⟩

/-- The functions of a file with the trees of `A`, `X` and `C`. -/
private theorem three_parts {order : HashOrder} {text : Str} {A X C : List Str} (hb : Trees text (A ++ X ++ C)) (hl : 2 ≤ (A ++ X ++ C).length) {cfg : Config} {n : Str} {fns : List HFn}
    (ht : translate order cfg text = .ok ⟨[⟨n, fns⟩]⟩) :
    ∃ a c fa fc, Each (fun b a => parseOne order b = .ok a) A a ∧ Each (fun b a => parseOne order b = .ok a) C c ∧
      Each (fun a f => Splits (titleOf a) n f) a fa ∧ Each (fun a f => Splits (titleOf a) n f) c fc ∧
      (∀ f ∈ fns, KindByName f) ∧ (∀ f ∈ prefixedFns cfg.emitVmSkip (c.zip fc), KindByName f) ∧
      ∃ Q, (∀ f ∈ Q, ∃ b ∈ X, FromTree order cfg.emitVmSkip n b f) ∧
        fns = firstOnly (prefixedFns cfg.emitVmSkip (a.zip fa)) ++ Q ++ (firstOnly (prefixedFns cfg.emitVmSkip (c.zip fc))).filter
          (fun g => g.identifier ∉ (firstOnly (prefixedFns cfg.emitVmSkip (a.zip fa)) ++ Q).map HFn.identifier) := by
  obtain ⟨asts, h, he⟩ := translated_asts hb ht
  obtain ⟨ax, c, rfl, hax, hc⟩ := each_split_left he
  obtain ⟨a, x, rfl, ha, hx⟩ := each_split_left hax
  have hlen := each_len he
  obtain ⟨_, fs, hs, rfl⟩ := (several_iff h (by omega)).1 ht
  have hacc := fun (p : Ast × Str) (hp : p ∈ (a ++ x ++ c).zip fs) => parse_accepted h _ (zip_mem hs hp).1
  obtain ⟨fax, fc, rfl, hsax, hsc⟩ := splits_split hs
  obtain ⟨fa, fx, rfl, hsa, hsx⟩ := splits_split hsax
  have e : (a ++ x ++ c).zip (fa ++ fx ++ fc) = (a.zip fa ++ x.zip fx) ++ c.zip fc := by
    rw [List.zip_append (each_len hsax), List.zip_append (each_len hsa)]
  rw [e] at hacc ⊢
  refine ⟨a, c, fa, fc, ha, hc, hsa, hsc, fun f hf => prefixed_kind hacc ((firstOnly_sublist _).subset hf),
    fun f hf => prefixed_kind (fun p hp => hacc p (List.mem_append_right _ hp)) hf,
    (firstOnly (prefixedFns cfg.emitVmSkip (x.zip fx))).filter (fun g => g.identifier ∉ (firstOnly (prefixedFns cfg.emitVmSkip (a.zip fa))).map HFn.identifier), ?_, ?_⟩
  · intro f hf
    exact from_tree hx hsx ((firstOnly_sublist _).subset (List.mem_filter.1 hf).1)
  · rw [firstOnly_join, firstOnly_join]

omit U [LawfulUcd] in
private theorem each_fun {α β : Type} {R : α → β → Prop} (hR : ∀ a b b', R a b → R a b' → b = b') {l : List α} {m m' : List β} (h : Each R l m) (h' : Each R l m') : m = m' := by
  induction h generalizing m' with
  | nil => cases h'; rfl
  | cons r _ ih => cases h' with
    | cons r' h' => rw [hR _ _ _ r r', ih h']

/-- The parts of two files with the same trees, apart from some neighbouring ones. -/
private theorem replaced {order : HashOrder} {text text' : Str} {A X X' C : List Str} (hb : Trees text (A ++ X ++ C)) (hb' : Trees text' (A ++ X' ++ C)) (hk : A ++ C ≠ [])
    (hl : 2 ≤ (A ++ X ++ C).length) (hl' : 2 ≤ (A ++ X' ++ C).length) {cfg : Config} {n n' : Str} {fns fns' : List HFn} (ht : translate order cfg text = .ok ⟨[⟨n, fns⟩]⟩)
    (ht' : translate order cfg text' = .ok ⟨[⟨n', fns'⟩]⟩) :
    n' = n ∧ (∀ f ∈ fns, KindByName f) ∧ ∃ P Q Q' R : List HFn, (∀ f ∈ P, ∃ b ∈ A, FromTree order cfg.emitVmSkip n b f) ∧ (∀ f ∈ R, ∃ b ∈ C, FromTree order cfg.emitVmSkip n b f) ∧
      (∀ f ∈ Q, ∃ b ∈ X, FromTree order cfg.emitVmSkip n b f) ∧ (∀ f ∈ Q', ∃ b ∈ X', FromTree order cfg.emitVmSkip n b f) ∧ (∀ f ∈ R, KindByName f) ∧
      fns = P ++ Q ++ R.filter (fun g => g.identifier ∉ (P ++ Q).map HFn.identifier) ∧ fns' = P ++ Q' ++ R.filter (fun g => g.identifier ∉ (P ++ Q').map HFn.identifier) := by
  obtain ⟨a, c, fa, fc, h1, h2, h3, h4, h5, h6, Q, h7, h8⟩ := three_parts hb hl ht
  obtain ⟨a', c', fa', fc', k1, k2, k3, k4, _, _, Q', k7, k8⟩ := three_parts hb' hl' ht'
  have func : ∀ (b : Str) (a a' : Ast), parseOne order b = .ok a → parseOne order b = .ok a' → a = a' := fun b a a' r r' => Res.ok.inj (r.symm.trans r')
  obtain rfl := each_fun func h1 k1
  obtain rfl := each_fun func h2 k2
  obtain ⟨rfl, g1⟩ := splits_same h3 k3
  obtain ⟨rfl, g2⟩ := splits_same h4 k4
  have hn : n = n' := by
    by_cases ha : a = []
    · refine g2 fun hc => hk ?_
      subst ha
      subst hc
      cases h1
      cases h2
      rfl
    · exact g1 ha
  subst hn
  exact ⟨rfl, h5, firstOnly (prefixedFns cfg.emitVmSkip (a.zip fa)), Q, Q', firstOnly (prefixedFns cfg.emitVmSkip (c.zip fc)),
    fun f hf => from_tree h1 h3 ((firstOnly_sublist _).subset hf), fun f hf => from_tree h2 h4 ((firstOnly_sublist _).subset hf), h7, k7,
    fun f hf => h6 f ((firstOnly_sublist _).subset hf), h8, k8⟩

/-- **C134.** Replacing, adding or removing neighbouring trees of a file, so that it has at least two before and after, and one that stays: the functions of the trees in front stay exactly
as they are, and of those of the trees behind, at most those are left out whose name a tree further up has too. -/
theorem C134_functions {order : HashOrder} {text text' : Str} {A X X' C : List Str} (hb : Trees text (A ++ X ++ C)) (hb' : Trees text' (A ++ X' ++ C)) (hk : A ++ C ≠ [])
    (hl : 2 ≤ (A ++ X ++ C).length) (hl' : 2 ≤ (A ++ X' ++ C).length) {cfg : Config} {n n' : Str} {fns fns' : List HFn} (ht : translate order cfg text = .ok ⟨[⟨n, fns⟩]⟩)
    (ht' : translate order cfg text' = .ok ⟨[⟨n', fns'⟩]⟩) :
    n' = n ∧ ∃ P Q Q' R : List HFn, (∀ f ∈ P, ∃ b ∈ A, FromTree order cfg.emitVmSkip n b f) ∧ (∀ f ∈ R, ∃ b ∈ C, FromTree order cfg.emitVmSkip n b f) ∧
      (∀ f ∈ Q, ∃ b ∈ X, FromTree order cfg.emitVmSkip n b f) ∧ (∀ f ∈ Q', ∃ b ∈ X', FromTree order cfg.emitVmSkip n b f) ∧
      fns = P ++ Q ++ R.filter (fun g => g.identifier ∉ (P ++ Q).map HFn.identifier) ∧ fns' = P ++ Q' ++ R.filter (fun g => g.identifier ∉ (P ++ Q').map HFn.identifier) := by
  obtain ⟨hn, _, P, Q, Q', R, h1, h2, h3, h4, _, h6, h7⟩ := replaced hb hb' hk hl hl' ht ht'
  exact ⟨hn, P, Q, Q', R, h1, h2, h3, h4, h6, h7⟩

/-- **C134**, checking: if a Solidity file conforms to the trees before, then all that `check` reports for the trees after are functions out of order and missing functions of the new trees
which the trees before did not have. -/
theorem C134_check {order : HashOrder} {text text' : Str} {A X X' C : List Str} (hb : Trees text (A ++ X ++ C)) (hb' : Trees text' (A ++ X' ++ C)) (hk : A ++ C ≠ [])
    (hl : 2 ≤ (A ++ X ++ C).length) (hl' : 2 ≤ (A ++ X' ++ C).length) {cfg : Config} {ctx : Context} (ht : translate order cfg text = .ok ctx.hir) {n n' : Str} {fns fns' : List HFn}
    (hh : ctx.hir = ⟨[⟨n, fns⟩]⟩) (ht' : translate order cfg text' = .ok ⟨[⟨n', fns'⟩]⟩) (hc : checkCtx ctx = .ok [])
    {vs : List Violation} (hv : checkCtx { ctx with hir := ⟨[⟨n', fns'⟩]⟩ } = .ok vs) :
    ∀ v ∈ vs, (∃ g i j, v.kind = .functionOrderMismatch g i j) ∨
      ∃ f i, v.kind = .matchingFunctionMissing f i ∧ nameOf f ∉ fns.map nameOf ∧ ∃ b ∈ X', FromTree order cfg.emitVmSkip n b f := by
  rw [hh] at ht
  obtain ⟨rfl, hkind, P, Q, Q', R, _, _, _, hQ', hR, rfl, rfl⟩ := replaced hb hb' hk hl hl' ht ht'
  obtain ⟨s, h1, h2, h3, h4⟩ := (C37_silent_iff hh).1 hc
  obtain ⟨v1, v3, g1, rfl, g3⟩ := check_report (ctx := { ctx with hir := ⟨[⟨n', _⟩]⟩ }) rfl h1 hv
  intro v hvm
  rcases List.mem_append.1 hvm with hvm | hvm
  · rcases names_report g1 with ⟨rfl, _⟩ | ⟨m, _, g4, g5, _⟩
    · cases hvm
    · exact absurd (h2 m g4) g5
  rcases List.mem_append.1 hvm with hvm | hvm
  · obtain ⟨f, i, _, hf, rfl, hnp, hsk⟩ := (presentAndMissing_missing _ s _ 0).1 v hvm
    have hno : nameOf f ∉ (P ++ Q ++ R.filter (fun g => g.identifier ∉ (P ++ Q).map HFn.identifier)).map nameOf := by
      intro hm
      obtain ⟨f0, hf0, e0⟩ := List.mem_map.1 hm
      rcases h3 f0 hf0 with h4 | ⟨h4, h5⟩
      · exact hnp ((present_name e0 _).1 h4)
      · exact hsk ⟨h4, (congrArg Prod.fst e0).symm.trans h5⟩
    refine .inr ⟨f, i, rfl, hno, ?_⟩
    rcases List.mem_append.1 (List.mem_of_getElem? hf) with hm | hm
    · rcases List.mem_append.1 hm with hm | hm
      · exact absurd (List.mem_map_of_mem (f := nameOf) (by simp [hm])) hno
      · exact hQ' f hm
    · have hfR := (List.mem_filter.1 hm).1
      refine absurd ?_ hno
      by_cases hi : f.identifier ∈ (P ++ Q).map HFn.identifier
      · obtain ⟨g, hg, he⟩ := List.mem_map.1 hi
        refine List.mem_map.2 ⟨g, List.mem_append_left _ hg, Prod.ext ?_ he⟩
        exact kindByName_ty (hkind g (List.mem_append_left _ hg)) (hR f hfR) he
      · exact List.mem_map_of_mem (List.mem_append_right _ (List.mem_filter.2 ⟨hfR, by simpa using hi⟩))
  · obtain ⟨p, _, g, line, _, _, rfl⟩ := each_mem_right g3 hvm
    exact .inl ⟨_, _, _, rfl⟩

end

/-! ## Cases -/

attribute [local instance] asciiUcd

private def blockF : Str := c!"A::f\n└── when x\n    └── when y\n        └── it a"
private def blockG : Str := c!"A::g\n└── when w\n    └── when u\n        └── it b"
private def blockG' : Str := c!"A::g\n├── it c\n└── when v\n    └── when x\n        └── it b"
private def blockH : Str := c!"A::h\n└── when w\n    └── when z\n        └── it d"

private def trio : Str := blockF ++ c!"\n\n" ++ blockG ++ c!"\n\n" ++ blockH
private def trio' : Str := blockF ++ c!"\n\n" ++ blockG' ++ c!"\n\n" ++ blockH

set_option maxRecDepth 16000 in
private theorem trio_split : splitTrees trio = [blockF] ++ [blockG] ++ [blockH] := by cbv
set_option maxRecDepth 16000 in
private theorem trio_split' : splitTrees trio' = [blockF] ++ [blockG'] ++ [blockH] := by cbv
set_option maxRecDepth 16000 in
private theorem trio_translate : translate id .default trio = .ok ⟨[treeOf trio]⟩ := treeOf_eq (by cbv)
set_option maxRecDepth 16000 in
private theorem trio_translate' : translate id .default trio' = .ok ⟨[treeOf trio']⟩ := treeOf_eq (by cbv)
set_option maxRecDepth 16000 in
/-- `whenW` is declared by the second tree, and by the third once the second does not need it. -/
private theorem trio_names : ((treeOf trio).children.map HFn.identifier, (treeOf trio').children.map HFn.identifier) =
    ([c!"whenX", c!"test_FWhenY", c!"whenW", c!"test_GWhenU", c!"test_HWhenZ"], [c!"whenX", c!"test_FWhenY", c!"test_GC", c!"whenV", c!"test_GWhenX", c!"whenW", c!"test_HWhenZ"]) := by cbv

/-- A file for `trio`. -/
private def fileTrio : Layout := ⟨[], some c!"A", c!"contract A ", c!"\n",
  [(.fn .modifier (some c!"whenX") c!"modifier whenX() { _; }", c!"\n"), (fnSeg c!"test_FWhenY" c!"a();", c!"\n"), (.fn .modifier (some c!"whenW") c!"modifier whenW() { _; }", c!"\n"),
    (fnSeg c!"test_GWhenU" c!"b();", c!"\n"), (fnSeg c!"test_HWhenZ" c!"d();", c!"\n")], c!"\n"⟩

set_option maxRecDepth 16000 in
private theorem trio_check : checkCtx (caseOf trio fileTrio false) = .ok [] := by cbv
set_option maxRecDepth 16000 in
private theorem trio_check' : (match checkCtx { caseOf trio fileTrio false with hir := ⟨[treeOf trio']⟩ } with | .ok vs => vs.length | _ => 0) = 3 := by cbv

section
attribute [local irreducible] treeOf

/-- C134: the second tree is replaced; the functions of the first stay as they are, and those of the third. -/
example : ∃ P Q Q' R : List HFn, (∀ f ∈ P, ∃ b ∈ [blockF], FromTree id false (treeOf trio).identifier b f) ∧ (∀ f ∈ R, ∃ b ∈ [blockH], FromTree id false (treeOf trio).identifier b f) ∧
    (treeOf trio).children = P ++ Q ++ R.filter (fun g => g.identifier ∉ (P ++ Q).map HFn.identifier) ∧
    (treeOf trio').children = P ++ Q' ++ R.filter (fun g => g.identifier ∉ (P ++ Q').map HFn.identifier) := by
  haveI := lawful_ascii
  obtain ⟨_, P, Q, Q', R, h1, h2, _, _, h5, h6⟩ := C134_functions (trees_of_split trio_split) (trees_of_split trio_split') (by simp) (by simp) (by simp)
    (n := (treeOf trio).identifier) (fns := (treeOf trio).children) (n' := (treeOf trio').identifier) (fns' := (treeOf trio').children) trio_translate trio_translate'
  exact ⟨P, Q, Q', R, h1, h2, h5, h6⟩

/-- C134: three functions of the new tree are missing, nothing else is reported but functions out of order. -/
example : ∃ vs, vs.length = 3 ∧ checkCtx { caseOf trio fileTrio false with hir := ⟨[treeOf trio']⟩ } = .ok vs ∧ ∀ v ∈ vs, (∃ g i j, v.kind = .functionOrderMismatch g i j) ∨
    ∃ f i, v.kind = .matchingFunctionMissing f i ∧ nameOf f ∉ (treeOf trio).children.map nameOf ∧ FromTree id false (treeOf trio).identifier blockG' f := by
  haveI := lawful_ascii
  have h := trio_check'
  cases hv : checkCtx { caseOf trio fileTrio false with hir := ⟨[treeOf trio']⟩ } with
  | panic => rw [hv] at h; cases h
  | err e => exact nomatch e
  | ok vs =>
    rw [hv] at h
    refine ⟨vs, h, rfl, fun v hvm => ?_⟩
    rcases C134_check (trees_of_split trio_split) (trees_of_split trio_split') (by simp) (by simp) (by simp) (ctx := caseOf trio fileTrio false) trio_translate
      (caseOf_hir _ _ _) (n' := (treeOf trio').identifier) (fns' := (treeOf trio').children) trio_translate' trio_check hv v hvm with h1 | ⟨f, i, h1, h2, b, hb, h3⟩
    · exact .inl h1
    · rw [List.mem_singleton.1 hb] at h3
      exact .inr ⟨f, i, h1, h2, h3⟩

end
end Bulloak
