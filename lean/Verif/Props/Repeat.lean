import Verif.Props.TreeOrder
import Verif.Props.Again
/-! # A tree that is there twice (C130) -/

namespace Bulloak
open Spec

theorem each_split_left {α β : Type} {R : α → β → Prop} {a b : List α} {l : List β} (h : Each R (a ++ b) l) :
    ∃ l1 l2, l = l1 ++ l2 ∧ Each R a l1 ∧ Each R b l2 := by
  induction a generalizing l with
  | nil => exact ⟨[], l, rfl, .nil, h⟩
  | cons x a ih =>
    cases h with
    | @cons _ y _ l r h =>
      obtain ⟨l1, l2, rfl, h1, h2⟩ := ih h
      exact ⟨y :: l1, l2, rfl, .cons r h1, h2⟩

private theorem each_twice {α β : Type} {R : α → β → Prop} (hu : ∀ a b c, R a b → R a c → b = c) {A B C : List α} {b : α} :
    (∀ {l : List β}, Each R (A ++ b :: (B ++ C)) l → ∃ x a y z, l = x ++ a :: (y ++ z) ∧ x.length = A.length ∧ y.length = B.length ∧
      Each R (A ++ b :: (B ++ b :: C)) (x ++ a :: (y ++ a :: z))) ∧
    ∀ {l : List β}, Each R (A ++ b :: (B ++ b :: C)) l → ∃ x a y z, l = x ++ a :: (y ++ a :: z) ∧ x.length = A.length ∧ y.length = B.length ∧
      Each R (A ++ b :: (B ++ C)) (x ++ a :: (y ++ z)) := by
  constructor
  · intro l h
    obtain ⟨x, l2, rfl, h1, h2⟩ := each_split_left h
    cases h2 with
    | @cons _ a _ l2 r h2 =>
      obtain ⟨y, z, rfl, h3, h4⟩ := each_split_left h2
      exact ⟨x, a, y, z, rfl, (each_len h1).symm, (each_len h3).symm, each_append h1 (.cons r (each_append h3 (.cons r h4)))⟩
  · intro l h
    obtain ⟨x, l2, rfl, h1, h2⟩ := each_split_left h
    cases h2 with
    | @cons _ a _ l2 r h2 =>
      obtain ⟨y, l3, rfl, h3, h4⟩ := each_split_left h2
      cases h4 with
      | @cons _ a' _ z r' h4 =>
        obtain rfl := hu _ _ _ r r'
        exact ⟨x, a, y, z, rfl, (each_len h1).symm, (each_len h3).symm, each_append h1 (.cons r (each_append h3 h4))⟩

private theorem firstOnly_known {P Q Z : List HFn} (h : ∀ f ∈ Q, f.identifier ∈ P.map HFn.identifier) : firstOnly (P ++ (Q ++ Z)) = firstOnly (P ++ Z) := by
  rw [firstOnly_append, firstOnly_append Q, firstOnly_append P, List.filter_append]
  congr 1
  rw [List.filter_eq_nil_iff.2, List.nil_append, List.filter_filter]
  · apply List.filter_congr
    intro g _
    by_cases hg : g.identifier ∈ P.map HFn.identifier
    · simp only [hg, not_true, decide_false, Bool.false_and]
    · have : g.identifier ∉ Q.map HFn.identifier := by
        intro hq
        obtain ⟨f, hf, he⟩ := List.mem_map.1 hq
        exact hg (he ▸ h f hf)
      simp only [hg, this, not_false_eq_true, decide_true, Bool.true_and]
  · intro g hg
    simpa using h g ((firstOnly_sublist Q).subset hg)

section
variable [U : Ucd]

private theorem prefixed_twice {skip : Bool} {x y z : List (Ast × Str)} {p : Ast × Str} :
    firstOnly (prefixedFns skip (x ++ p :: (y ++ p :: z))) = firstOnly (prefixedFns skip (x ++ p :: (y ++ z))) := by
  have h := firstOnly_known (P := prefixedFns skip (x ++ p :: y)) (Q := prefixedFns skip [p]) (Z := prefixedFns skip z) (by
    intro f hf
    apply List.mem_map_of_mem
    rw [prefixed_mem] at hf ⊢
    obtain ⟨q, hq, hg⟩ := hf
    exact ⟨q, by rw [List.mem_singleton.1 hq]; simp, hg⟩)
  simp only [prefixedFns, ← List.flatMap_append] at h
  simpa [prefixedFns] using h

omit U in
private theorem zip_three {x y z : List Ast} {a : Ast} {fx fy fz : List Str} {f : Str} (h1 : fx.length = x.length) (h2 : fy.length = y.length) :
    (x ++ a :: (y ++ z)).zip (fx ++ f :: (fy ++ fz)) = x.zip fx ++ (a, f) :: (y.zip fy ++ z.zip fz) := by
  rw [List.zip_append h1.symm, List.zip_cons_cons, List.zip_append h2.symm]

variable [LawfulUcd]

private theorem translate_twice {order : HashOrder} {text text' : Str} {x y z : List Ast} {a : Ast} (h : parse order text = .ok (x ++ a :: (y ++ z)))
    (h' : parse order text' = .ok (x ++ a :: (y ++ a :: z))) (hl : 2 ≤ (x ++ a :: (y ++ z)).length) (cfg : Config) (r : HRoot) :
    translate order cfg text' = .ok r ↔ translate order cfg text = .ok r := by
  have hu : ∀ n, ∀ (a : Ast) f g, Splits (titleOf a) n f → Splits (titleOf a) n g → f = g := fun n a f g h1 h2 => (splits_unique h1 h2).2
  have hl' : 2 ≤ (x ++ a :: (y ++ a :: z)).length := by simp at hl ⊢; omega
  constructor
  · intro ht
    rcases translate_cases h' cfg with ⟨ast, e, _⟩ | ⟨e, _⟩ | ⟨_, n, fs, hn, hs, h4⟩ | ⟨_, n, A, a, B, e', ha, hA, hb, h4⟩
    · rw [e] at hl'; simp at hl'
    · rw [e] at hl'; simp at hl'
    · obtain ⟨fx, f, fy, fz, rfl, e1, e2, hs'⟩ := (each_twice (hu n)).2 hs
      rw [translate_good h (by omega) (by simp) hn hs', zip_three e1 e2, ← ht, h4, zip_three e1 e2 (z := a :: z) (fz := f :: fz), List.zip_cons_cons, prefixed_twice]
    · rw [h4] at ht; cases ht
  · intro ht
    rcases translate_cases h cfg with ⟨ast, e, _⟩ | ⟨e, _⟩ | ⟨_, n, fs, hn, hs, h4⟩ | ⟨_, n, A, a, B, e', ha, hA, hb, h4⟩
    · rw [e] at hl; simp at hl
    · rw [e] at hl; simp at hl
    · obtain ⟨fx, f, fy, fz, rfl, e1, e2, hs'⟩ := (each_twice (hu n)).1 hs
      rw [translate_good h' (by omega) (by simp) hn hs', zip_three e1 e2 (z := a :: z) (fz := f :: fz), List.zip_cons_cons, prefixed_twice, ← ht, h4, zip_three e1 e2]
    · rw [h4] at ht; cases ht

/-- **C130.** A tree that is there already adds nothing: in a file with at least two trees, any tree may be repeated further down. -/
theorem C130_translate {order : HashOrder} {text text' : Str} {A B C : List Str} {b : Str} (hb : Trees text (A ++ b :: (B ++ C)))
    (hb' : Trees text' (A ++ b :: (B ++ b :: C))) (hl : 2 ≤ (A ++ b :: (B ++ C)).length) (cfg : Config) (r : HRoot) :
    translate order cfg text' = .ok r ↔ translate order cfg text = .ok r := by
  have hs := split_trees hb
  have hs' := split_trees hb'
  have hu : ∀ b a c, parseOne order b = .ok a → parseOne order b = .ok c → a = c := fun b a c h1 h2 => Res.ok.inj (h1.symm.trans h2)
  have len : ∀ {l : List Ast}, Each (fun b a => parseOne order b = .ok a) (A ++ b :: (B ++ C)) l → 2 ≤ l.length := fun h => each_len h ▸ hl
  constructor
  · intro ht
    cases h : parse order text' with
    | panic => simp [translate, h, Res.mapErr] at ht
    | err e => simp [translate, h, Res.mapErr] at ht
    | ok asts =>
      have h1 := (C13_parse_ok order text' asts).1 h
      rw [hs'] at h1
      obtain ⟨x, a, y, z, rfl, _, _, h2⟩ := (each_twice hu).2 h1
      exact (translate_twice ((C13_parse_ok order text _).2 (hs ▸ h2)) h (len h2) cfg r).1 ht
  · intro ht
    cases h : parse order text with
    | panic => simp [translate, h, Res.mapErr] at ht
    | err e => simp [translate, h, Res.mapErr] at ht
    | ok asts =>
      have h1 := (C13_parse_ok order text asts).1 h
      rw [hs] at h1
      obtain ⟨x, a, y, z, rfl, _, _, h2⟩ := (each_twice hu).1 h1
      exact (translate_twice h ((C13_parse_ok order text' _).2 (hs' ▸ h2)) (len h1) cfg r).2 ht

/-- **C130**, code: both files have the same code, or both are rejected. -/
theorem C130_source {order : HashOrder} {text text' : Str} {A B C : List Str} {b : Str} (hb : Trees text (A ++ b :: (B ++ C)))
    (hb' : Trees text' (A ++ b :: (B ++ b :: C))) (hl : 2 ≤ (A ++ b :: (B ++ C)).length) (cfg : Config) :
    (∃ src, scaffoldSource order cfg text = .ok src ∧ scaffoldSource order cfg text' = .ok src) ∨
      ∃ e e', scaffoldSource order cfg text = .err e ∧ scaffoldSource order cfg text' = .err e' := by
  cases h : translate order cfg text with
  | panic => exact absurd h (C57_translate_never_panics order _ _)
  | ok r =>
    have h' := (C130_translate hb hb' hl cfg r).2 h
    exact .inl ⟨_, by simp only [scaffoldSource, h]; rfl, by simp only [scaffoldSource, h']; rfl⟩
  | err e =>
    cases h' : translate order cfg text' with
    | panic => exact absurd h' (C57_translate_never_panics order _ _)
    | ok r => rw [(C130_translate hb hb' hl cfg r).1 h'] at h; cases h
    | err e' => exact .inr ⟨e, e', ((C33_errors order cfg text).2 e).2 h, ((C33_errors order cfg text').2 e').2 h'⟩

/-- **C130**, commands: `check` ends in the same way if trees are repeated in some of the files. -/
theorem C130_exit {env : Env} {a : CheckArgs} {fs fs' : Fs} (hf : a.fix = false) (hs : ∀ t ∈ a.files, ∀ p, SolOf t p → fs'.state p = fs.state p)
    (ht : ∀ t ∈ a.files, fs'.state t = fs.state t ∨ ∃ text text' A B C b, fs.state t = .text text ∧ fs'.state t = .text text' ∧
      Trees text (A ++ b :: (B ++ C)) ∧ Trees text' (A ++ b :: (B ++ b :: C)) ∧ 2 ≤ (A ++ b :: (B ++ C)).length) :
    (checkRun env a fs').exit = (checkRun env a fs).exit := by
  have ho : ∀ t ∈ a.files, ∀ ctx, Opens env a.skipModifiers fs' t ctx ↔ Opens env a.skipModifiers fs t ctx := by
    intro t hta ctx
    rcases ht t hta with h | ⟨text, text', A, B, C, b, h1, h2, hb, hb', hl⟩
    · constructor
      · rintro ⟨x, hir, p, src, u, k1, k2, k3, k4, k5⟩
        exact ⟨x, hir, p, src, u, h ▸ k1, k2, k3, hs t hta p k3 ▸ k4, k5⟩
      · rintro ⟨x, hir, p, src, u, k1, k2, k3, k4, k5⟩
        exact ⟨x, hir, p, src, u, h.trans k1, k2, k3, (hs t hta p k3).trans k4, k5⟩
    · constructor
      · rintro ⟨x, hir, p, src, u, k1, k2, k3, k4, k5⟩
        rw [h2] at k1
        cases k1
        exact ⟨text, hir, p, src, u, h1, (C130_translate hb hb' hl _ _).1 k2, k3, hs t hta p k3 ▸ k4, k5⟩
      · rintro ⟨x, hir, p, src, u, k1, k2, k3, k4, k5⟩
        rw [h1] at k1
        cases k1
        exact ⟨text', hir, p, src, u, h2, (C130_translate hb hb' hl _ _).2 k2, k3, (hs t hta p k3).trans k4, k5⟩
  rcases C51_exit (env := env) (fs := fs) hf with ⟨h1, h2⟩ | ⟨h1, h2, t, ht, h3⟩ | ⟨h1, t, ht, ctx, h3, h4⟩ <;>
    rcases C51_exit (env := env) (a := a) (fs := fs') hf with ⟨g1, g2⟩ | ⟨g1, g2, t', ht', g3⟩ | ⟨g1, t', ht', ctx', g3, g4⟩ <;>
    rw [h1, g1]
  · obtain ⟨c, k1, k2⟩ := h2 t' ht'
    exact absurd k2 (g3 c ((ho t' ht' c).2 k1))
  · obtain ⟨c, k1, k2⟩ := h2 t' ht'
    rw [opens_same k1 ((ho t' ht' _).1 g3), g4] at k2
    cases k2
  · obtain ⟨c, k1, k2⟩ := g2 t ht
    exact absurd k2 (h3 c ((ho t ht c).1 k1))
  · exact absurd g4 (h2 t' ht' ctx' ((ho t' ht' _).1 g3))
  · obtain ⟨c, k1, k2⟩ := g2 t ht
    rw [opens_same ((ho t ht c).1 k1) h3, h4] at k2
    cases k2
  · exact absurd h4 (g2 t ht ctx ((ho t ht _).2 h3))

end

/-! ## Cases -/

attribute [local instance] asciiUcd

/-- The trees of `twoFile`, the first one repeated. -/
private def twoAgain : Str := c!"Foo::bar\n└── when a\n    ├── it x\n    └── when b\n        └── it y\n\nFoo::qux\n├── it works\n└── when a\n    └── given c\n        └── it should revert\n\nFoo::bar\n└── when a\n    ├── it x\n    └── when b\n        └── it y"

set_option maxRecDepth 16000 in
private theorem again_once : splitTrees twoFile =
    [c!"Foo::bar\n└── when a\n    ├── it x\n    └── when b\n        └── it y", c!"Foo::qux\n├── it works\n└── when a\n    └── given c\n        └── it should revert"] := by cbv
set_option maxRecDepth 16000 in
private theorem again_split : splitTrees twoAgain =
    [c!"Foo::bar\n└── when a\n    ├── it x\n    └── when b\n        └── it y", c!"Foo::qux\n├── it works\n└── when a\n    └── given c\n        └── it should revert",
      c!"Foo::bar\n└── when a\n    ├── it x\n    └── when b\n        └── it y"] := by cbv

private theorem again_trees : Trees twoFile ([] ++ c!"Foo::bar\n└── when a\n    ├── it x\n    └── when b\n        └── it y" ::
    ([c!"Foo::qux\n├── it works\n└── when a\n    └── given c\n        └── it should revert"] ++ [])) ∧
    Trees twoAgain ([] ++ c!"Foo::bar\n└── when a\n    ├── it x\n    └── when b\n        └── it y" ::
    ([c!"Foo::qux\n├── it works\n└── when a\n    └── given c\n        └── it should revert"] ++ c!"Foo::bar\n└── when a\n    ├── it x\n    └── when b\n        └── it y" :: [])) :=
  ⟨trees_of_split again_once, trees_of_split again_split⟩

section
attribute [local irreducible] treeOf astsOf contractOf twoContract

/-- C130 -/
example : translate id .default twoAgain = .ok ⟨[⟨twoContract.identifier, twoContract.children⟩]⟩ := by
  haveI := lawful_ascii
  exact (C130_translate again_trees.1 again_trees.2 (by simp) .default _).2 twoFile_translated

/-- C130 -/
example : ∃ src, scaffoldSource id .default twoFile = .ok src ∧ scaffoldSource id .default twoAgain = .ok src := by
  haveI := lawful_ascii
  rcases C130_source (order := id) again_trees.1 again_trees.2 (by simp) .default with h | ⟨e, _, h, _⟩
  · exact h
  · rw [(C33_errors id .default twoFile).2 e, twoFile_translated] at h
    cases h

/-- C130: on these two files `check` ends in the same way, whatever the Solidity file is. -/
example (env : Env) (sol : Str) : (checkRun env ⟨[⟨[], c!"a.tree"⟩], false, false, false⟩
      ⟨fun p => if p = ⟨[], c!"a.tree"⟩ then .text twoAgain else .text sol, fun _ => true⟩).exit =
    (checkRun env ⟨[⟨[], c!"a.tree"⟩], false, false, false⟩ ⟨fun p => if p = ⟨[], c!"a.tree"⟩ then .text twoFile else .text sol, fun _ => true⟩).exit := by
  haveI := lawful_ascii
  refine C130_exit rfl ?_ ?_
  · intro t ht p hp
    rw [List.mem_singleton.1 ht] at hp
    have : p ≠ ⟨[], c!"a.tree"⟩ := by rw [(solOf_iff _ _).1 hp]; decide +kernel
    simp [this]
  · intro t ht
    rw [List.mem_singleton.1 ht]
    exact .inr ⟨_, _, _, _, _, _, by simp, by simp, again_trees.1, again_trees.2, by simp⟩

end

set_option maxRecDepth 16000 in
/-- The condition is needed: a single tree gives a contract of its whole title … -/
example : (contractOf c!"Foo::bar\n└── it x").map (fun c => (c.identifier, c.children.map HFn.identifier)) = some (c!"Foo::bar", [c!"test_X"]) := by cbv
set_option maxRecDepth 16000 in
/-- … and two of them one of the part before the colons. -/
example : (contractOf c!"Foo::bar\n└── it x\n\nFoo::bar\n└── it x").map (fun c => (c.identifier, c.children.map HFn.identifier)) = some (c!"Foo", [c!"test_BarX"]) := by cbv

end Bulloak
