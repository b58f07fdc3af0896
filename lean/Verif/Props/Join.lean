import Verif.Props.Repeat
import Verif.Props.FixCases
import Verif.Props.EditCases
/-! # Joining two files (C132) -/

namespace Bulloak
open Spec

section
variable [U : Ucd] [LawfulUcd]

theorem several_iff {order : HashOrder} {text : Str} {asts : List Ast} (h : parse order text = .ok asts) (hl : 2 ≤ asts.length) {cfg : Config} {n : Str} {fns : List HFn} :
    translate order cfg text = .ok ⟨[⟨n, fns⟩]⟩ ↔
      ¬ Blank n ∧ ∃ fs, Each (fun a f => Splits (titleOf a) n f) asts fs ∧ fns = firstOnly (prefixedFns cfg.emitVmSkip (asts.zip fs)) := by
  constructor
  · intro ht
    rcases translate_cases h cfg with ⟨ast, rfl, _⟩ | ⟨rfl, _⟩ | ⟨_, m, fs, hn, hs, h4⟩ | ⟨_, m, A, a, B, e', ha, hA, hb, h4⟩
    · simp at hl
    · simp at hl
    · rw [h4] at ht
      simp only [Res.ok.injEq, HRoot.mk.injEq, List.cons.injEq, HContract.mk.injEq, and_true] at ht
      obtain ⟨rfl, rfl⟩ := ht
      exact ⟨hn, fs, hs, rfl⟩
    · rw [h4] at ht; cases ht
  · rintro ⟨hn, fs, hs, rfl⟩
    exact translate_good h (by omega) (by intro e; rw [e] at hl; simp at hl) hn hs

omit [LawfulUcd] in
theorem translated_asts {order : HashOrder} {text : Str} {bs : List Str} (hb : Trees text bs) {cfg : Config} {r : HRoot} (ht : translate order cfg text = .ok r) :
    ∃ asts, parse order text = .ok asts ∧ Each (fun b a => parseOne order b = .ok a) bs asts := by
  cases h : parse order text with
  | panic => simp [translate, h, Res.mapErr] at ht
  | err e => simp [translate, h, Res.mapErr] at ht
  | ok asts => exact ⟨asts, rfl, split_trees hb ▸ (C13_parse_ok order text asts).1 h⟩

omit [LawfulUcd] in
theorem firstOnly_join {skip : Bool} {a b : List (Ast × Str)} : firstOnly (prefixedFns skip (a ++ b)) =
    firstOnly (prefixedFns skip a) ++ (firstOnly (prefixedFns skip b)).filter (fun g => g.identifier ∉ (firstOnly (prefixedFns skip a)).map HFn.identifier) := by
  have e : prefixedFns skip (a ++ b) = prefixedFns skip a ++ prefixedFns skip b := List.flatMap_append
  rw [e, firstOnly_append]
  congr 1
  apply List.filter_congr
  intro g _
  simp only [mem_firstOnly_ids]

/-- **C132.** Two files with at least two trees each, and a file with the trees of the one followed by those of the other: it is accepted if and only if both are and are about the
same contract; it has the functions of the first, followed by those of the second whose names are new. -/
theorem C132_join {order : HashOrder} {text₁ text₂ text : Str} {bs₁ bs₂ : List Str} (hb₁ : Trees text₁ bs₁) (hb₂ : Trees text₂ bs₂) (hb : Trees text (bs₁ ++ bs₂))
    (hl₁ : 2 ≤ bs₁.length) (hl₂ : 2 ≤ bs₂.length) (cfg : Config) (n : Str) (fns : List HFn) :
    translate order cfg text = .ok ⟨[⟨n, fns⟩]⟩ ↔
      ∃ fns₁ fns₂, translate order cfg text₁ = .ok ⟨[⟨n, fns₁⟩]⟩ ∧ translate order cfg text₂ = .ok ⟨[⟨n, fns₂⟩]⟩ ∧
        fns = fns₁ ++ fns₂.filter (fun f => f.identifier ∉ fns₁.map HFn.identifier) := by
  constructor
  · intro ht
    obtain ⟨asts, h, he⟩ := translated_asts hb ht
    obtain ⟨a₁, a₂, rfl, he₁, he₂⟩ := each_split_left he
    have h₁ := (C13_parse_ok order text₁ a₁).2 (split_trees hb₁ ▸ he₁)
    have h₂ := (C13_parse_ok order text₂ a₂).2 (split_trees hb₂ ▸ he₂)
    have k₁ := each_len he₁
    have k₂ := each_len he₂
    obtain ⟨hn, fs, hs, rfl⟩ := (several_iff h (by rw [List.length_append]; omega)).1 ht
    obtain ⟨f₁, f₂, rfl, hs₁, hs₂⟩ := splits_split hs
    refine ⟨_, _, (several_iff h₁ (by omega)).2 ⟨hn, f₁, hs₁, rfl⟩, (several_iff h₂ (by omega)).2 ⟨hn, f₂, hs₂, rfl⟩, ?_⟩
    rw [List.zip_append (each_len hs₁), firstOnly_join]
  · rintro ⟨fns₁, fns₂, ht₁, ht₂, rfl⟩
    obtain ⟨a₁, h₁, he₁⟩ := translated_asts hb₁ ht₁
    obtain ⟨a₂, h₂, he₂⟩ := translated_asts hb₂ ht₂
    have k₁ := each_len he₁
    have k₂ := each_len he₂
    obtain ⟨hn, f₁, hs₁, rfl⟩ := (several_iff h₁ (by omega)).1 ht₁
    obtain ⟨_, f₂, hs₂, rfl⟩ := (several_iff h₂ (by omega)).1 ht₂
    have h := (C13_parse_ok order text (a₁ ++ a₂)).2 (split_trees hb ▸ each_append he₁ he₂)
    refine (several_iff h (by rw [List.length_append]; omega)).2 ⟨hn, f₁ ++ f₂, each_append hs₁ hs₂, ?_⟩
    rw [List.zip_append (each_len hs₁), firstOnly_join]

/-- **C132**, checking: if a Solidity file conforms to the joined file, then it conforms to the first, and `check` reports nothing but functions out of order for the second. -/
theorem C132_check {order : HashOrder} {text₁ text₂ text : Str} {bs₁ bs₂ : List Str} (hb₁ : Trees text₁ bs₁) (hb₂ : Trees text₂ bs₂) (hb : Trees text (bs₁ ++ bs₂))
    (hl₁ : 2 ≤ bs₁.length) (hl₂ : 2 ≤ bs₂.length) {cfg : Config} {ctx : Context} (ht : translate order cfg text = .ok ctx.hir) (hc : checkCtx ctx = .ok []) :
    ∃ hir₁ hir₂, translate order cfg text₁ = .ok hir₁ ∧ translate order cfg text₂ = .ok hir₂ ∧ checkCtx { ctx with hir := hir₁ } = .ok [] ∧
      ∀ vs, checkCtx { ctx with hir := hir₂ } = .ok vs → ∀ v ∈ vs, ∃ g i j, v.kind = .functionOrderMismatch g i j := by
  obtain ⟨n, fns, hh, _⟩ := translate_ok ht
  rw [hh] at ht
  obtain ⟨fns₁, fns₂, ht₁, ht₂, rfl⟩ := (C132_join hb₁ hb₂ hb hl₁ hl₂ cfg n fns).1 ht
  obtain ⟨s, h1, h2, h3, h4⟩ := (C37_silent_iff hh).1 hc
  refine ⟨_, _, ht₁, ht₂, ?_, ?_⟩
  · refine (C37_silent_iff (ctx := { ctx with hir := ⟨[⟨n, fns₁⟩]⟩ }) rfl).2 ⟨s, h1, h2, fun f hf => h3 f (by simp [hf]), ?_⟩
    exact (List.pairwise_append.1 h4).1
  · intro vs hv
    -- every function of the second file is in the joined one, by name and kind
    have hname : ∀ f ∈ fns₂, ∃ f0 ∈ fns₁ ++ fns₂.filter (fun f => f.identifier ∉ fns₁.map HFn.identifier), nameOf f0 = nameOf f := by
      intro f hf
      by_cases hm : f.identifier ∈ fns₁.map HFn.identifier
      · obtain ⟨g, hg, he⟩ := List.mem_map.1 hm
        obtain ⟨a₁, k₁, he₁⟩ := translated_asts hb₁ ht₁
        obtain ⟨a₂, k₂, he₂⟩ := translated_asts hb₂ ht₂
        have l₁ := each_len he₁
        have l₂ := each_len he₂
        obtain ⟨_, f₁, hs₁, rfl⟩ := (several_iff k₁ (by omega)).1 ht₁
        obtain ⟨_, f₂, hs₂, rfl⟩ := (several_iff k₂ (by omega)).1 ht₂
        have c₁ := prefixed_kind (fun p hp => parse_accepted k₁ _ (zip_mem hs₁ hp).1) ((firstOnly_sublist _).subset hg)
        have c₂ := prefixed_kind (fun p hp => parse_accepted k₂ _ (zip_mem hs₂ hp).1) ((firstOnly_sublist _).subset hf)
        exact ⟨g, List.mem_append_left _ hg, Prod.ext (kindByName_ty c₁ c₂ he) he⟩
      · exact ⟨f, by simp only [List.mem_append, List.mem_filter]; exact .inr ⟨hf, by simpa using hm⟩, rfl⟩
    obtain ⟨v1, v3, g1, rfl, g3⟩ := check_report (ctx := { ctx with hir := ⟨[⟨n, fns₂⟩]⟩ }) rfl h1 hv
    intro v hvm
    rcases List.mem_append.1 hvm with hvm | hvm
    · rcases names_report g1 with ⟨rfl, _⟩ | ⟨m, _, g4, g5, _⟩
      · cases hvm
      · exact absurd (h2 m g4) g5
    rcases List.mem_append.1 hvm with hvm | hvm
    · obtain ⟨f, i, _, hf, _, hnp, hsk⟩ := (presentAndMissing_missing _ s _ 0).1 v hvm
      obtain ⟨f0, hf0, e0⟩ := hname f (List.mem_of_getElem? hf)
      rcases h3 f0 hf0 with h4 | ⟨h4, h5⟩
      · exact absurd ((present_name e0 _).1 h4) hnp
      · exact absurd ⟨h4, (congrArg Prod.fst e0).symm.trans h5⟩ hsk
    · obtain ⟨p, _, g, line, _, _, rfl⟩ := each_mem_right g3 hvm
      exact ⟨_, _, _, rfl⟩

end

/-! ## Cases -/

attribute [local instance] asciiUcd

private def upper : Str := c!"A::f\n└── when x\n    └── when y\n        └── it a\n\nA::g\n└── it b"
private def lower : Str := c!"A::h\n├── it c\n└── when x\n    └── when z\n        └── it d\n\nA::k\n└── it e"
private def whole : Str := c!"A::f\n└── when x\n    └── when y\n        └── it a\n\nA::g\n└── it b\n\nA::h\n├── it c\n└── when x\n    └── when z\n        └── it d\n\nA::k\n└── it e"

set_option maxRecDepth 16000 in
private theorem upper_split : splitTrees upper = [c!"A::f\n└── when x\n    └── when y\n        └── it a", c!"A::g\n└── it b"] := by cbv
set_option maxRecDepth 16000 in
private theorem lower_split : splitTrees lower = [c!"A::h\n├── it c\n└── when x\n    └── when z\n        └── it d", c!"A::k\n└── it e"] := by cbv
set_option maxRecDepth 16000 in
private theorem whole_split : splitTrees whole = [c!"A::f\n└── when x\n    └── when y\n        └── it a", c!"A::g\n└── it b"] ++
    [c!"A::h\n├── it c\n└── when x\n    └── when z\n        └── it d", c!"A::k\n└── it e"] := by cbv

set_option maxRecDepth 16000 in
private theorem whole_names : (contractOf whole).map (fun c => (c.identifier, c.children.map HFn.identifier)) =
    some (c!"A", [c!"whenX", c!"test_FWhenY", c!"test_GB", c!"test_HC", c!"test_HWhenZ", c!"test_KE"]) := by cbv

section
attribute [local irreducible] contractOf

private theorem whole_ok : ∃ fns, translate id .default whole = .ok ⟨[⟨c!"A", fns⟩]⟩ ∧
    fns.map HFn.identifier = [c!"whenX", c!"test_FWhenY", c!"test_GB", c!"test_HC", c!"test_HWhenZ", c!"test_KE"] := by
  have h := whole_names
  cases hc : contractOf whole with
  | none => rw [hc] at h; cases h
  | some c =>
    rw [hc] at h
    obtain ⟨n, fns⟩ := c
    simp only [Option.map_some, Option.some.injEq, Prod.mk.injEq] at h
    obtain ⟨rfl, h⟩ := h
    exact ⟨fns, contractOf_eq hc, h⟩

/-- C132: both parts are accepted, and `whenX` of the second is left out. -/
example : ∃ fns₁ fns₂, translate id .default upper = .ok ⟨[⟨c!"A", fns₁⟩]⟩ ∧ translate id .default lower = .ok ⟨[⟨c!"A", fns₂⟩]⟩ ∧
    (fns₁ ++ fns₂.filter (fun f => f.identifier ∉ fns₁.map HFn.identifier)).map HFn.identifier =
      [c!"whenX", c!"test_FWhenY", c!"test_GB", c!"test_HC", c!"test_HWhenZ", c!"test_KE"] := by
  haveI := lawful_ascii
  obtain ⟨fns, h, hn⟩ := whole_ok
  obtain ⟨fns₁, fns₂, h1, h2, rfl⟩ := (C132_join (trees_of_split upper_split) (trees_of_split lower_split) (trees_of_split whole_split) (by simp) (by simp) .default _ _).1 h
  exact ⟨fns₁, fns₂, h1, h2, hn⟩

end

set_option maxRecDepth 16000 in
/-- The second file on its own has the shared modifier at another place, so that its functions come in another order. -/
example : (contractOf lower).map (fun c => c.children.map HFn.identifier) = some [c!"test_HC", c!"whenX", c!"test_HWhenZ", c!"test_KE"] := by cbv

/-- A file for `whole`. -/
private def fileWhole : Layout := ⟨[], some c!"A", c!"contract A ", c!"\n",
  [(.fn .modifier (some c!"whenX") c!"modifier whenX() { _; }", c!"\n"), (fnSeg c!"test_FWhenY" c!"a();", c!"\n"), (fnSeg c!"test_GB" c!"b();", c!"\n"),
    (fnSeg c!"test_HC" c!"c();", c!"\n"), (fnSeg c!"test_HWhenZ" c!"d();", c!"\n"), (fnSeg c!"test_KE" c!"e();", c!"\n")], c!"\n"⟩

set_option maxRecDepth 16000 in
private theorem whole_translate : translate id .default whole = .ok ⟨[treeOf whole]⟩ := treeOf_eq (by cbv)
set_option maxRecDepth 16000 in
private theorem lower_translate : translate id .default lower = .ok ⟨[treeOf lower]⟩ := treeOf_eq (by cbv)
set_option maxRecDepth 16000 in
private theorem whole_check : checkCtx (caseOf whole fileWhole false) = .ok [] := by cbv
set_option maxRecDepth 16000 in
private theorem lower_check : (match checkCtx { caseOf whole fileWhole false with hir := ⟨[treeOf lower]⟩ } with | .ok vs => vs.length | _ => 9) = 1 := by cbv

section
attribute [local irreducible] treeOf

/-- C132: the file conforms to the first part; for the second, one function is out of order. -/
example : (∃ hir₁, translate id .default upper = .ok hir₁ ∧ checkCtx { caseOf whole fileWhole false with hir := hir₁ } = .ok []) ∧
    ∃ v g i j, checkCtx { caseOf whole fileWhole false with hir := ⟨[treeOf lower]⟩ } = .ok [v] ∧ v.kind = .functionOrderMismatch g i j := by
  haveI := lawful_ascii
  obtain ⟨hir₁, hir₂, h1, h2, h3, h4⟩ := C132_check (trees_of_split upper_split) (trees_of_split lower_split) (trees_of_split whole_split) (by simp) (by simp)
    (ctx := caseOf whole fileWhole false) whole_translate whole_check
  refine ⟨⟨hir₁, h1, h3⟩, ?_⟩
  rw [lower_translate] at h2
  cases Res.ok.inj h2
  have h := lower_check
  cases hv : checkCtx { caseOf whole fileWhole false with hir := ⟨[treeOf lower]⟩ } with
  | ok vs =>
    rw [hv] at h
    match vs, h with
    | [v], _ =>
      obtain ⟨g, i, j, e⟩ := h4 _ hv v (List.mem_singleton_self v)
      exact ⟨v, g, i, j, rfl, e⟩
  | err e => exact nomatch e
  | panic => rw [hv] at h; cases h

end

end Bulloak
