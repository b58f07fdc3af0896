import Verif.Props.EndToEnd
import Verif.Props.SplitRuns
import Verif.Props.FixCases
import Verif.Props.DryRun
/-! # The commands: concrete cases meeting the hypotheses -/

namespace Bulloak
open Spec
set_option linter.unusedSectionVars false

attribute [local instance] asciiUcd

/-- Paths of the examples. -/
private def fp (name : Str) : FPath := ⟨c!"t/", name⟩

private def goodTree : Str := c!"Foo\n├── it a\n└── when b\n    └── it c"

/-- A rejected tree (`bad.tree`), an accepted one (`good.tree`), an accepted one whose Solidity file exists (`old.tree`), and
nothing else; everything can be written. -/
private def disk : Fs :=
  ⟨fun p => if p = fp c!"bad.tree" then .text c!"Foo\n└── when a" else
    if p = fp c!"good.tree" then .text goodTree else
    if p = fp c!"old.tree" then .text goodTree else
    if p = fp c!"old.t.sol" then .text c!"contract Foo { uint x; }" else .absent, fun _ => true⟩

/-- The contract generated from the good tree, as parsed. -/
private def parsedGood : SolUnit := [.contract ⟨some (sanitize (treeOf goodTree).identifier), 0, 0, (treeOf goodTree).children.map partOf⟩]

/-- A formatter that changes nothing and a parser that reads the generated code. -/
private def envG : Env := ⟨some, fun s => if sourceOf .default goodTree = some s then some parsedGood else none, fun c => some c.src, id⟩

private def argsW (files : List FPath) : ScaffoldArgs := ⟨files, true, false, c!"0.8.0", false, false⟩

private theorem envG_formats {files : List FPath} {cfg : Config} {fs : Fs} : ∀ f ∈ files, ¬ Unformatted envG cfg fs f := by
  rintro f _ ⟨_, _, _, _, h⟩
  cases h

private theorem yields_source {cfg : Config} {text src : Str} (h : sourceOf cfg text = some src) : Yields envG cfg text src := by
  unfold sourceOf at h
  cases hs : scaffoldSource id cfg text with
  | ok s =>
    rw [hs] at h
    cases h
    exact ⟨src, src, hs, rfl, Or.inl rfl⟩
  | err e => rw [hs] at h; cases h
  | panic => rw [hs] at h; cases h

/-- The arguments have the default configuration. -/
private theorem argsW_config (files : List FPath) : (argsW files).config = Config.default := rfl

set_option maxRecDepth 16000 in
private theorem good_source : (sourceOf .default goodTree).isSome = true := by cbv

private theorem noTests_of {files : List FPath} (h : (files.all (fun f => !(c!".t.sol".isSuffixOf f.name))) = true) : NoTests files := by
  intro f hf hs
  have := List.all_eq_true.1 h f hf
  rw [List.isSuffixOf_iff_suffix.2 hs] at this
  cases this

private theorem own_single (f : FPath) : OwnFiles [f] := List.pairwise_singleton _ _

private theorem three : NoTests [fp c!"bad.tree", fp c!"good.tree", fp c!"old.tree"] := noTests_of (by decide +kernel)

private theorem disk_good : disk.state (fp c!"good.tree") = .text goodTree := by decide +kernel

private theorem sol_good : SolOf (fp c!"good.tree") (fp c!"good.t.sol") := (solOf_iff _ _).2 (by decide +kernel)
private theorem sol_old : SolOf (fp c!"old.tree") (fp c!"old.t.sol") := (solOf_iff _ _).2 (by decide +kernel)
private theorem ext_bad : (fp c!"bad.tree").withSolExt = fp c!"bad.t.sol" := by decide +kernel

/-- C48: the existing file stays. -/
example : (scaffoldRun envG (argsW [fp c!"bad.tree", fp c!"good.tree", fp c!"old.tree"]) disk).fs.state (fp c!"old.t.sol") =
    .text c!"contract Foo { uint x; }" := by
  haveI := lawful_ascii
  rw [C48_no_overwrite envG rfl disk (p := fp c!"old.t.sol") (by decide +kernel)]
  decide +kernel

/-- C49: the good tree is scaffolded although the one before it is rejected. -/
example : ∃ src, sourceOf .default goodTree = some src ∧
    (scaffoldRun envG (argsW [fp c!"bad.tree", fp c!"good.tree", fp c!"old.tree"]) disk).fs.state (fp c!"good.t.sol") = .text src := by
  haveI := lawful_ascii
  obtain ⟨src, hs⟩ := Option.isSome_iff_exists.1 good_source
  refine ⟨src, hs, C49_written (A := [fp c!"bad.tree"]) (B := [fp c!"old.tree"]) three envG_formats rfl rfl rfl ?_ sol_good rfl (by decide +kernel) ?_⟩
  · rw [argsW_config]
    exact ⟨goodTree, disk_good, yields_source hs⟩
  · intro g hg _ _ h
    rw [List.mem_singleton.1 hg] at h
    have := (solOf_iff _ _).1 h
    rw [ext_bad] at this
    revert this
    decide +kernel

set_option maxRecDepth 16000 in
private theorem bad_rejected : (match translate id .default c!"Foo\n└── when a" with | .err _ => true | _ => false) = true := by cbv

/-- C49: and the exit code is 1. -/
example : (scaffoldRun envG (argsW [fp c!"bad.tree", fp c!"good.tree", fp c!"old.tree"]) disk).exit = .code 1 := by
  haveI := lawful_ascii
  rcases C49_exit (env := envG) (fs := disk) (a := argsW [fp c!"bad.tree", fp c!"good.tree", fp c!"old.tree"]) three envG_formats with ⟨_, h⟩ | ⟨h, _⟩
  · refine absurd (Or.inr ?_) (h (fp c!"bad.tree") (List.mem_cons_self ..))
    rw [argsW_config]
    cases ht : translate id .default c!"Foo\n└── when a" with
    | err e => exact ⟨_, e, by decide +kernel, ht⟩
    | ok r => have := bad_rejected; rw [ht] at this; cases this
    | panic => have := bad_rejected; rw [ht] at this; cases this
  · exact h

/-- C52: a second run changes nothing. -/
example : (scaffoldRun envG (argsW [fp c!"bad.tree", fp c!"good.tree"]) (scaffoldRun envG (argsW [fp c!"bad.tree", fp c!"good.tree"]) disk).fs).fs =
    (scaffoldRun envG (argsW [fp c!"bad.tree", fp c!"good.tree"]) disk).fs := by
  haveI := lawful_ascii
  exact C52_idempotent (noTests_of (by decide +kernel))

set_option maxRecDepth 16000 in
private theorem good_distinct : decide (((treeOf goodTree).children.filter HFn.isFunction).map HFn.identifier).Nodup = true := by cbv

set_option maxRecDepth 16000 in
private theorem good_contract : (contractOf goodTree).isSome = true := by cbv

private theorem good_translate : translate id .default goodTree = .ok ⟨[⟨(treeOf goodTree).identifier, (treeOf goodTree).children⟩]⟩ := by
  obtain ⟨c, hc⟩ := Option.isSome_iff_exists.1 good_contract
  rw [contractOf_eq hc]; simp [treeOf, hc]

set_option maxRecDepth 16000 in
private theorem source_not_empty : (sourceOf .default goodTree == some c!"// empty") = false := by cbv

attribute [local irreducible] treeOf sourceOf

/-- C59: `scaffold -w` then `check`. -/
example : (checkRun envG ⟨[fp c!"good.tree"], false, false, false⟩ (scaffoldRun envG (argsW [fp c!"good.tree"]) disk).fs).exit = .code 0 := by
  haveI := lawful_ascii
  obtain ⟨src, hs⟩ := Option.isSome_iff_exists.1 good_source
  refine C59_scaffold_then_check (fun l => List.Perm.refl _) (noTests_of (by decide +kernel)) rfl (own_single _) ?_ ?_ (fun _ h => h) rfl (fun h => h)
  · intro f hf
    rw [List.mem_singleton.1 hf]
    rw [argsW_config]
    refine ⟨goodTree, src, disk_good, yields_source hs, ?_, ?_⟩
    · intro n fns h
      rw [show envG.order = id from rfl, good_translate] at h
      cases h
      refine ⟨parsedGood, _, ?_, first_single _, rfl, written_parts _⟩
      show (if sourceOf .default goodTree = some src then some parsedGood else none) = some parsedGood
      rw [if_pos hs]
    · intro n fns h
      rw [show envG.order = id from rfl, good_translate] at h
      cases h
      exact of_decide_eq_true good_distinct
  · intro f hf p hp
    rw [List.mem_singleton.1 hf] at hp
    have e : (fp c!"good.tree").withSolExt = fp c!"good.t.sol" := by decide +kernel
    rw [(solOf_iff _ _).1 hp, e]
    exact ⟨rfl, Or.inr (by decide +kernel)⟩

/-- C50: `check` without `--fix` changes nothing. -/
example : (checkRun envG ⟨[fp c!"bad.tree", fp c!"old.tree"], false, false, false⟩ disk).fs.state = disk.state := by
  haveI := lawful_ascii
  exact C50_no_write envG (Or.inl rfl) disk

private theorem bad_closed (ctx : Context) : ¬ Opens envG false disk (fp c!"bad.tree") ctx := by
  rintro ⟨text, hir, p, src, u, h1, h2, h3, h4, _⟩
  rw [(solOf_iff _ _).1 h3, ext_bad] at h4
  have : disk.state (fp c!"bad.t.sol") = .absent := by decide +kernel
  rw [this] at h4; cases h4

/-- C51: `check --fix` on a rejected tree without a Solidity file reports success. -/
example : (checkRun envG ⟨[fp c!"bad.tree"], true, false, false⟩ disk).exit = .code 0 := by
  haveI := lawful_ascii
  refine (C51_fix_ignores rfl ?_).1
  intro t ht ctx
  rw [List.mem_singleton.1 ht]
  exact bad_closed ctx

/-- C51: without `--fix` the exit code is 1. -/
example : (checkRun envG ⟨[fp c!"bad.tree"], false, false, false⟩ disk).exit = .code 1 := by
  haveI := lawful_ascii
  rcases C51_exit (env := envG) (fs := disk) (a := ⟨[fp c!"bad.tree"], false, false, false⟩) rfl with ⟨_, h⟩ | ⟨h, _⟩ | ⟨_, t, ht, ctx, h, _⟩
  · obtain ⟨ctx, h, _⟩ := h (fp c!"bad.tree") (List.mem_cons_self ..)
    exact absurd h (bad_closed ctx)
  · exact h
  · rw [List.mem_singleton.1 ht] at h
    exact absurd h (bad_closed ctx)

/-! ## C60 -/

/-- An environment that parses a file without contract and the generated code. -/
private def envR : Env := ⟨some, fun s => if s = c!"// empty" then some [.other] else
  if sourceOf .default goodTree = some s then some parsedGood else none, fun c => some c.src, id⟩

private def diskR : Fs := ⟨fun p => if p = fp c!"good.tree" then .text goodTree else
  if p = fp c!"good.t.sol" then .text c!"// empty" else .absent, fun _ => true⟩

private theorem well_R : ∀ t ∈ [fp c!"good.tree"], ∃ ctx, Opens envR false diskR t ctx ∧ FixesWell envR ctx := by
  haveI := lawful_ascii
  obtain ⟨src, hs⟩ := Option.isSome_iff_exists.1 good_source
  have hsrc : scaffoldSource id .default goodTree = .ok src := by
    have hs' := hs
    unfold sourceOf at hs'
    revert hs'
    split
    · rename_i e; intro h; rw [e]; cases h; rfl
    · intro h; cases h
  have hne : src ≠ c!"// empty" := by
    intro e
    have := source_not_empty
    rw [hs, e] at this
    simp at this
  have hP : envR.solParse src = some parsedGood := by
    show (if src = c!"// empty" then some [.other] else if sourceOf .default goodTree = some src then some parsedGood else none) = _
    rw [if_neg hne, if_pos hs]
  intro t ht
  rw [List.mem_singleton.1 ht]
  refine ⟨_, ⟨goodTree, _, fp c!"good.t.sol", c!"// empty", [.other], by decide +kernel, good_translate, sol_good, by decide +kernel, rfl, rfl⟩, ?_⟩
  obtain ⟨h1, h2⟩ := C46_regenerate (P := envR.solParse) (fun l => List.Perm.refl _) good_translate
    (ctx := ⟨(fp c!"good.tree").str, ⟨[⟨(treeOf goodTree).identifier, (treeOf goodTree).children⟩]⟩, (fp c!"good.t.sol").str, c!"// empty", [.other], false⟩) rfl (by
    rintro s ⟨k, rest, h⟩
    rcases k with _ | _ | k <;> simp [List.replicate_succ] at h) hsrc hP (first_single _) rfl (written_parts _) (of_decide_eq_true good_distinct)
  exact ⟨_, _, src, parsedGood, h1, h2, rfl, hP, fun s hs => ⟨s, hs, rfl, rfl⟩⟩

/-- C60: a file without contract is regenerated, and then `check` is silent. -/
example : (checkRun envR ⟨[fp c!"good.tree"], true, false, false⟩ diskR).exit = .code 0 ∧
    (checkRun envR { (⟨[fp c!"good.tree"], true, false, false⟩ : CheckArgs) with fix := false }
      (checkRun envR ⟨[fp c!"good.tree"], true, false, false⟩ diskR).fs).exit = .code 0 := by
  haveI := lawful_ascii
  exact C60_fix_then_check (noTests_of (by decide +kernel)) rfl rfl (own_single _) well_R (fun _ _ _ _ => rfl)

/-- C119 -/
example := haveI := lawful_ascii; C119_fixed_partial (env := envR) (a := ⟨[fp c!"good.tree"], true, false, false⟩) (fs := diskR) (noTests_of (by decide +kernel)) rfl rfl (own_single _) well_R
  (fun _ _ _ _ => rfl)

/-! ## C105 -/

private theorem own_three : OwnFiles [fp c!"bad.tree", fp c!"good.tree", fp c!"old.tree"] := by
  have h : ([fp c!"bad.tree", fp c!"good.tree", fp c!"old.tree"].map FPath.withSolExt).Nodup := by decide +kernel
  rw [List.Nodup, List.pairwise_map] at h
  exact h.imp fun hne p h1 h2 => hne (((solOf_iff _ _).1 h1).symm.trans ((solOf_iff _ _).1 h2))

/-- C105: scaffolding three trees, one of them rejected, is scaffolding the first and then the others. -/
example : (scaffoldRun envG (argsW [fp c!"bad.tree", fp c!"good.tree", fp c!"old.tree"]) disk).fs =
    (scaffoldRun envG (argsW [fp c!"good.tree", fp c!"old.tree"]) (scaffoldRun envG (argsW [fp c!"bad.tree"]) disk).fs).fs := by
  haveI := lawful_ascii
  refine ((C105_scaffold (a := argsW []) (xs := [fp c!"bad.tree"]) (ys := [fp c!"good.tree", fp c!"old.tree"]) rfl rfl rfl).2 ?_).1
  rcases C49_exit (env := envG) (fs := disk) (a := argsW [fp c!"bad.tree"]) (noTests_of (by decide +kernel)) envG_formats with ⟨h, _⟩ | ⟨h, _⟩ <;>
    (intro hc; rw [show scaffoldRun envG { argsW [] with files := [fp c!"bad.tree"] } disk = scaffoldRun envG (argsW [fp c!"bad.tree"]) disk from rfl, h] at hc; cases hc)

/-- C105: in any order. -/
example : (scaffoldRun envG (argsW [fp c!"old.tree", fp c!"bad.tree", fp c!"good.tree"]) disk).fs =
    (scaffoldRun envG (argsW [fp c!"bad.tree", fp c!"good.tree", fp c!"old.tree"]) disk).fs := by
  haveI := lawful_ascii
  refine (C105_scaffold_order (a := argsW [fp c!"bad.tree", fp c!"good.tree", fp c!"old.tree"]) (files' := [fp c!"old.tree", fp c!"bad.tree", fp c!"good.tree"])
    three own_three (by decide +kernel) ?_).1
  rcases C49_exit (env := envG) (fs := disk) (a := argsW [fp c!"bad.tree", fp c!"good.tree", fp c!"old.tree"]) three envG_formats with ⟨h, _⟩ | ⟨h, _⟩ <;>
    (intro hc; rw [h] at hc; cases hc)

/-- C105: checking two trees fails since checking the first one does. -/
example : (checkRun envG ⟨[fp c!"bad.tree", fp c!"good.tree"], false, false, false⟩ disk).exit ≠ .code 0 := by
  haveI := lawful_ascii
  intro h
  have h1 := ((C105_check (env := envG) (a := ⟨[], false, false, false⟩) (fs := disk) (xs := [fp c!"bad.tree"]) (ys := [fp c!"good.tree"]) rfl rfl rfl rfl).2.2.1.1 h).1
  rcases C51_exit (env := envG) (fs := disk) (a := ⟨[fp c!"bad.tree"], false, false, false⟩) rfl with ⟨_, h⟩ | ⟨h, _⟩ | ⟨_, t, ht, ctx, h, _⟩
  · obtain ⟨ctx, h, _⟩ := h (fp c!"bad.tree") (List.mem_cons_self ..)
    exact absurd h (bad_closed ctx)
  · rw [h] at h1; cases h1
  · rw [List.mem_singleton.1 ht] at h
    exact absurd h (bad_closed ctx)

/-- C105: fixing three trees is fixing the first and then the others. -/
example : (checkRun envG ⟨[fp c!"bad.tree", fp c!"good.tree", fp c!"old.tree"], true, false, false⟩ disk).fs =
    (checkRun envG ⟨[fp c!"good.tree", fp c!"old.tree"], true, false, false⟩ (checkRun envG ⟨[fp c!"bad.tree"], true, false, false⟩ disk).fs).fs := by
  haveI := lawful_ascii
  refine ((C105_fix (env := envG) (a := ⟨[], true, false, false⟩) (fs := disk) (xs := [fp c!"bad.tree"]) (ys := [fp c!"good.tree", fp c!"old.tree"]) rfl three own_three
    rfl rfl rfl).2 ?_).1
  have h := (C51_fix_ignores (env := envG) (a := ⟨[fp c!"bad.tree"], true, false, false⟩) (fs := disk) rfl (fun t ht ctx => by
    rw [List.mem_singleton.1 ht]
    exact bad_closed ctx)).1
  intro hc
  rw [show checkRun envG { (⟨[], true, false, false⟩ : CheckArgs) with files := [fp c!"bad.tree"] } disk = checkRun envG ⟨[fp c!"bad.tree"], true, false, false⟩ disk from rfl, h] at hc
  cases hc

/-- C105: in any order. -/
example : (checkRun envR ⟨[fp c!"old.tree", fp c!"good.tree"], true, false, false⟩ diskR).exit = (checkRun envR ⟨[fp c!"good.tree", fp c!"old.tree"], true, false, false⟩ diskR).exit := by
  haveI := lawful_ascii
  refine (C105_fix_order (env := envR) (a := ⟨[fp c!"good.tree", fp c!"old.tree"], true, false, false⟩) (files' := [fp c!"old.tree", fp c!"good.tree"]) rfl ?_ (by decide +kernel)).1
  exact List.Pairwise.sublist (by decide +kernel) own_three

end Bulloak
