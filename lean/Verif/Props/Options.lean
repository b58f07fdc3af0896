import Verif.Props.Agree
/-! # What the options of scaffold do, together (C128) -/

namespace Bulloak
open Spec

/-- The functions written with the options `-m` and `-S`: `-m` leaves out the modifiers, `-S` adds a statement to the tests. -/
def Spec.withOptions (cfg : Config) (fns : List HFn) : List HFn :=
  (if cfg.skipModifiers then fns.filter (fun f => f.ty ≠ .modifier) else fns).map (fun f => if cfg.emitVmSkip then addSkip f else f)

section
variable [U : Ucd] [LawfulUcd]

omit [LawfulUcd] in
private theorem written_options (cfg : Config) (fns : List HFn) : written cfg (if cfg.emitVmSkip then fns.map addSkip else fns) = withOptions cfg fns := by
  have e : (fun f : HFn => f.isFunction) = (fun f => decide (f.ty ≠ .modifier)) := by
    funext f
    obtain ⟨i, ty, sp, m, c⟩ := f
    cases ty <;> rfl
  have e' : HFn.isFunction = (fun f => decide (f.ty ≠ .modifier)) := e
  unfold written withOptions
  cases cfg.emitVmSkip <;> cases cfg.skipModifiers <;> simp only [Bool.false_eq_true, if_true, if_false, List.map_id', e']
  rw [List.filter_map]
  congr 2
  funext f
  simp [(addSkip_id f).2]

private theorem translate_options (order : HashOrder) (text : Str) :
    (∃ e, ∀ cfg, translate order cfg text = .err e) ∨
    ∃ n fns, (∀ f ∈ fns, .vmSkip ∉ f.children.getD []) ∧ ∀ cfg, translate order cfg text = .ok ⟨[⟨n, if cfg.emitVmSkip then fns.map addSkip else fns⟩]⟩ := by
  cases h : translate order .default text with
  | panic => exact absurd h (C57_translate_never_panics order _ text)
  | err e => exact .inl ⟨e, fun cfg => (C126_same_error order _ cfg text e).1 h⟩
  | ok r =>
    obtain ⟨n, fns, rfl, _⟩ := translate_ok h
    have hs : (Config.mk false c!"0.8.0" true).emitVmSkip = true := rfl
    have h1 := (C24_vm_skip (cfg := .default) rfl hs text).1 n fns h
    refine .inr ⟨n, fns, h1.2, fun cfg => ?_⟩
    cases hc : cfg.emitVmSkip with
    | false => exact (translate_flags hc _ _).trans h
    | true => exact ((C24_vm_skip (cfg := .default) rfl hc text).1 n fns h).1

/-- **C128.** The options do not interfere: a text is rejected with the same error whatever the options are, or there are a contract name and a list of functions such that with any
options the code is the one with that version in the pragma, with the functions left out that `-m` leaves out, and with the lines added that `-S` adds. -/
theorem C128_options (order : HashOrder) (text : Str) :
    (∃ e, ∀ cfg, scaffoldSource order cfg text = .err e) ∨
    ∃ name fns, (∀ f ∈ fns, .vmSkip ∉ f.children.getD []) ∧ ∀ cfg : Config, '"' ∉ cfg.solidityVersion → '\n' ∉ cfg.solidityVersion →
      scaffoldSource order cfg text = .ok (solFile cfg.solidityVersion cfg.emitVmSkip name (withOptions cfg fns)) := by
  rcases translate_options order text with ⟨e, h⟩ | ⟨n, fns, h1, h2⟩
  · exact .inl ⟨e, fun cfg => ((C33_errors order cfg text).2 e).2 (h cfg)⟩
  · refine .inr ⟨sanitize n, fns, h1, fun cfg hq hn => ?_⟩
    rw [C33_source hq hn (h2 cfg), written_options]

omit U [LawfulUcd] in
private theorem cleanup_no_quote : ∀ (k : Nat) (l : Str), l.length ≤ k → '"' ∉ l → cleanupComments l = l := by
  have line : ∀ l : Str, '\n' ∉ l → '"' ∉ l → cleanupComments l = l := by
    intro l h1 h2
    rw [cleanup_line h1]
    clear h1
    induction l with
    | nil => rfl
    | cons c r ih =>
      unfold cleanupLine
      have hs : stripPrefix commentMarker (c :: r) = none := by
        cases hs : stripPrefix commentMarker (c :: r) with
        | none => rfl
        | some t =>
          have := stripPrefix_eq.1 hs
          rw [this] at h2
          exact absurd (List.mem_append_left _ (by decide)) h2
      rw [hs]
      simp only [Option.bind_none]
      rw [ih (fun h => h2 (by simp [h]))]
  intro k
  induction k with
  | zero =>
    intro l hl _
    rw [List.eq_nil_of_length_eq_zero (Nat.le_zero.1 hl)]
    rfl
  | succ k ih =>
    intro l hl hq
    by_cases hn : '\n' ∈ l
    · obtain ⟨a, b, rfl⟩ := List.append_of_mem hn
      simp only [List.length_append, List.length_cons] at hl
      simp only [List.mem_append, List.mem_cons, not_or] at hq
      rw [cleanup_nl, ih a (by omega) hq.1, ih b (by omega) hq.2.2]
    · exact line l hn hq

/-- **C128**, `-s`: the version stands in the pragma and nowhere else; everything after that line is the same for all versions. -/
theorem C128_version {order : HashOrder} {cfg : Config} {text src : Str} (h : scaffoldSource order cfg text = .ok src) :
    ∃ rest, ∀ v : Str, '"' ∉ v → scaffoldSource order { cfg with solidityVersion := v } text =
      .ok (c!"// SPDX-License-Identifier: UNLICENSED\npragma solidity " ++ v ++ c!";\n" ++ rest) := by
  unfold scaffoldSource at h
  obtain ⟨r, hr, _⟩ := Res.bind_eq_ok.1 h
  obtain ⟨n, fns, rfl, _⟩ := translate_ok hr
  refine ⟨cleanupComments (joinSep c!"\n" (((if cfg.emitVmSkip then [PtPart.importTest] else []) ++ [PtPart.contract (ptContract cfg ⟨n, fns⟩)]).map fmtPart)), fun v hv => ?_⟩
  have ht : translate order { cfg with solidityVersion := v } text = .ok ⟨[⟨n, fns⟩]⟩ := by rw [← hr]; exact translate_flags rfl _ _
  unfold scaffoldSource
  rw [ht, Res.bind_ok]
  congr 1
  have hc : ptContract { cfg with solidityVersion := v } ⟨n, fns⟩ = ptContract cfg ⟨n, fns⟩ := rfl
  have hp : fmtSourceUnit (ptTranslate { cfg with solidityVersion := v } ⟨[⟨n, fns⟩]⟩) =
      (c!"// SPDX-License-Identifier: UNLICENSED\npragma solidity " ++ v ++ c!";") ++
        '\n' :: joinSep c!"\n" (((if cfg.emitVmSkip then [PtPart.importTest] else []) ++ [PtPart.contract (ptContract cfg ⟨n, fns⟩)]).map fmtPart) := by
    unfold fmtSourceUnit ptTranslate
    rw [← hc]
    cases cfg.emitVmSkip <;> simp only [Bool.false_eq_true, if_true, if_false, List.map_cons, List.map_nil, List.cons_append, List.nil_append, joinSep] <;>
      simp only [fmtPart, List.append_assoc, List.cons_append, List.nil_append]
  unfold emitSource
  rw [hp, cleanup_nl, cleanup_no_quote _ _ (Nat.le_refl _) (by
    simp only [List.mem_append, not_or]
    exact ⟨⟨by decide, hv⟩, by decide⟩)]
  simp

/-- **C128**, exit codes: on the same files, given in any order, two calls of `bulloak scaffold` with whatever options exit with the same code, as long as the formatter does not
reject what they generate. -/
theorem C128_exit {env : Env} {fs : Fs} {rest rest' : List Str} {items items' : List Item} (h : Spelled scaffoldTable items rest) (ho : Once items)
    (hf : Said optForce items → Said optWrite items) (h' : Spelled scaffoldTable items' rest') (ho' : Once items') (hf' : Said optForce items' → Said optWrite items')
    (hn : ∀ f ∈ Item.files items, ∀ t, PathOf f t → ¬ c!".t.sol" <:+ t.name) (hsame : ∀ f, f ∈ Item.files items ↔ f ∈ Item.files items')
    (hx : (program env (c!"scaffold" :: rest) fs).exit ≠ .panicked) (hx' : (program env (c!"scaffold" :: rest') fs).exit ≠ .panicked) :
    (program env (c!"scaffold" :: rest) fs).exit = (program env (c!"scaffold" :: rest') fs).exit := by
  classical
  obtain ⟨a, hv⟩ := says_exists items
  obtain ⟨a', hv'⟩ := says_exists items'
  have hrun : program env (c!"scaffold" :: rest) fs = .ran (scaffoldRun env a fs) := by
    unfold program
    rw [(C86_scaffold rest a).2 ⟨items, h, ho, hf, hv⟩]
  have hrun' : program env (c!"scaffold" :: rest') fs = .ran (scaffoldRun env a' fs) := by
    unfold program
    rw [(C86_scaffold rest' a').2 ⟨items', h', ho', hf', hv'⟩]
  rw [hrun] at hx ⊢
  rw [hrun'] at hx' ⊢
  show (scaffoldRun env a fs).exit = (scaffoldRun env a' fs).exit
  replace hx : (scaffoldRun env a fs).exit ≠ .panicked := hx
  replace hx' : (scaffoldRun env a' fs).exit ≠ .panicked := hx'
  have e : a.files = (Item.files items).map toPath := each_toPath_eq hv.files
  have e' : a'.files = (Item.files items').map toPath := each_toPath_eq hv'.files
  have hmem : ∀ t, t ∈ a.files ↔ t ∈ a'.files := by
    intro t
    rw [e, e']
    simp only [List.mem_map, hsame]
  have hnt : NoTests a.files := by
    intro t ht
    rw [e] at ht
    obtain ⟨f, hf, rfl⟩ := List.mem_map.1 ht
    exact hn f hf _ (toPath_of f)
  have hnt' : NoTests a'.files := fun t ht => hnt t ((hmem t).2 ht)
  have hbad : ∀ t, Bad env a.config fs t ↔ Bad env a'.config fs t := by
    intro t
    unfold Bad
    simp only [fun text e => C126_same_error env.order a.config a'.config text e]
  rw [run_exit hnt] at hx ⊢
  rw [run_exit hnt'] at hx' ⊢
  unfold exitOf at hx hx' ⊢
  split at hx
  · next k =>
    split at hx'
    · next k' =>
      rw [if_pos k, if_pos k']
      simp only [hmem, hbad]
    · exact absurd rfl hx'
  · exact absurd rfl hx

end

/-! ## Cases -/

attribute [local instance] asciiUcd

/-- The code for a tree with a modifier, with the given options. -/
private def coded (cfg : Config) : Option Str :=
  match scaffoldSource id cfg c!"Foo\n└── when a\n    └── when b\n        └── it c" with
  | .ok s => some s
  | _ => none

set_option maxRecDepth 16000 in
/-- C128: without options … -/
example : coded .default = some c!"// SPDX-License-Identifier: UNLICENSED\npragma solidity 0.8.0;\ncontract Foo {modifier whenA() {\n_;\n}\n\nfunction test_WhenB() external whenA {\n// it c\n}}" := by
  cbv

set_option maxRecDepth 16000 in
/-- C128: … and with all of them. -/
example : coded ⟨true, c!">=0.8.0\n<0.9.0", true⟩ = some (c!"// SPDX-License-Identifier: UNLICENSED\npragma solidity >=0.8.0\n<0.9.0;\n" ++
    c!"import {Test} from \"forge-std/Test.sol\";\ncontract Foo is Test {function test_WhenB() external whenA {\n// it c\nvm.skip(true);\n}}") := by
  cbv

set_option maxRecDepth 16000 in
/-- The condition of `C128_version` is needed: with quotes a version can look like one of the comments that are cleaned up. -/
example : coded ⟨true, c!"string __bulloak_comment__ = \"0\";", false⟩ = some (c!"// SPDX-License-Identifier: UNLICENSED\npragma solidity // 0;\n" ++
    c!"contract Foo {function test_WhenB() external whenA {\n// it c\n}}") := by
  cbv

private theorem coded_some : ∃ src, scaffoldSource id .default c!"Foo\n└── when a\n    └── when b\n        └── it c" = .ok src := by
  have h : (coded .default).isSome = true := by
    set_option maxRecDepth 16000 in cbv
  unfold coded at h
  split at h
  · next s e => exact ⟨s, e⟩
  · cases h

/-- C128: the versions of this tree share all but one line. -/
example : ∃ rest, ∀ v : Str, '"' ∉ v → scaffoldSource id { Config.default with solidityVersion := v } c!"Foo\n└── when a\n    └── when b\n        └── it c" =
    .ok (c!"// SPDX-License-Identifier: UNLICENSED\npragma solidity " ++ v ++ c!";\n" ++ rest) := by
  haveI := lawful_ascii
  obtain ⟨src, h⟩ := coded_some
  exact C128_version h

end Bulloak
