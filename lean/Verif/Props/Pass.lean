import Verif.Props.Help
import Verif.Props.SplitRuns
import Verif.Props.EditCases
/-! # What it means that check passes -/

namespace Bulloak
open Spec

section
variable [U : Ucd]

/-- The file `f` and its Solidity file can be read, the trees are valid, and the first contract has the functions of the trees in their order; with `skip` modifiers need not be there. -/
def Spec.Clean (env : Env) (skip : Bool) (fs : Fs) (f : Str) : Prop :=
  ∃ t text n fns p src u s, PathOf f t ∧ fs.state t = .text text ∧ translate env.order .default text = .ok ⟨[⟨n, fns⟩]⟩ ∧ SolOf t p ∧ fs.state p = .text src ∧
    env.solParse src = some u ∧ FirstContract u s ∧ Conforms skip n fns s

omit U in
private theorem path_unique {f : Str} {t t' : FPath} (h : PathOf f t) (h' : PathOf f t') : t = t' := by
  have key : ∀ {s : Str} {p : FPath}, PathOf s p → p = toPath s := fun {s p} h => by
    have e := each_toPath_eq (l := [s]) (ps := [p]) (.cons h .nil)
    simpa using e
  rw [key h, key h']

private theorem clean_iff [LawfulUcd] {env : Env} {skip : Bool} {fs : Fs} {f : Str} {t : FPath} (h : PathOf f t) :
    Clean env skip fs f ↔ ∃ ctx, Opens env skip fs t ctx ∧ checkCtx ctx = .ok [] := by
  constructor
  · rintro ⟨t', text, n, fns, p, src, u, s, h1, h2, h3, h4, h5, h6, h7, h8⟩
    obtain rfl := path_unique h h1
    exact ⟨_, ⟨text, _, p, src, u, h2, h3, h4, h5, h6, rfl⟩, (C37_silent_iff (ctx := ⟨t.str, _, p.str, src, u, skip⟩) rfl).2 ⟨s, h7, h8⟩⟩
  · rintro ⟨ctx, ⟨text, hir, p, src, u, h2, h3, h4, h5, h6, rfl⟩, hc⟩
    obtain ⟨n, fns, rfl, _⟩ := translate_ok h3
    obtain ⟨s, h7, h8⟩ := (C37_silent_iff (ctx := ⟨t.str, _, p.str, src, u, skip⟩) rfl).1 hc
    exact ⟨t, text, n, fns, p, src, u, s, h, h2, h3, h4, h5, h6, h7, h8⟩

/-- **C124.** `bulloak check` exits with 0 exactly if every file given is clean. -/
theorem C124_passes [LawfulUcd] {env : Env} {fs : Fs} {rest : List Str} {items : List Item} (h : Spelled checkTable items rest) (ho : Once items)
    (hfix : ¬ Said optFix items) (hout : ¬ Said optStdout items) {skip : Bool} (hskip : skip = true ↔ Said optSkip items) :
    (program env (c!"check" :: rest) fs).exit = .code 0 ↔ ∀ f ∈ Item.files items, Clean env skip fs f := by
  have ha : cliParse (c!"check" :: rest) = .run (.check ⟨(Item.files items).map toPath, false, false, skip⟩) :=
    (C86_check rest _).2 ⟨items, h, ho, fun h => absurd h hout, ⟨each_toPath _, by simp [hfix], by simp [hout], hskip⟩⟩
  have he : (program env (c!"check" :: rest) fs).exit = (checkRun env ⟨(Item.files items).map toPath, false, false, skip⟩ fs).exit := by
    unfold program
    rw [ha]
    rfl
  rw [he]
  have hiff : (∀ f ∈ Item.files items, Clean env skip fs f) ↔
      ∀ t ∈ (Item.files items).map toPath, ∃ ctx, Opens env skip fs t ctx ∧ checkCtx ctx = .ok [] := by
    constructor
    · intro h t ht
      obtain ⟨f, hf, rfl⟩ := List.mem_map.1 ht
      exact (clean_iff (toPath_of f)).1 (h f hf)
    · intro h f hf
      exact (clean_iff (toPath_of f)).2 (h _ (List.mem_map.2 ⟨f, hf, rfl⟩))
  rw [hiff]
  rcases C51_exit (env := env) (a := ⟨(Item.files items).map toPath, false, false, skip⟩) (fs := fs) rfl with ⟨h1, h2⟩ | ⟨h1, _, t, ht, h2⟩ | ⟨h1, t, ht, ctx, h2, h3⟩
  · exact ⟨fun _ => h2, fun _ => h1⟩
  · rw [h1]
    refine ⟨(fun h => nomatch h), fun h => ?_⟩
    obtain ⟨c, h3, h4⟩ := h t ht
    exact absurd h4 (h2 c h3)
  · rw [h1]
    refine ⟨(fun h => nomatch h), fun h => ?_⟩
    obtain ⟨c, h4, h5⟩ := h t ht
    rw [opens_same h4 h2, h3] at h5
    cases h5

/-- **C124**, for any command line: if `bulloak check` exits with 0 then it was asked for help, or to fix, or every file given is clean. -/
theorem C124_only [LawfulUcd] {env : Env} {fs : Fs} {rest : List Str} (h : (program env (c!"check" :: rest) fs).exit = .code 0) :
    HelpAsked (c!"check" :: rest) ∨ ∃ items, Spelled checkTable items rest ∧ Once items ∧
      (Said optFix items ∨ ∃ skip : Bool, (skip = true ↔ Said optSkip items) ∧ ∀ f ∈ Item.files items, Clean env skip fs f) := by
  classical
  by_cases hh : HelpAsked (c!"check" :: rest)
  · exact .inl hh
  · refine .inr ?_
    have h2 : ¬ (program env (c!"check" :: rest) fs).exit = .code 2 := by rw [h]; decide
    rw [C112_refused] at h2
    have h3 : ∃ rest' items, c!"check" :: rest = c!"check" :: rest' ∧ Spelled checkTable items rest' ∧ Once items ∧ (Said optStdout items → Said optFix items) := by
      apply Classical.byContradiction
      intro hn
      refine h2 ⟨hh, ?_, hn⟩
      rintro ⟨r, i, e, _⟩
      have := (List.cons.inj e).1
      revert this
      decide
    obtain ⟨rest', items, e, hs, ho, hn⟩ := h3
    obtain rfl := (List.cons.inj e).2
    refine ⟨items, hs, ho, ?_⟩
    by_cases hf : Said optFix items
    · exact .inl hf
    · refine .inr ⟨decide (Said optSkip items), by simp, ?_⟩
      exact (C124_passes hs ho hf (fun h => hf (hn h)) (by simp)).1 h

/-- **C124**, no files: both commands succeed without doing anything if options but no files are given. -/
theorem C124_nothing [LawfulUcd] (env : Env) (fs : Fs) {rest : List Str} {items : List Item} (ho : Once items) (hno : Item.files items = []) :
    (Spelled checkTable items rest → (Said optStdout items → Said optFix items) →
      (program env (c!"check" :: rest) fs).exit = .code 0 ∧ (program env (c!"check" :: rest) fs).fs fs = fs) ∧
    (Spelled scaffoldTable items rest → (Said optForce items → Said optWrite items) →
      (program env (c!"scaffold" :: rest) fs).exit = .code 0 ∧ (program env (c!"scaffold" :: rest) fs).fs fs = fs) := by
  classical
  constructor
  · intro h hn
    have ha : cliParse (c!"check" :: rest) = .run (.check ⟨[], decide (Said optFix items), decide (Said optStdout items), decide (Said optSkip items)⟩) :=
      (C86_check rest _).2 ⟨items, h, ho, hn, ⟨by rw [hno]; exact .nil, by simp, by simp, by simp⟩⟩
    have he : program env (c!"check" :: rest) fs = .ran (checkRun env ⟨[], decide (Said optFix items), decide (Said optStdout items), decide (Said optSkip items)⟩ fs) := by
      unfold program
      rw [ha]
    rw [he]
    cases decide (Said optFix items) <;> exact ⟨rfl, rfl⟩
  · intro h hn
    have hv : ∃ v, SaysScaffold items ⟨[], decide (Said optWrite items), decide (Said optForce items), v, decide (Said optVmSkip items), decide (Said optSkip items)⟩ := by
      by_cases hv : Said optVersion items
      · obtain ⟨v, hm⟩ := hv
        exact ⟨v, ⟨by rw [hno]; exact .nil, by simp, by simp, .inl hm, by simp, by simp⟩⟩
      · exact ⟨c!"0.8.0", ⟨by rw [hno]; exact .nil, by simp, by simp, .inr ⟨hv, rfl⟩, by simp, by simp⟩⟩
    obtain ⟨v, hv⟩ := hv
    have he : program env (c!"scaffold" :: rest) fs = .ran (scaffoldRun env ⟨[], decide (Said optWrite items), decide (Said optForce items), v, decide (Said optVmSkip items), decide (Said optSkip items)⟩ fs) := by
      unfold program
      rw [(C86_scaffold rest _).2 ⟨items, h, ho, hn, hv⟩]
    rw [he]
    exact ⟨rfl, rfl⟩

end

/-! ## Cases -/

attribute [local instance] asciiUcd

/-- A tree file and its Solidity file. -/
def passDesk : Fs :=
  ⟨fun p => if p = ⟨[], c!"a.tree"⟩ then .text treePQ else if p = ⟨[], c!"a.t.sol"⟩ then .text filePQ.text else .absent, fun _ => true⟩

/-- A parser that reads this file. -/
def passEnv : Env := ⟨some, fun s => if s = filePQ.text then some [.contract filePQ.contract] else none, fun c => some c.src, id⟩

private theorem a_path : PathOf c!"a.tree" ⟨[], c!"a.tree"⟩ := ⟨rfl, by decide, .inl rfl⟩

private theorem a_sol : SolOf ⟨[], c!"a.tree"⟩ ⟨[], c!"a.t.sol"⟩ := (solOf_iff _ _).2 (by decide +kernel)

section
attribute [local irreducible] treeOf filePQ treePQ

theorem pass_clean (skip : Bool) : Clean passEnv skip passDesk c!"a.tree" := by
  haveI := lawful_ascii
  rw [clean_iff a_path]
  exact ⟨caseOf treePQ filePQ skip, ⟨treePQ, _, _, filePQ.text, _, by simp [passDesk], pq_translate, a_sol, by simp [passDesk], by simp [passEnv], rfl⟩, pq_check skip⟩

end

/-- C124: `bulloak check -m a.tree` passes. -/
example : (program passEnv [c!"check", c!"-m", c!"a.tree"] passDesk).exit = .code 0 := by
  haveI := lawful_ascii
  have h : Spelled checkTable [.opt optSkip [], .file c!"a.tree"] [c!"-m", c!"a.tree"] :=
    .letters (os := [optSkip]) (cs := c!"m") (by simp) (.cons (by decide) rfl rfl .nil) (.file (by decide) (.inr (by simp)) .nil)
  refine (C124_passes h (by simp [Once, Item.options]) (by simp [Said, optFix, optSkip]) (by simp [Said, optStdout, optSkip]) (skip := true) (by simp [Said])).2 ?_
  intro f hf
  rw [List.mem_singleton.1 hf]
  exact pass_clean true

/-- C124: `bulloak check a.tree b.tree` does not. -/
example : (program passEnv [c!"check", c!"a.tree", c!"b.tree"] passDesk).exit ≠ .code 0 := by
  haveI := lawful_ascii
  have h : Spelled checkTable [.file c!"a.tree", .file c!"b.tree"] [c!"a.tree", c!"b.tree"] :=
    .file (by decide) (.inr (by simp)) (.file (by decide) (.inr (by simp)) .nil)
  intro h0
  obtain ⟨t, text, _, _, _, _, _, _, h1, h2, _⟩ :=
    (C124_passes h (by simp [Once, Item.options]) (by simp [Said]) (by simp [Said]) (skip := false) (by simp [Said])).1 h0 c!"b.tree" (by decide)
  have e : t = ⟨[], c!"b.tree"⟩ := path_unique h1 ⟨rfl, by decide, .inl rfl⟩
  rw [e] at h2
  simp [passDesk] at h2

/-- C124: `bulloak check -m` and `bulloak scaffold -w` without files. -/
example : (program passEnv [c!"check", c!"-m"] passDesk).exit = .code 0 ∧ (program passEnv [c!"scaffold", c!"-w"] passDesk).exit = .code 0 := by
  haveI := lawful_ascii
  exact ⟨((C124_nothing passEnv passDesk (items := [.opt optSkip []]) (by simp [Once, Item.options]) rfl).1 (.letters (os := [optSkip]) (cs := c!"m") (by simp) (.cons (by decide) rfl rfl .nil) .nil)
      (by simp [Said, optStdout, optSkip])).1,
    ((C124_nothing passEnv passDesk (items := [.opt optWrite []]) (by simp [Once, Item.options]) rfl).2 (.letters (os := [optWrite]) (cs := c!"w") (by simp) (.cons (by decide) rfl rfl .nil) .nil)
      (by simp [Said, optForce, optWrite])).1⟩

end Bulloak
