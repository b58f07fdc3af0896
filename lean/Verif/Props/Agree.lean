import Verif.Props.Success
import Verif.Props.Report
/-! # Both commands accept the same trees (C126) -/

namespace Bulloak
open Spec

section
variable [U : Ucd] [LawfulUcd]

/-- **C126**, options: no option changes which files are accepted, or the error of a file that is not. -/
theorem C126_same_error (order : HashOrder) (cfg cfg' : Config) (text : Str) (e : TranslateError) :
    translate order cfg text = .err e ↔ translate order cfg' text = .err e := by
  cases h : cfg.emitVmSkip <;> cases h' : cfg'.emitVmSkip
  · rw [translate_flags (h.trans h'.symm)]
  · exact (C24_vm_skip h h' text).2 e
  · exact ((C24_vm_skip h' h text).2 e).symm
  · rw [translate_flags (h.trans h'.symm)]

/-- **C126**, exit codes: if `bulloak check` passes, then `bulloak scaffold` does not report an error for any of the files, whatever the options are. -/
theorem C126_exit {env : Env} {fs : Fs} {rest rest' : List Str} {items items' : List Item} (h : Spelled checkTable items rest) (ho : Once items)
    (hfix : ¬ Said optFix items) (hout : ¬ Said optStdout items) (h' : Spelled scaffoldTable items' rest') (ho' : Once items') (hf : Said optForce items' → Said optWrite items')
    (hn : ∀ f ∈ Item.files items', ∀ t, PathOf f t → ¬ c!".t.sol" <:+ t.name) (hsub : ∀ f ∈ Item.files items', f ∈ Item.files items)
    (h0 : (program env (c!"check" :: rest) fs).exit = .code 0) : (program env (c!"scaffold" :: rest') fs).exit ≠ .code 1 := by
  classical
  have hclean := (C124_passes h ho hfix hout (skip := decide (Said optSkip items)) (by simp)).1 h0
  obtain ⟨a, hv⟩ := says_exists items'
  intro h1
  have hrun : program env (c!"scaffold" :: rest') fs = .ran (scaffoldRun env a fs) := by
    unfold program
    rw [(C86_scaffold rest' a).2 ⟨items', h', ho', hf, hv⟩]
  rw [hrun] at h1
  replace h1 : (scaffoldRun env a fs).exit = .code 1 := h1
  have e : a.files = (Item.files items').map toPath := each_toPath_eq hv.files
  have hnt : NoTests a.files := by
    intro t ht
    rw [e] at ht
    obtain ⟨f, hf, rfl⟩ := List.mem_map.1 ht
    exact hn f hf _ (toPath_of f)
  have hgood : ∀ t ∈ a.files, ¬ Bad env a.config fs t := by
    intro t ht
    rw [e] at ht
    obtain ⟨f, hf, rfl⟩ := List.mem_map.1 ht
    obtain ⟨t, text, n, fns, _, _, _, _, k1, k2, k3, _⟩ := hclean f (hsub f hf)
    rw [path_toPath k1] at k2
    rintro (k | ⟨text', e, k4, k5⟩)
    · exact k _ k2
    · rw [k2] at k4
      cases k4
      rw [(C126_same_error env.order a.config .default text e).1 k5] at k3
      cases k3
  rw [run_exit hnt] at h1
  unfold exitOf at h1
  split at h1
  · rw [if_pos ⟨rfl, hgood⟩] at h1
    cases h1
  · cases h1

private theorem checked_kinds {env : Env} {skip : Bool} {fs : Fs} {t : FPath} {ctx : Context} (h : Opens env skip fs t ctx) {vs : List Violation} (hv : checkCtx ctx = .ok vs)
    {v : Violation} (hm : v ∈ vs) (e : AnyError) : v.kind ≠ .parsingFailed e := by
  obtain ⟨text, hir, p, src, u, h1, h2, h3, h4, h5, rfl⟩ := h
  obtain ⟨n, fns, rfl, _⟩ := translate_ok h2
  by_cases hs : ∃ s, FirstContract u s
  · obtain ⟨s, hs⟩ := hs
    obtain ⟨v1, v2, v3, rfl, k1, _, k2, k3⟩ := C39_kinds (ctx := ⟨t.str, _, p.str, src, u, skip⟩) rfl hs hv
    rcases List.mem_append.1 hm with hm | hm
    · rcases List.mem_append.1 hm with hm | hm
      · obtain ⟨_, _, k⟩ := k1 v hm
        simp [k]
      · obtain ⟨_, _, k⟩ := k2 v hm
        simp [k]
    · obtain ⟨_, _, _, k⟩ := k3 v hm
      simp [k]
  · rw [C37_no_contract (ctx := ⟨t.str, _, p.str, src, u, skip⟩) rfl (fun s k => hs ⟨s, k⟩)] at hv
    cases hv
    rw [List.mem_singleton.1 hm]
    simp

omit [LawfulUcd] in
private theorem sorted_mem {env : Env} {skip : Bool} {fs : Fs} {files : List FPath} {vs : List Violation} {cs : List (Context × FPath)}
    (h : Sorted env skip fs files vs cs) : (∀ v ∈ vs, ∃ t ∈ files, Refused env fs t v) ∧ ∀ c ∈ cs, ∃ t ∈ files, Opens env skip fs t c.1 := by
  induction h with
  | nil => exact ⟨by simp, by simp⟩
  | refused h1 _ ih =>
    refine ⟨fun v hv => ?_, fun c hc => (ih.2 c hc).imp fun _ k => ⟨List.mem_cons_of_mem _ k.1, k.2⟩⟩
    rcases List.mem_cons.1 hv with rfl | hv
    · exact ⟨_, List.mem_cons_self, h1⟩
    · exact (ih.1 v hv).imp fun _ k => ⟨List.mem_cons_of_mem _ k.1, k.2⟩
  | opens h1 _ _ ih =>
    refine ⟨fun v hv => (ih.1 v hv).imp fun _ k => ⟨List.mem_cons_of_mem _ k.1, k.2⟩, fun c hc => ?_⟩
    rcases List.mem_cons.1 hc with rfl | hc
    · exact ⟨_, List.mem_cons_self, h1⟩
    · exact (ih.2 c hc).imp fun _ k => ⟨List.mem_cons_of_mem _ k.1, k.2⟩

/-- **C126**, messages: `scaffold` and `check`, on the same files, reject the same trees with the same errors (`check` may show less of them, see C55). -/
theorem C126_rejected {env : Env} {fs : Fs} {a : ScaffoldArgs} {b : CheckArgs} (hn : NoTests a.files) (hfiles : ∀ f, f ∈ a.files ↔ f ∈ b.files) (hfix : b.fix = false)
    (hx : (scaffoldRun env a fs).exit ≠ .panicked) (hx' : (checkRun env b fs).exit ≠ .panicked) (e : TranslateError) (path : Str) :
    (∃ f, f.str = path ∧ .failed f (.tree e) ∈ (scaffoldRun env a fs).stderr) ↔
      .violation ⟨.parsingFailed (.tree e), .file path⟩ ∈ (checkRun env b fs).stderr := by
  have hu : ∀ f ∈ a.files, ¬ Unformatted env a.config fs f := by
    rw [run_exit hn] at hx
    exact runs_eq (Classical.byContradiction fun hc => hx (by unfold exitOf; rw [if_neg hc]))
  constructor
  · rintro ⟨f, rfl, hm⟩
    obtain ⟨hf, ⟨_, k⟩ | ⟨text, e', k1, k2, k3⟩⟩ := ((C61_which hn hu).1 f _).1 hm
    · cases k
    · cases k3
      exact (rejected_reported hfix ((hfiles f).1 hf) k1 ((C126_same_error _ _ _ _ _).1 k2) hx').1
  · intro hm
    obtain ⟨refused, cs, h1, h2⟩ := C62_reports (env := env) (fs := fs) hfix
    obtain ⟨g1, g2⟩ := sorted_mem h1
    rcases h2 with ⟨vss, vs, h3, rfl, ⟨_, h4, _⟩ | ⟨_, _, h4⟩⟩ | ⟨_, h4, _⟩
    · rw [h4] at hm; cases hm
    · rw [h4] at hm
      rcases List.mem_append.1 hm with hm | hm
      · obtain ⟨v, hv, e1⟩ := List.mem_map.1 hm
        cases e1
        rcases List.mem_append.1 hv with hv | hv
        · obtain ⟨t, ht, hr⟩ := g1 _ hv
          cases hr with
          | rejected k1 k2 => exact ⟨t, rfl, ((C61_which hn hu).1 t _).2 ⟨(hfiles t).2 ht, .inr ⟨_, _, k1, (C126_same_error _ _ _ _ _).1 k2, rfl⟩⟩⟩
        · obtain ⟨ws, hws, hv⟩ := List.mem_flatten.1 hv
          obtain ⟨c, hc, hcv⟩ := each_right h3 _ hws
          obtain ⟨t, _, ho⟩ := g2 c hc
          exact absurd rfl (checked_kinds ho hcv hv _)
      · simp at hm
    · rw [h4] at hm; cases hm

end

/-! ## Cases -/

attribute [local instance] asciiUcd

/-- C126: `bulloak check a.tree` passes, so `bulloak scaffold -w -S a.tree` finds no error. -/
example : (program passEnv [c!"scaffold", c!"-wS", c!"a.tree"] passDesk).exit ≠ .code 1 := by
  haveI := lawful_ascii
  have h : Spelled checkTable [.file c!"a.tree"] [c!"a.tree"] := .file (by decide) (.inr (by simp)) .nil
  have h' : Spelled scaffoldTable [.opt optWrite [], .opt optVmSkip [], .file c!"a.tree"] [c!"-wS", c!"a.tree"] :=
    .letters (os := [optWrite, optVmSkip]) (cs := c!"wS") (by simp) (.cons (by decide) rfl rfl (.cons (by decide) rfl rfl .nil)) (.file (by decide) (.inr (by simp)) .nil)
  refine C126_exit h (by simp [Once, Item.options]) (by simp [Said]) (by simp [Said]) h' (by simp [Once, Item.options, optWrite, optVmSkip]) (fun _ => ⟨[], by simp⟩) ?_
    (by simp [Item.files]) ((C124_passes h (by simp [Once, Item.options]) (by simp [Said]) (by simp [Said]) (skip := false) (by simp [Said])).2 ?_)
  · intro f hf t ht
    have hf : f = c!"a.tree" := by simpa [Item.files] using hf
    rw [path_toPath ht, hf]
    exact tree_noTest ⟨c!"a", by decide +kernel⟩
  · intro f hf
    rw [List.mem_singleton.1 hf]
    exact pass_clean false

/-- Two files, one with a condition without children. -/
private def twoFiles : Fs :=
  ⟨fun p => if p = ⟨[], c!"b.tree"⟩ then .text c!"Foo\n└── when a" else .absent, fun _ => true⟩

set_option maxRecDepth 16000 in
private theorem b_rejected : (match translate id .default c!"Foo\n└── when a" with | .err _ => true | _ => false) = true := by cbv

/-- C126: both commands reject it. -/
example : ∃ e, translate id .default c!"Foo\n└── when a" = .err e ∧
    .violation ⟨.parsingFailed (.tree e), .file c!"b.tree"⟩ ∈ (checkRun passEnv ⟨[⟨[], c!"b.tree"⟩, ⟨[], c!"c.tree"⟩], false, false, true⟩ twoFiles).stderr ∧
    ∃ f : FPath, f.str = c!"b.tree" ∧ .failed f (.tree e) ∈ (scaffoldRun passEnv ⟨[⟨[], c!"c.tree"⟩, ⟨[], c!"b.tree"⟩], true, true, c!"0.8.0", true, false⟩ twoFiles).stderr := by
  haveI := lawful_ascii
  have ht : ∃ e, translate id .default c!"Foo\n└── when a" = .err e := by
    cases ht : translate id .default c!"Foo\n└── when a" with
    | err e => exact ⟨e, rfl⟩
    | ok r => have := b_rejected; rw [ht] at this; cases this
    | panic => have := b_rejected; rw [ht] at this; cases this
  obtain ⟨e, he⟩ := ht
  have hb : twoFiles.state ⟨[], c!"b.tree"⟩ = .text c!"Foo\n└── when a" := by simp [twoFiles]
  have hc : twoFiles.state ⟨[], c!"c.tree"⟩ = .absent := by decide +kernel
  have hx : (checkRun passEnv ⟨[⟨[], c!"b.tree"⟩, ⟨[], c!"c.tree"⟩], false, false, true⟩ twoFiles).exit ≠ .panicked := by
    intro hp
    rcases C51_exit (env := passEnv) (fs := twoFiles) (a := ⟨[⟨[], c!"b.tree"⟩, ⟨[], c!"c.tree"⟩], false, false, true⟩) rfl with ⟨h, _⟩ | ⟨h, _⟩ | ⟨_, t, ht, ctx, ⟨text, hir, _, _, _, k1, k2, _⟩, _⟩
    · rw [h] at hp; cases hp
    · rw [h] at hp; cases hp
    · simp only [List.mem_cons, List.not_mem_nil, or_false] at ht
      rcases ht with rfl | rfl
      · rw [hb] at k1
        cases k1
        have k2 : translate id .default c!"Foo\n└── when a" = .ok hir := k2
        rw [he] at k2
        cases k2
      · rw [hc] at k1
        cases k1
  have hn : NoTests [⟨[], c!"c.tree"⟩, ⟨[], c!"b.tree"⟩] := by
    intro f hf
    simp only [List.mem_cons, List.not_mem_nil, or_false] at hf
    rcases hf with rfl | rfl
    · exact tree_noTest ⟨c!"c", by decide +kernel⟩
    · exact tree_noTest ⟨c!"b", by decide +kernel⟩
  have hx' : (scaffoldRun passEnv ⟨[⟨[], c!"c.tree"⟩, ⟨[], c!"b.tree"⟩], true, true, c!"0.8.0", true, false⟩ twoFiles).exit ≠ .panicked := by
    have hu : ∀ f ∈ [(⟨[], c!"c.tree"⟩ : FPath), ⟨[], c!"b.tree"⟩], ∀ cfg, ¬ Unformatted passEnv cfg twoFiles f := by
      rintro f _ cfg ⟨_, _, _, _, k⟩
      cases k
    rcases C49_exit (env := passEnv) (fs := twoFiles) (a := ⟨[⟨[], c!"c.tree"⟩, ⟨[], c!"b.tree"⟩], true, true, c!"0.8.0", true, false⟩) hn (fun f hf => hu f hf _) with ⟨h, _⟩ | ⟨h, _⟩ <;>
      rw [h] <;> decide
  have hv := (rejected_reported (env := passEnv) (a := ⟨[⟨[], c!"b.tree"⟩, ⟨[], c!"c.tree"⟩], false, false, true⟩) rfl (t := ⟨[], c!"b.tree"⟩) (by simp) hb he hx).1
  exact ⟨e, he, hv, (C126_rejected (a := ⟨[⟨[], c!"c.tree"⟩, ⟨[], c!"b.tree"⟩], true, true, c!"0.8.0", true, false⟩) hn (by intro f; simp [or_comm]) rfl hx' hx e c!"b.tree").2 hv⟩

end Bulloak
