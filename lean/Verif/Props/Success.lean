import Verif.Props.Again
import Verif.Props.Pass
/-! # What it means that scaffold succeeds (C125) -/

namespace Bulloak
open Spec

theorem path_toPath {f : Str} {t : FPath} (h : PathOf f t) : t = toPath f := by
  have e := each_toPath_eq (l := [f]) (ps := [t]) (.cons h .nil)
  simpa using e

private theorem once_each {α : Type} (l : List α) : ∃ l' : List α, l'.Nodup ∧ ∀ x, x ∈ l' ↔ x ∈ l := by
  classical
  induction l with
  | nil => exact ⟨[], .nil, fun _ => Iff.rfl⟩
  | cons y l ih =>
    obtain ⟨l', h1, h2⟩ := ih
    by_cases hy : y ∈ l'
    · refine ⟨l', h1, fun x => ?_⟩
      rw [List.mem_cons, h2 x]
      exact ⟨.inr, fun h => h.elim (fun e => e ▸ (h2 y).1 hy) id⟩
    · exact ⟨y :: l', List.nodup_cons.2 ⟨hy, h1⟩, fun x => by rw [List.mem_cons, List.mem_cons, h2 x]⟩

/-- Every list of arguments says something. -/
theorem says_exists (items : List Item) : ∃ a, SaysScaffold items a := by
  classical
  by_cases hv : Said optVersion items
  · obtain ⟨v, hm⟩ := hv
    exact ⟨⟨(Item.files items).map toPath, decide (Said optWrite items), decide (Said optForce items), v, decide (Said optVmSkip items), decide (Said optSkip items)⟩,
      ⟨each_toPath _, by simp, by simp, .inl hm, by simp, by simp⟩⟩
  · exact ⟨⟨(Item.files items).map toPath, decide (Said optWrite items), decide (Said optForce items), c!"0.8.0", decide (Said optVmSkip items), decide (Said optSkip items)⟩,
      ⟨each_toPath _, by simp, by simp, .inr ⟨hv, rfl⟩, by simp, by simp⟩⟩

section
variable [U : Ucd] [LawfulUcd]

private theorem good_or {env : Env} {cfg : Config} {fs : Fs} {f : FPath} (hb : ¬ Bad env cfg fs f) (hu : ¬ Unformatted env cfg fs f) : ∃ out, Good env cfg fs f out := by
  rcases processFile_cases env ⟨[], false, false, cfg.solidityVersion, cfg.emitVmSkip, cfg.skipModifiers⟩ fs f with ⟨o, _, hg, _⟩ | ⟨e, he, _⟩ | ⟨h, _⟩
  · exact ⟨o, hg⟩
  · exact absurd (bad_iff.2 ⟨e, he⟩) hb
  · exact absurd h hu

private theorem exit_zero {env : Env} {a : ScaffoldArgs} {fs : Fs} (hn : NoTests a.files) :
    (scaffoldRun env a fs).exit = .code 0 ↔ ∀ f ∈ a.files, ∃ out, Good env a.config fs f out := by
  rw [run_exit hn]
  unfold exitOf
  constructor
  · intro h f hf
    split at h
    · next hr =>
      split at h
      · next hb => exact good_or (hb.2 f hf) (runs_eq hr f hf)
      · cases h
    · cases h
  · intro h
    rw [if_pos (runs_all fun f hf => (h f hf).elim fun _ g => good_formatted g), if_pos ⟨rfl, fun f hf => (h f hf).elim fun _ g => good_not_bad g⟩]

omit U [LawfulUcd] in
private theorem files_eq {items : List Item} {a : ScaffoldArgs} (hv : SaysScaffold items a) : a.files = (Item.files items).map toPath := each_toPath_eq hv.files

omit [LawfulUcd] in
private theorem runs_as {env : Env} {fs : Fs} {rest : List Str} {items : List Item} {a : ScaffoldArgs} (h : Spelled scaffoldTable items rest) (ho : Once items)
    (hf : Said optForce items → Said optWrite items) (hv : SaysScaffold items a) : program env (c!"scaffold" :: rest) fs = .ran (scaffoldRun env a fs) := by
  unfold program
  rw [(C86_scaffold rest a).2 ⟨items, h, ho, hf, hv⟩]

/-- **C125.** `bulloak scaffold` exits with 0 exactly if every file given can be read, holds valid trees, and the formatter accepts the code of them. -/
theorem C125_exit {env : Env} {fs : Fs} {rest : List Str} {items : List Item} {a : ScaffoldArgs} (h : Spelled scaffoldTable items rest) (ho : Once items)
    (hf : Said optForce items → Said optWrite items) (hv : SaysScaffold items a) (hn : ∀ f ∈ Item.files items, ∀ t, PathOf f t → ¬ c!".t.sol" <:+ t.name) :
    (program env (c!"scaffold" :: rest) fs).exit = .code 0 ↔ ∀ f ∈ Item.files items, ∃ t out, PathOf f t ∧ Good env a.config fs t out := by
  rw [runs_as h ho hf hv]
  show (scaffoldRun env a fs).exit = .code 0 ↔ _
  have e := files_eq hv
  rw [exit_zero (by
    intro t ht
    rw [e] at ht
    obtain ⟨f, hf, rfl⟩ := List.mem_map.1 ht
    exact hn f hf _ (toPath_of f)), e]
  constructor
  · intro hg f hf
    obtain ⟨out, ho⟩ := hg _ (List.mem_map_of_mem hf)
    exact ⟨_, out, toPath_of f, ho⟩
  · intro hg t ht
    obtain ⟨f, hf, rfl⟩ := List.mem_map.1 ht
    obtain ⟨t, out, h1, h2⟩ := hg f hf
    rw [path_toPath h1] at h2
    exact ⟨out, h2⟩

/-- **C125**, `-w`: after success, the Solidity file of every tree file holds its code, except if it cannot be written, or it was there before and `-f` is not given; then it is as before. -/
theorem C125_written {env : Env} {fs : Fs} {rest : List Str} {items : List Item} {a : ScaffoldArgs} (h : Spelled scaffoldTable items rest) (ho : Once items)
    (hf : Said optForce items → Said optWrite items) (hv : SaysScaffold items a) (hn : ∀ f ∈ Item.files items, ∀ t, PathOf f t → TreeNamed t)
    (hw : Said optWrite items) (h0 : (program env (c!"scaffold" :: rest) fs).exit = .code 0) {f : Str} (hfm : f ∈ Item.files items) {t p : FPath} (ht : PathOf f t) (hp : SolOf t p) :
    ∃ out, Good env a.config fs t out ∧
      (fs.writable p = true ∧ (Said optForce items ∨ fs.state p = .absent) → ((program env (c!"scaffold" :: rest) fs).fs fs).state p = .text out) ∧
      (¬ (fs.writable p = true ∧ (Said optForce items ∨ fs.state p = .absent)) → ((program env (c!"scaffold" :: rest) fs).fs fs).state p = fs.state p) := by
  classical
  rw [runs_as h ho hf hv] at h0 ⊢
  replace h0 : (scaffoldRun env a fs).exit = .code 0 := h0
  show ∃ out, _ ∧ (_ → (scaffoldRun env a fs).fs.state p = .text out) ∧ (_ → (scaffoldRun env a fs).fs.state p = fs.state p)
  have e := files_eq hv
  have htree : ∀ g ∈ a.files, TreeNamed g := by
    intro g hg
    rw [e] at hg
    obtain ⟨s, hs, rfl⟩ := List.mem_map.1 hg
    exact hn s hs _ (toPath_of s)
  have hnt : NoTests a.files := fun g hg => (C116_separate (files := [g]) (by intro x hx; rw [List.mem_singleton.1 hx]; exact htree g hg) (by simp)).2 g (by simp)
  have hall := (exit_zero hnt).1 h0
  have hta : t ∈ a.files := by rw [e, path_toPath ht]; exact List.mem_map_of_mem hfm
  obtain ⟨out, hout⟩ := hall t hta
  have hwt : a.writeFiles = true := hv.write.2 hw
  have hfc : a.forceWrite = true ↔ Said optForce items := hv.force
  refine ⟨out, hout, ?_, ?_⟩
  · rintro ⟨w1, w2⟩
    obtain ⟨l, hl1, hl2⟩ := once_each a.files
    have hex := C123_scaffold (env := env) (fs := fs) (a := a) (files' := l) htree hl2 (by rw [h0]; decide)
    rw [← hex.1]
    obtain ⟨A, B, hAB⟩ := List.append_of_mem ((hl2 t).2 hta)
    have hown := (C116_separate (files := l) (fun g hg => htree g ((hl2 g).1 hg)) hl1).1
    unfold OwnFiles at hown
    rw [hAB, List.pairwise_append] at hown
    have hnt' : NoTests l := fun g hg => hnt g ((hl2 g).1 hg)
    have hu : ∀ g ∈ l, ¬ Unformatted env a.config fs g := fun g hg => (hall g ((hl2 g).1 hg)).elim fun _ k => good_formatted k
    by_cases hfw : a.forceWrite = true
    · refine C49_written_force (a := { a with files := l }) hnt' hu hwt hfw hAB hout hp w1 ?_
      intro g hg _ _ hs
      exact (List.pairwise_cons.1 hown.2.1).1 g hg _ hp hs
    · refine C49_written (a := { a with files := l }) hnt' hu hwt (by simpa using hfw) hAB hout hp w1 ?_ ?_
      · rcases w2 with w2 | w2
        · exact absurd (hfc.2 w2) hfw
        · exact w2
      · intro g hg _ _ hs
        exact hown.2.2 g hg t (by simp) _ hs hp
  · intro hno
    apply Classical.byContradiction
    intro hc
    refine hno ⟨(C48_only_sol env a fs hc).2.1, ?_⟩
    by_cases hfo : Said optForce items
    · exact .inl hfo
    · refine .inr (Classical.byContradiction fun hab => hc ?_)
      exact C48_no_overwrite env (by simpa using fun k => hfo (hfc.1 k)) fs hab

/-- **C125**, without `-w`: after success, the code of every file has been printed, in the order of the files. -/
theorem C125_printed {env : Env} {fs : Fs} {rest : List Str} {items : List Item} {a : ScaffoldArgs} (h : Spelled scaffoldTable items rest) (ho : Once items)
    (hf : Said optForce items → Said optWrite items) (hv : SaysScaffold items a) (hn : ∀ f ∈ Item.files items, ∀ t, PathOf f t → ¬ c!".t.sol" <:+ t.name)
    (hw : ¬ Said optWrite items) (h0 : (program env (c!"scaffold" :: rest) fs).exit = .code 0) :
    ∃ r, program env (c!"scaffold" :: rest) fs = .ran r ∧ Each (fun f out => ∃ t, PathOf f t ∧ Good env a.config fs t out) (Item.files items) r.stdout := by
  rw [runs_as h ho hf hv] at h0 ⊢
  replace h0 : (scaffoldRun env a fs).exit = .code 0 := h0
  refine ⟨_, rfl, ?_⟩
  have e := files_eq hv
  have hnt : NoTests a.files := by
    intro t ht
    rw [e] at ht
    obtain ⟨f, hf, rfl⟩ := List.mem_map.1 ht
    exact hn f hf _ (toPath_of f)
  have hall := (exit_zero hnt).1 h0
  have hout := C49_printed hnt (fun f hf => (hall f hf).elim fun _ k => good_formatted k) (by simpa using fun k => hw (hv.write.1 k))
  rw [e] at hout hall
  revert hout hall
  generalize (scaffoldRun env a fs).stdout = outs
  clear h0 hnt e hn h ho hf hw hv
  generalize Item.files items = fl
  induction fl generalizing outs with
  | nil => intro hall h; cases h; exact .nil
  | cons f fl ih =>
    intro hall h
    cases h with
    | good hg hr => exact .cons ⟨_, toPath_of f, hg⟩ (ih _ (fun g hg => hall g (List.mem_cons_of_mem _ hg)) hr)
    | bad hb _ =>
      obtain ⟨o, hg⟩ := hall _ List.mem_cons_self
      exact absurd hb (good_not_bad hg)

/-- **C125**, for any command line: if `bulloak scaffold` exits with 0 then it was asked for help, or every file given can be read, holds valid trees, and the formatter accepts their code (unless a file
is named like a Solidity test). -/
theorem C125_only {env : Env} {fs : Fs} {rest : List Str} (h : (program env (c!"scaffold" :: rest) fs).exit = .code 0) :
    HelpAsked (c!"scaffold" :: rest) ∨ ∃ items a, Spelled scaffoldTable items rest ∧ Once items ∧ (Said optForce items → Said optWrite items) ∧ SaysScaffold items a ∧
      ((∀ f ∈ Item.files items, ∀ t, PathOf f t → ¬ c!".t.sol" <:+ t.name) → ∀ f ∈ Item.files items, ∃ t out, PathOf f t ∧ Good env a.config fs t out) := by
  classical
  by_cases hh : HelpAsked (c!"scaffold" :: rest)
  · exact .inl hh
  · refine .inr ?_
    have h2 : ¬ (program env (c!"scaffold" :: rest) fs).exit = .code 2 := by rw [h]; decide
    rw [C112_refused] at h2
    have h3 : ∃ rest' items, c!"scaffold" :: rest = c!"scaffold" :: rest' ∧ Spelled scaffoldTable items rest' ∧ Once items ∧ (Said optForce items → Said optWrite items) := by
      apply Classical.byContradiction
      intro hn
      refine h2 ⟨hh, hn, ?_⟩
      rintro ⟨r, i, e, _⟩
      have := (List.cons.inj e).1
      revert this
      decide
    obtain ⟨rest', items, e, h1, h2, h3⟩ := h3
    obtain rfl := (List.cons.inj e).2
    obtain ⟨a, h4⟩ := says_exists items
    exact ⟨items, _, h1, h2, h3, h4, fun hn => (C125_exit h1 h2 h3 h4 hn).1 h⟩

end

/-! ## Cases -/

attribute [local instance] asciiUcd

/-- Three files with the same tree: the Solidity file of the first is missing, that of the second cannot be written, that of the third is there. -/
private def shelf : Fs :=
  ⟨fun p => if p = ⟨[], c!"a.tree"⟩ ∨ p = ⟨[], c!"b.tree"⟩ ∨ p = ⟨[], c!"c.tree"⟩ then .text c!"Foo\n├── it a\n└── when b\n    └── it c" else
    if p = ⟨[], c!"c.t.sol"⟩ then .text c!"mine" else .absent, fun p => decide (p ≠ ⟨[], c!"b.t.sol"⟩)⟩

/-- A formatter that changes nothing. -/
private def envF : Env := ⟨some, fun _ => none, fun c => some c.src, id⟩

private theorem path_of (x : Char) (h : x ≠ '/') : PathOf [x, '.', 't', 'r', 'e', 'e'] ⟨[], [x, '.', 't', 'r', 'e', 'e']⟩ := ⟨rfl, by simp [Ne.symm h], .inl rfl⟩

set_option maxRecDepth 16000 in
private theorem shelf_source : (sourceOf .default c!"Foo\n├── it a\n└── when b\n    └── it c").isSome = true := by cbv

private theorem source_yields {cfg : Config} {text src : Str} (h : sourceOf cfg text = some src) : Yields envF cfg text src := by
  unfold sourceOf at h
  cases hs : scaffoldSource id cfg text with
  | ok s =>
    rw [hs] at h
    cases h
    exact ⟨src, src, hs, rfl, .inl rfl⟩
  | err e => rw [hs] at h; cases h
  | panic => rw [hs] at h; cases h

private theorem shelf_good {t : FPath} (h : t = ⟨[], c!"a.tree"⟩ ∨ t = ⟨[], c!"b.tree"⟩ ∨ t = ⟨[], c!"c.tree"⟩) : ∃ out, Good envF .default shelf t out := by
  obtain ⟨src, hs⟩ := Option.isSome_iff_exists.1 shelf_source
  exact ⟨src, _, if_pos h, source_yields hs⟩

private def saidW : List Item := [.opt optWrite [], .file c!"a.tree", .file c!"b.tree", .file c!"c.tree"]

private theorem spelledW : Spelled scaffoldTable saidW [c!"-w", c!"a.tree", c!"b.tree", c!"c.tree"] :=
  .letters (os := [optWrite]) (cs := c!"w") (by simp) (.cons (by decide) rfl rfl .nil)
    (.file (by decide) (.inr (by simp)) (.file (by decide) (.inr (by simp)) (.file (by decide) (.inr (by simp)) .nil)))

private theorem saysW : SaysScaffold saidW ⟨[⟨[], c!"a.tree"⟩, ⟨[], c!"b.tree"⟩, ⟨[], c!"c.tree"⟩], true, false, c!"0.8.0", false, false⟩ :=
  ⟨.cons (path_of 'a' (by decide)) (.cons (path_of 'b' (by decide)) (.cons (path_of 'c' (by decide)) .nil)), by simp [Said, saidW], by simp [Said, saidW, optForce, optWrite],
    .inr ⟨by simp [Said, saidW, optVersion, optWrite], rfl⟩, by simp [Said, saidW, optVmSkip, optWrite], by simp [Said, saidW, optSkip, optWrite]⟩

private theorem namedW : ∀ f ∈ Item.files saidW, ∀ t, PathOf f t → TreeNamed t := by
  intro f hf t ht
  have hf : f = c!"a.tree" ∨ f = c!"b.tree" ∨ f = c!"c.tree" := by simpa [saidW, Item.files] using hf
  rw [path_toPath ht]
  rcases hf with rfl | rfl | rfl
  · exact ⟨c!"a", by decide, by decide +kernel⟩
  · exact ⟨c!"b", by decide, by decide +kernel⟩
  · exact ⟨c!"c", by decide, by decide +kernel⟩

/-- C125: `bulloak scaffold -w a.tree b.tree c.tree` succeeds … -/
private theorem zeroW : (program envF [c!"scaffold", c!"-w", c!"a.tree", c!"b.tree", c!"c.tree"] shelf).exit = .code 0 := by
  haveI := lawful_ascii
  refine (C125_exit spelledW (by simp [Once, Item.options, saidW]) (fun _ => ⟨[], by simp [saidW]⟩) saysW (fun f hf t ht => ?_)).2 ?_
  · obtain ⟨x, _, e⟩ := namedW f hf t ht
    exact tree_noTest ⟨x, e.symm⟩
  · intro f hf
    have hf : f = c!"a.tree" ∨ f = c!"b.tree" ∨ f = c!"c.tree" := by simpa [saidW, Item.files] using hf
    rcases hf with rfl | rfl | rfl
    · exact ⟨_, (shelf_good (.inl rfl)).elim fun o h => ⟨o, path_of 'a' (by decide), h⟩⟩
    · exact ⟨_, (shelf_good (.inr (.inl rfl))).elim fun o h => ⟨o, path_of 'b' (by decide), h⟩⟩
    · exact ⟨_, (shelf_good (.inr (.inr rfl))).elim fun o h => ⟨o, path_of 'c' (by decide), h⟩⟩

/-- C125: … but only the first tree gets a file with its code: the second one has none, and the third one has what was there before. -/
example : (∃ out, Good envF .default shelf ⟨[], c!"a.tree"⟩ out ∧
      ((program envF [c!"scaffold", c!"-w", c!"a.tree", c!"b.tree", c!"c.tree"] shelf).fs shelf).state ⟨[], c!"a.t.sol"⟩ = .text out) ∧
    ((program envF [c!"scaffold", c!"-w", c!"a.tree", c!"b.tree", c!"c.tree"] shelf).fs shelf).state ⟨[], c!"b.t.sol"⟩ = .absent ∧
    ((program envF [c!"scaffold", c!"-w", c!"a.tree", c!"b.tree", c!"c.tree"] shelf).fs shelf).state ⟨[], c!"c.t.sol"⟩ = .text c!"mine" := by
  haveI := lawful_ascii
  have key := fun (f : Str) (hf : f ∈ Item.files saidW) (t p : FPath) (ht : PathOf f t) (hp : SolOf t p) =>
    C125_written spelledW (by simp [Once, Item.options, saidW]) (fun _ => ⟨[], by simp [saidW]⟩) saysW namedW ⟨[], by simp [saidW]⟩ zeroW hf ht hp
  have nof : ¬ Said optForce saidW := by simp [Said, saidW, optForce, optWrite]
  refine ⟨?_, ?_, ?_⟩
  · obtain ⟨out, h1, h2, _⟩ := key c!"a.tree" (by decide) _ ⟨[], c!"a.t.sol"⟩ (path_of 'a' (by decide)) ((solOf_iff _ _).2 (by decide +kernel))
    exact ⟨out, h1, h2 ⟨by decide +kernel, .inr (by simp [shelf])⟩⟩
  · obtain ⟨out, _, _, h3⟩ := key c!"b.tree" (by decide) _ ⟨[], c!"b.t.sol"⟩ (path_of 'b' (by decide)) ((solOf_iff _ _).2 (by decide +kernel))
    rw [h3 (fun h => absurd h.1 (by decide +kernel))]
    simp [shelf]
  · obtain ⟨out, _, _, h3⟩ := key c!"c.tree" (by decide) _ ⟨[], c!"c.t.sol"⟩ (path_of 'c' (by decide)) ((solOf_iff _ _).2 (by decide +kernel))
    rw [h3 (fun h => h.2.elim nof (by simp [shelf]))]
    simp [shelf]

/-- C125: without `-w` the code is printed. -/
example : ∃ r out, program envF [c!"scaffold", c!"a.tree"] shelf = .ran r ∧ Good envF .default shelf ⟨[], c!"a.tree"⟩ out ∧ r.stdout = [out] := by
  haveI := lawful_ascii
  have hs : Spelled scaffoldTable [.file c!"a.tree"] [c!"a.tree"] := .file (by decide) (.inr (by simp)) .nil
  have hv : SaysScaffold [.file c!"a.tree"] ⟨[⟨[], c!"a.tree"⟩], false, false, c!"0.8.0", false, false⟩ :=
    ⟨.cons (path_of 'a' (by decide)) .nil, by simp [Said], by simp [Said], .inr ⟨by simp [Said], rfl⟩, by simp [Said], by simp [Said]⟩
  have hn : ∀ f ∈ Item.files [.file c!"a.tree"], ∀ t, PathOf f t → ¬ c!".t.sol" <:+ t.name := by
    intro f hf t ht
    rw [path_toPath ht, List.mem_singleton.1 hf]
    exact tree_noTest ⟨c!"a", by decide +kernel⟩
  have h0 : (program envF [c!"scaffold", c!"a.tree"] shelf).exit = .code 0 :=
    (C125_exit hs (by simp [Once, Item.options]) (by simp [Said]) hv hn).2 fun f hf => by
      rw [List.mem_singleton.1 hf]
      exact ⟨_, (shelf_good (.inl rfl)).elim fun o h => ⟨o, path_of 'a' (by decide), h⟩⟩
  obtain ⟨r, h1, h2⟩ := C125_printed hs (by simp [Once, Item.options]) (by simp [Said]) hv hn (by simp [Said]) h0
  revert h2
  generalize e : r.stdout = outs
  intro h2
  cases h2 with
  | cons hg hr =>
    cases hr
    obtain ⟨t, ht, hg⟩ := hg
    rw [path_toPath ht] at hg
    exact ⟨r, _, h1, hg, e⟩

end Bulloak
