import Verif.Props.Session
import Verif.Props.Keep
/-!
# Fixing twice, and fixing with other code or without a contract: C103, C104
-/

namespace Bulloak
open Spec
set_option linter.unusedSectionVars false

section
variable [U : Ucd]

/-! ## Fixing twice -/

/-- Formatting what the formatter has put out gives it back. -/
def Spec.StableFmt (env : Env) : Prop :=
  ∀ ctx out u, env.ctxFmt ctx = some out → env.solParse out = some u → env.ctxFmt { ctx with src := out, pt := u } = some out

theorem fixContext_silent {P : SolParser} {ctx : Context} (h : checkCtx ctx = .ok []) : fixContext P ctx = .ok (ctx, 0) := by
  unfold fixContext
  simp [h, fixAll]

theorem fixLoop_silent {env : Env} {a : CheckArgs} (hst : a.stdout = false) {fs : Fs} : ∀ (cs : List (Context × FPath)),
    (∀ c ∈ cs, checkCtx c.1 = .ok [] ∧ fs.writable c.2 = true ∧ ∃ out, env.ctxFmt c.1 = some out ∧ fs.state c.2 = .text out) →
    fixLoop env a cs fs [] [] 0 = ⟨fs, [c!"\nsuccess: 0 issues fixed."], [], .code 0⟩
  | [], _ => rfl
  | (ctx, p) :: cs, h => by
    obtain ⟨h1, h2, out, h3, h4⟩ := h (ctx, p) (by simp)
    rw [fixLoop_step (fixContext_silent h1) h3]
    have e : fs.write p out = some fs := by
      unfold Fs.write
      rw [if_pos h2]
      congr 1
      obtain ⟨st, w⟩ := fs
      congr 1
      funext q
      split
      · rename_i hq; subst hq; exact h4.symm
      · rfl
    have e2 : checkWrite a fs out p = (fs, [], []) := by
      unfold checkWrite
      rw [hst, e]
      rfl
    rw [e2]
    exact fixLoop_silent hst cs (fun c hc => h c (by simp [hc]))

/-- **C103.** If all files conform and are formatted, `check --fix` says that it has fixed nothing and changes nothing. -/
theorem C103_nothing [LawfulUcd] {env : Env} {a : CheckArgs} {fs : Fs} (hfix : a.fix = true) (hst : a.stdout = false)
    (hok : ∀ t ∈ a.files, ∃ ctx, Opens env a.skipModifiers fs t ctx ∧ checkCtx ctx = .ok [] ∧ env.ctxFmt ctx = some ctx.src)
    (hw : ∀ t ∈ a.files, ∀ p, SolOf t p → fs.writable p = true) :
    checkRun env a fs = ⟨fs, [c!"\nsuccess: 0 issues fixed."], [], .code 0⟩ := by
  obtain ⟨cs, vs, h1, h2, _⟩ := contexts_spec env a.skipModifiers fs a.files
  unfold checkRun
  rw [h1]
  simp only [hfix, if_true]
  apply fixLoop_silent hst
  intro c hc
  rw [h2] at hc
  obtain ⟨t, ht, he⟩ := List.mem_filterMap.1 hc
  obtain ⟨ctx, ho, h3, h4⟩ := hok t ht
  rw [contextNew_ok.2 ⟨ho, rfl⟩] at he
  cases he
  obtain ⟨text, hir, p, src, u, g1, g2, g3, g4, g5, rfl⟩ := ho
  rw [← (solOf_iff _ _).1 g3]
  exact ⟨h3, hw t ht _ g3, src, h4, g4⟩

/-- What is there after fixing. -/
theorem fixed_opens [LawfulUcd] {env : Env} {a : CheckArgs} {fs : Fs} (hn : NoTests a.files)
    (hfix : a.fix = true) (hst : a.stdout = false) (hown : OwnFiles a.files)
    (hwell : ∀ t ∈ a.files, ∃ ctx, Opens env a.skipModifiers fs t ctx ∧ FixesWell env ctx)
    (hw : ∀ t ∈ a.files, ∀ p, SolOf t p → fs.writable p = true) {t : FPath} (ht : t ∈ a.files) :
    ∃ ctx out u, env.ctxFmt ctx = some out ∧ env.solParse out = some u ∧
      Opens env a.skipModifiers (checkRun env a fs).fs t { ctx with src := out, pt := u } ∧ checkCtx { ctx with src := out, pt := u } = .ok [] := by
  have hnc : ∀ t ∈ a.files, ∀ ctx, Opens env a.skipModifiers fs t ctx → ¬ FixCrashes env ctx := by
    intro t ht ctx ho
    obtain ⟨c, hc, ctx', n, out, u, h1, _, h2, _⟩ := hwell t ht
    cases opens_unique ho hc
    rintro (h | ⟨_, _, h, h'⟩)
    · rw [h1] at h; cases h
    · rw [h1] at h; cases h
      rw [h2] at h'; cases h'
  obtain ⟨c, hc, ctx', n, out, u, h1, h2, h3, h4, h5⟩ := hwell t ht
  have hsol : SolOf t t.withSolExt := (solOf_iff _ _).2 rfl
  obtain ⟨A, B, hAB⟩ := List.append_of_mem ht
  have hp := hown
  unfold OwnFiles at hp
  rw [hAB, List.pairwise_append] at hp
  have hstate : (checkRun env a fs).fs.state t.withSolExt = .text out := by
    refine C50_written hfix hst hAB (fun g hg => hnc g (by rw [hAB]; simp [hg])) ?_ hc ⟨ctx', n, h1, h3⟩ hsol (hw t ht _ hsol)
    intro g hg hs
    exact (List.pairwise_cons.1 hp.2.1).1 g hg _ hsol hs
  obtain ⟨text, hir, p, src, u0, g1, g2, g3, g4, g5, rfl⟩ := hc
  have htree : (checkRun env a fs).fs.state t = .text text := by
    rw [← g1]
    refine Classical.byContradiction fun hc => ?_
    obtain ⟨_, _, _, g, _, hs, _⟩ := C50_only_sol hc
    exact hn t ht ((solOf_iff _ _).1 hs ▸ withSolExt_suffix g)
  obtain ⟨m, fns, rfl, _⟩ := translate_ok g2
  have hsame := fixContext_same h1
  rw [(solOf_iff _ _).1 g3] at hsame
  have e : ({ ctx' with src := out, pt := u } : Context) = ⟨t.str, ⟨[⟨m, fns⟩]⟩, t.withSolExt.str, out, u, a.skipModifiers⟩ := by
    obtain ⟨s1, s2, s3, s4⟩ := hsame
    simp only at s1 s2 s3 s4
    simp only [s1, s2, s3, s4]
  refine ⟨ctx', out, u, h3, h4, ?_, ?_⟩
  · rw [e]
    exact ⟨text, _, _, out, u, htree, g2, hsol, hstate, h4, rfl⟩
  · exact silent_same (ctx := ctx') ⟨rfl, rfl, rfl, rfl⟩ h5 (n := m) (fns := fns) hsame.2.1 h2

/-- **C103.** Under the conditions of C60 (the fixed code conforms and survives formatting), `check --fix` has nothing to do the second time: it reports no fixes and
changes no file, if the formatter leaves alone what it has formatted. -/
theorem C103_twice [LawfulUcd] {env : Env} {a : CheckArgs} {fs : Fs} (hS : StableFmt env) (hn : NoTests a.files)
    (hfix : a.fix = true) (hst : a.stdout = false) (hown : OwnFiles a.files)
    (hwell : ∀ t ∈ a.files, ∃ ctx, Opens env a.skipModifiers fs t ctx ∧ FixesWell env ctx)
    (hw : ∀ t ∈ a.files, ∀ p, SolOf t p → fs.writable p = true) :
    checkRun env a (checkRun env a fs).fs = ⟨(checkRun env a fs).fs, [c!"\nsuccess: 0 issues fixed."], [], .code 0⟩ := by
  apply C103_nothing hfix hst
  · intro t ht
    obtain ⟨ctx, out, u, h1, h2, h3, h4⟩ := fixed_opens hn hfix hst hown hwell hw ht
    exact ⟨_, h3, h4, hS ctx out u h1 h2⟩
  · intro t ht p hp
    rw [checkRun_writable]
    exact hw t ht p hp

/-! ## Everything that can be fixed -/

/-- A Solidity file that `check --fix` can repair for a tree with functions `fns`: it has no contract; or it is valid and the contract has the functions of the tree in
order; or it is valid, each function is declared once, and no three of them are reversed, and none of them is blocked by other code. -/
inductive Spec.Mendable (env : Env) (G : SolGrammar) (skip : Bool) (text n : Str) (fns : List HFn) (src : Str) : Prop
  | absent {u : SolUnit} : Legible env.order .default text → env.solParse src = some u → (∀ s, ¬ FirstContract u s) → Mendable env G skip text n fns src
  | order {L L1 : Layout} : src = L.text → L.Fits G → L1.Fits G → Ascii L.text → Renamed (sanitize n) L L1 → '{' ∉ L1.header →
      InOrder fns L.parts → ¬ (skip = true ∧ BehindMissing fns L) → Mendable env G skip text n fns src
  | mixed {L L1 : Layout} : src = L.text → L.Fits G → L1.Fits G → Ascii L.text → Renamed (sanitize n) L L1 → '{' ∉ L1.header → skip = false →
      Mixed fns L → NoReversedTriple fns L.parts → ¬ Blocked fns L.parts → Ascii L1.text → (∀ f ∈ fns, Ascii (emitFunction f)) → DeclaredOnce fns L1 →
      Mendable env G skip text n fns src

theorem keepsFiles_some (G : SolGrammar) : KeepsFiles some G := by
  intro src out v s n fns e h1 h2 h3
  cases e
  exact ⟨v, h3, h1, h2⟩

theorem mendable_well [LawfulUcd] {env : Env} {G : SolGrammar} (ho : ∀ l, (env.order l).Perm l) (hG : G.HasGenerated) (hP : Reader env.solParse G)
    (hF : KeepsContract env.ctxFmt G) (hb : G.before (headTokens c!"0.8.0" false)) {text n : Str} {fns : List HFn}
    (ht : translate env.order .default text = .ok ⟨[⟨n, fns⟩]⟩) (hf : ∀ f ∈ fns, ReadableFn f) (hd : Distinct fns) {ctx : Context}
    (hh : ctx.hir = ⟨[⟨n, fns⟩]⟩) (hpt : env.solParse ctx.src = some ctx.pt) (hm : Mendable env G ctx.skipModifiers text n fns ctx.src) : FixesWell env ctx := by
  have finish : ∀ (L' : Layout) (u : SolUnit) (k : Nat), fixContext env.solParse ctx = .ok ({ ctx with src := L'.text, pt := u }, k) → L'.Fits G →
      FirstContract u L'.contract → checkCtx { ctx with src := L'.text, pt := u } = .ok [] → FixesWell env ctx := by
    intro L' u k h1 h2 h3 h4
    obtain ⟨L'', h5, h6, h7, h8⟩ := hF { ctx with src := L'.text, pt := u } L' rfl h2 h3
    obtain ⟨v, h9, h10⟩ := hP L'' h6
    refine ⟨_, k, L''.text, v, h1, h4, h5, h9, ?_⟩
    intro s hs
    obtain rfl : s = L'.contract := Option.some.inj (((findContract_iff _ _).2 hs).symm.trans ((findContract_iff _ _).2 h3))
    exact ⟨L''.contract, h10, h7, h8⟩
  cases hm with
  | @absent u hl hu hno =>
    rw [hpt] at hu
    cases hu
    have hsrc : scaffoldSource env.order .default text = .ok (emitSource (ptTranslate .default ⟨[⟨n, fns⟩]⟩)) := by
      unfold scaffoldSource
      rw [ht]; rfl
    obtain ⟨L, e, hL, ⟨v, hv, hfc⟩, hn, hw⟩ := C90_reads_back (env := { env with forgeFmt := some }) hG hP (keepsFiles_some G) (cfg := .default)
      (by unfold UsualVersion; decide) hb hl ⟨_, _, hsrc, rfl, .inl rfl⟩ ht
    have hwr : written .default fns = fns := by rw [← written_eq]; simp [Config.default]
    rw [hwr] at hw
    rw [← e] at hsrc
    obtain ⟨h1, h2⟩ := C46_regenerate ho ht hh hno hsrc hv hfc hn hw (distinct_tests hd)
    exact finish L v 1 h1 hL hfc h2
  | @order L L1 hs hL hL1 hA hr hbr hor hnb => exact fixes_well hG hP hF hh hf hL hL1 hs hpt hr hbr hd hA (.order hor hnb)
  | @mixed L L1 hs hL hL1 hA hr hbr hsk hm h3 hnb hA1 hFa hD =>
    obtain ⟨L', u, vs, _, h1, h2, h4, _, h5⟩ := C101_exact hG hP hh hf hL hL1 hs hpt hr hbr hsk hd hm h3 hA hA1 hFa hD
    exact finish L' u _ h1 h2 h4 (h5.2 hnb)

/-- **C104.** `check --fix` exits with 0, then `check` exits with 0, and a second `check --fix` changes nothing: if every tree is translated to functions that can be read and
differ, every Solidity file is `Mendable`, different trees have different Solidity files, and these are writable; for every parser that reads valid files correctly
and every formatter that keeps contracts and what it has formatted. -/
theorem C104_mend [LawfulUcd] {env : Env} {G : SolGrammar} (ho : ∀ l, (env.order l).Perm l) (hG : G.HasGenerated) (hP : Reader env.solParse G)
    (hF : KeepsContract env.ctxFmt G) (hS : StableFmt env) (hb : G.before (headTokens c!"0.8.0" false)) {a : CheckArgs} {fs : Fs} (hn : NoTests a.files)
    (hfix : a.fix = true) (hst : a.stdout = false) (hown : OwnFiles a.files)
    (hgood : ∀ t ∈ a.files, ∃ text n fns p src u, fs.state t = .text text ∧ translate env.order .default text = .ok ⟨[⟨n, fns⟩]⟩ ∧
      (∀ f ∈ fns, ReadableFn f) ∧ Distinct fns ∧ SolOf t p ∧ fs.state p = .text src ∧ env.solParse src = some u ∧
      Mendable env G a.skipModifiers text n fns src)
    (hw : ∀ t ∈ a.files, ∀ p, SolOf t p → fs.writable p = true) :
    (checkRun env a fs).exit = .code 0 ∧ (checkRun env { a with fix := false } (checkRun env a fs).fs).exit = .code 0 ∧
      checkRun env a (checkRun env a fs).fs = ⟨(checkRun env a fs).fs, [c!"\nsuccess: 0 issues fixed."], [], .code 0⟩ := by
  have hwell : ∀ t ∈ a.files, ∃ ctx, Opens env a.skipModifiers fs t ctx ∧ FixesWell env ctx := by
    intro t ht
    obtain ⟨text, n, fns, p, src, u, h1, h2, h3, h4, h5, h6, h7, h8⟩ := hgood t ht
    exact ⟨⟨t.str, ⟨[⟨n, fns⟩]⟩, p.str, src, u, a.skipModifiers⟩, ⟨text, _, p, _, u, h1, h2, h5, h6, h7, rfl⟩,
      mendable_well ho hG hP hF hb h2 h3 h4 rfl h7 h8⟩
  obtain ⟨h1, h2⟩ := C60_fix_then_check hn hfix hst hown hwell hw
  exact ⟨h1, h2, C103_twice hS hn hfix hst hown hwell hw⟩

end
end Bulloak
