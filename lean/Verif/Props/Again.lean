import Verif.Props.Paths
/-! # Files given more than once -/

namespace Bulloak
open Spec

private theorem ends_eq {α : Type} {l l' : List α} (h : ∀ x ∈ l, ∀ y ∈ l, x = y) (hm : ∀ x, x ∈ l ↔ x ∈ l') :
    l.head? = l'.head? ∧ l.getLast? = l'.getLast? := by
  cases l with
  | nil =>
    cases l' with
    | nil => exact ⟨rfl, rfl⟩
    | cons y t => exact absurd ((hm y).2 (by simp)) (by simp)
  | cons x s =>
    cases l' with
    | nil => exact absurd ((hm x).1 (by simp)) (by simp)
    | cons y t =>
      refine ⟨congrArg some (h x (by simp) y ((hm y).2 (by simp))), ?_⟩
      rw [List.getLast?_eq_some_getLast (List.cons_ne_nil _ _), List.getLast?_eq_some_getLast (List.cons_ne_nil _ _)]
      exact congrArg some (h _ (List.getLast_mem _) _ ((hm _).2 (List.getLast_mem _)))

private theorem apart {files : List FPath} (h : ∀ f ∈ files, TreeNamed f) {f g p : FPath} (hf : f ∈ files) (hg : g ∈ files) (h1 : SolOf f p) (h2 : SolOf g p) : f = g := by
  apply Classical.byContradiction
  intro hne
  obtain ⟨h3, _⟩ := C116_separate (files := [f, g]) (by
    intro x hx
    simp only [List.mem_cons, List.not_mem_nil, or_false] at hx
    rcases hx with rfl | rfl
    · exact h _ hf
    · exact h _ hg) (by simp [hne])
  exact (List.pairwise_cons.1 h3).1 g (by simp) p h1 h2

private theorem no_tests {files : List FPath} (h : ∀ f ∈ files, TreeNamed f) : NoTests files := fun f hf => by
  obtain ⟨_, h2⟩ := C116_separate (files := [f]) (by intro x hx; rw [List.mem_singleton.1 hx]; exact h f hf) (by simp)
  exact h2 f (by simp)

section
variable [U : Ucd]

/-- **C123**, `scaffold`: it ends in the same way and writes the same files in whatever order and however often the trees are given, unless the formatter rejects one. -/
theorem C123_scaffold [LawfulUcd] {env : Env} {fs : Fs} {a : ScaffoldArgs} {files' : List FPath} (h : ∀ f ∈ a.files, TreeNamed f) (hm : ∀ f, f ∈ files' ↔ f ∈ a.files)
    (hx : (scaffoldRun env a fs).exit ≠ .panicked) :
    (scaffoldRun env { a with files := files' } fs).fs = (scaffoldRun env a fs).fs ∧
    (scaffoldRun env { a with files := files' } fs).exit = (scaffoldRun env a fs).exit := by
  have hn := no_tests h
  have hn' : NoTests files' := fun f hf => hn f ((hm f).1 hf)
  have hcfg : ({ a with files := files' } : ScaffoldArgs).config = a.config := rfl
  rw [run_exit hn] at hx ⊢
  rw [run_exit (a := { a with files := files' }) hn', run_fs hn, run_fs (a := { a with files := files' }) hn', hcfg]
  have hr : runs env a.config fs a.files = a.files := Classical.byContradiction fun hc => hx (by unfold exitOf; rw [if_neg hc])
  have hr' : runs env a.config fs files' = files' := runs_all fun f hf => runs_eq hr f ((hm f).1 hf)
  have hbad : (∀ f ∈ files', ¬ Bad env a.config fs f) ↔ ∀ f ∈ a.files, ¬ Bad env a.config fs f :=
    ⟨fun h f hf => h f ((hm f).2 hf), fun h f hf => h f ((hm f).1 hf)⟩
  constructor
  · simp only
    split
    · refine Fs.ext (fun q => ?_) (by rw [writeAll_writable, writeAll_writable])
      have e := ends_eq (l := (effects env a.config fs a.files).filter (fun e => e.1 = q)) (l' := (effects env a.config fs files').filter (fun e => e.1 = q)) (by
        unfold effects
        rw [hr]
        intro x hx y hy
        obtain ⟨hx1, hx2⟩ := List.mem_filter.1 hx
        obtain ⟨hy1, hy2⟩ := List.mem_filter.1 hy
        obtain ⟨f, hf, hx3⟩ := List.mem_filterMap.1 hx1
        obtain ⟨g, hg, hy3⟩ := List.mem_filterMap.1 hy1
        obtain ⟨o, ho, rfl⟩ := Option.map_eq_some_iff.1 hx3
        obtain ⟨o', ho', rfl⟩ := Option.map_eq_some_iff.1 hy3
        have e : f = g := apart h hf hg ((solOf_iff _ _).2 (of_decide_eq_true hx2).symm) ((solOf_iff _ _).2 (of_decide_eq_true hy2).symm)
        subst e
        rw [ho] at ho'
        cases ho'
        rfl) (by
        intro x
        unfold effects
        rw [hr, hr']
        simp only [List.mem_filter, List.mem_filterMap, hm])
      by_cases hf : a.forceWrite = true
      · rw [writeAll_force (a := { a with files := files' }) hf, writeAll_force hf, e.2]
      · have hf' : a.forceWrite = false := by simpa using hf
        rw [writeAll_keep (a := { a with files := files' }) hf', writeAll_keep hf', ← List.head?_filter, ← List.head?_filter, e.1]
    · rfl
  · unfold exitOf
    rw [if_pos hr, if_pos hr']
    by_cases h : ∀ f ∈ a.files, ¬ Bad env a.config fs f
    · rw [if_pos ⟨rfl, hbad.2 h⟩, if_pos ⟨rfl, h⟩]
    · rw [if_neg (fun x => h (hbad.1 x.2)), if_neg (fun x => h x.2)]

/-- **C123**, `check`: it ends in the same way in whatever order and however often the files are given. -/
theorem C123_check [LawfulUcd] {env : Env} {fs : Fs} {a : CheckArgs} (hf : a.fix = false) {files' : List FPath} (hm : ∀ f, f ∈ files' ↔ f ∈ a.files) :
    (checkRun env { a with files := files' } fs).exit = (checkRun env a fs).exit := by
  rcases C51_exit (env := env) (fs := fs) hf with ⟨h1, h2⟩ | ⟨h1, h2, t, ht, h3⟩ | ⟨h1, t, ht, ctx, h3, h4⟩ <;>
    rcases C51_exit (env := env) (a := { a with files := files' }) (fs := fs) hf with ⟨g1, g2⟩ | ⟨g1, g2, t', ht', g3⟩ | ⟨g1, t', ht', ctx', g3, g4⟩ <;>
    rw [h1, g1]
  · obtain ⟨c, k1, k2⟩ := h2 t' ((hm _).1 ht')
    exact absurd k2 (g3 c k1)
  · obtain ⟨c, k1, k2⟩ := h2 t' ((hm _).1 ht')
    rw [opens_same k1 g3, g4] at k2
    cases k2
  · obtain ⟨c, k1, k2⟩ := g2 t ((hm _).2 ht)
    exact absurd k2 (h3 c k1)
  · exact absurd g4 (h2 t' ((hm _).1 ht') ctx' g3)
  · obtain ⟨c, k1, k2⟩ := g2 t ((hm _).2 ht)
    rw [opens_same k1 h3, h4] at k2
    cases k2
  · exact absurd h4 (g2 t ((hm _).2 ht) ctx h3)

omit U in
private theorem last_mention {α : Type} {x : α} {l : List α} (h : x ∈ l) : ∃ A B, l = A ++ x :: B ∧ x ∉ B := by
  classical
  induction l with
  | nil => cases h
  | cons y l ih =>
    by_cases hx : x ∈ l
    · obtain ⟨A, B, h1, h2⟩ := ih hx
      exact ⟨y :: A, B, by rw [h1]; rfl, h2⟩
    · rcases List.mem_cons.1 h with rfl | h
      · exact ⟨[], l, rfl, hx⟩
      · exact absurd h hx

private theorem fix_state [LawfulUcd] {env : Env} {a b : CheckArgs} {fs : Fs} (hfa : b.fix = a.fix) (hst : b.stdout = a.stdout) (hsk : b.skipModifiers = a.skipModifiers)
    (h : ∀ f ∈ b.files, TreeNamed f) (hm : ∀ f, f ∈ a.files ↔ f ∈ b.files) (hx : ∀ t ∈ b.files, ∀ ctx, Opens env b.skipModifiers fs t ctx → ¬ FixCrashes env ctx) {q : FPath}
    (hq : (checkRun env a fs).fs.state q ≠ fs.state q) : (checkRun env b fs).fs.state q = (checkRun env a fs).fs.state q := by
  obtain ⟨h1, h2, h3, t, ht, h4, ctx, h5, out, h6, h7⟩ := C50_only_sol hq
  rw [h7]
  obtain ⟨A, B, hAB, hB⟩ := last_mention ((hm t).1 ht)
  refine C50_written (hfa.trans h1) (hst.trans h2) hAB (fun g hg => hx g (by rw [hAB]; simp [hg])) ?_ (hsk ▸ h5) h6 h4 h3
  intro g hg hs
  rw [apart h (by rw [hAB]; simp [hg]) ((hm t).1 ht) hs h4] at hg
  exact hB hg

/-- **C123**, `check --fix`: it ends in the same way and, unless it crashes, leaves the same files in whatever order and however often the trees are given. -/
theorem C123_fix [LawfulUcd] {env : Env} {fs : Fs} {a : CheckArgs} (hf : a.fix = true) {files' : List FPath} (h : ∀ f ∈ a.files, TreeNamed f) (hm : ∀ f, f ∈ files' ↔ f ∈ a.files) :
    (checkRun env { a with files := files' } fs).exit = (checkRun env a fs).exit ∧
    ((checkRun env a fs).exit ≠ .panicked → (checkRun env { a with files := files' } fs).fs = (checkRun env a fs).fs) := by
  rcases C51_exit_fix (env := env) (fs := fs) hf with ⟨h1, h2⟩ | ⟨h1, t, ht, ctx, h3, h4⟩ <;>
    rcases C51_exit_fix (env := env) (a := { a with files := files' }) (fs := fs) hf with ⟨g1, g2⟩ | ⟨g1, t', ht', ctx', g3, g4⟩
  · refine ⟨g1.trans h1.symm, fun _ => Fs.ext (fun q => ?_) (by rw [fix_writable hf, fix_writable (a := { a with files := files' }) hf])⟩
    by_cases hq : (checkRun env a fs).fs.state q = fs.state q
    · by_cases hq' : (checkRun env { a with files := files' } fs).fs.state q = fs.state q
      · rw [hq, hq']
      · exact (fix_state (a := { a with files := files' }) (b := a) rfl rfl rfl h hm h2 hq').symm
    · exact fix_state (a := a) (b := { a with files := files' }) rfl rfl rfl (fun f hf => h f ((hm f).1 hf)) (fun f => (hm f).symm) g2 hq
  · exact absurd g4 (h2 t' ((hm _).1 ht') ctx' g3)
  · exact absurd h4 (g2 t ((hm _).2 ht) ctx h3)
  · exact ⟨g1.trans h1.symm, fun h => absurd h1 h⟩

end

/-! ## Cases -/

attribute [local instance] asciiUcd

/-- Two trees; the Solidity file of the first has another contract. -/
private def twoDisk : Fs :=
  ⟨fun p => if p.name = c!"a.tree" then .text c!"Foo\n└── it a" else if p.name = c!"b.tree" then .text c!"Foo\nBar" else
    if p.name = c!"a.t.sol" then .text c!"contract Bar {}" else .absent, fun _ => true⟩

private def twoEnv : Env := ⟨some, fun s =>
  if s = c!"contract Bar {}" then (some [.contract ⟨some c!"Bar", 0, 15, []⟩]) else (some [.contract ⟨some c!"Foo", 0, 15, []⟩]), fun c => some c.src, id⟩

private def ta : FPath := ⟨c!"x/", c!"a.tree"⟩
private def tb : FPath := ⟨c!"x/", c!"b.tree"⟩

private theorem two_named : ∀ f ∈ [ta, tb], TreeNamed f := by
  intro f hf
  simp only [List.mem_cons, List.not_mem_nil, or_false] at hf
  rcases hf with rfl | rfl
  · exact ⟨c!"a", by decide, rfl⟩
  · exact ⟨c!"b", by decide, rfl⟩

private theorem two_members (f : FPath) : f ∈ [tb, ta, ta] ↔ f ∈ [ta, tb] := by simp only [List.mem_cons, List.not_mem_nil, or_false]; grind

set_option maxRecDepth 16000 in
private theorem two_ends : (scaffoldRun twoEnv ⟨[ta, tb], true, true, c!"0.8.0", false, false⟩ twoDisk).exit = .code 1 ∧
    (checkRun twoEnv ⟨[ta, tb], true, false, false⟩ twoDisk).exit = .code 0 ∧ (checkRun twoEnv ⟨[ta, tb], false, false, false⟩ twoDisk).exit = .code 1 := by
  refine ⟨?_, ?_, ?_⟩ <;> cbv

/-- C123, `scaffold -w -f` -/
example : (scaffoldRun twoEnv ⟨[tb, ta, ta], true, true, c!"0.8.0", false, false⟩ twoDisk).fs = (scaffoldRun twoEnv ⟨[ta, tb], true, true, c!"0.8.0", false, false⟩ twoDisk).fs ∧
    (scaffoldRun twoEnv ⟨[tb, ta, ta], true, true, c!"0.8.0", false, false⟩ twoDisk).exit = .code 1 := by
  haveI := lawful_ascii
  obtain ⟨h1, h2⟩ := C123_scaffold (env := twoEnv) (fs := twoDisk) (a := ⟨[ta, tb], true, true, c!"0.8.0", false, false⟩) two_named two_members (by rw [two_ends.1]; exact nofun)
  exact ⟨h1, h2.trans two_ends.1⟩

/-- C123, `check` -/
example : (checkRun twoEnv ⟨[tb, ta, ta], false, false, false⟩ twoDisk).exit = .code 1 := by
  haveI := lawful_ascii
  exact (C123_check (env := twoEnv) (fs := twoDisk) (a := ⟨[ta, tb], false, false, false⟩) rfl two_members).trans two_ends.2.2

/-- C123, `check --fix` -/
example : (checkRun twoEnv ⟨[tb, ta, ta], true, false, false⟩ twoDisk).fs = (checkRun twoEnv ⟨[ta, tb], true, false, false⟩ twoDisk).fs := by
  haveI := lawful_ascii
  exact (C123_fix (env := twoEnv) (fs := twoDisk) (a := ⟨[ta, tb], true, false, false⟩) rfl two_named two_members).2 (by rw [two_ends.2.1]; exact nofun)

set_option maxRecDepth 16000 in
/-- What is printed does depend on it: two issues of a file that is given twice count as four. -/
example : (checkRun twoEnv ⟨[ta], true, false, false⟩ twoDisk).stdout = [c!"\nsuccess: 2 issues fixed."] ∧
    (checkRun twoEnv ⟨[ta, ta], true, false, false⟩ twoDisk).stdout = [c!"\nsuccess: 4 issues fixed."] := by
  refine ⟨?_, ?_⟩ <;> cbv

set_option maxRecDepth 16000 in
/-- And `scaffold -w` says that it skips a file that was not there before. -/
example : (scaffoldRun twoEnv ⟨[ta, ta], true, false, c!"0.8.0", false, false⟩ ⟨fun p => if p = ta then .text c!"Foo\n└── it a" else .absent, fun _ => true⟩).stderr =
    [.skipped ⟨c!"x/", c!"a.t.sol"⟩] := by cbv

end Bulloak
