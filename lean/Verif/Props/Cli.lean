import Verif.Lemmas.Cli
/-!
# The commands: `scaffold` (C48, C49, C52)
-/

set_option linter.unusedSectionVars false

namespace Bulloak
open Spec

section
variable [U : Ucd]

theorem loop_invariant [LawfulUcd] {env : Env} {a : ScaffoldArgs} {P : Fs → Prop}
    (step : ∀ fs f out, f ∈ a.files → a.writeFiles = true → Good env a.config fs f out → P fs → P (writeFile a fs out f.withSolExt).1) :
    ∀ {files : List FPath} (_ : ∀ f ∈ files, f ∈ a.files) (fs : Fs) (out : List Str) (ns : List Note) (es : List (FPath × FileError)),
      P fs → P (scaffoldLoop env a files fs out ns es).fs := by
  intro files
  induction files with
  | nil => intro _ fs out ns es h; cases es <;> exact h
  | cons f files ih =>
    intro hs fs out ns es h
    have hs' : ∀ g ∈ files, g ∈ a.files := fun g hg => hs g (by simp [hg])
    unfold scaffoldLoop
    rcases processFile_cases env a fs f with ⟨o, _, hg, _, hp⟩ | ⟨_, _, hp⟩ | ⟨_, hp⟩
    · rw [hp]
      cases hw : a.writeFiles with
      | true => exact ih hs' _ _ _ _ (step fs f o (hs f (by simp)) hw hg h)
      | false => exact ih hs' _ _ _ _ h
    · rw [hp]; exact ih hs' _ _ _ _ h
    · rw [hp]; exact h

/-- **C48.** Without `-w` no file changes. -/
theorem C48_no_write [LawfulUcd] (env : Env) {a : ScaffoldArgs} (h : a.writeFiles = false) (fs : Fs) :
    (scaffoldRun env a fs).fs = fs := by
  unfold scaffoldRun
  refine loop_invariant (P := fun x => x = fs) ?_ (fun _ h => h) fs [] [] [] rfl
  intro _ _ _ _ hw
  rw [h] at hw; cases hw

/-- **C48.** Without `-f` whatever exists is left as it is. -/
theorem C48_no_overwrite [LawfulUcd] (env : Env) {a : ScaffoldArgs} (h : a.forceWrite = false) (fs : Fs) {p : FPath}
    (hp : fs.state p ≠ .absent) : (scaffoldRun env a fs).fs.state p = fs.state p := by
  unfold scaffoldRun
  refine loop_invariant (P := fun x => x.state p = fs.state p) ?_ (fun _ h => h) fs [] [] [] rfl
  intro x f out _ _ _ hx
  rw [writeFile_state, if_neg]
  · exact hx
  · rintro ⟨rfl, _, h1 | h1⟩
    · rw [h] at h1; cases h1
    · rw [hx] at h1; exact hp h1

/-- **C48.** Whatever changes is the Solidity file next to one of the given trees; it is only changed with `-w`, if it can be
written, and then holds the code generated from some text. -/
theorem C48_only_sol [LawfulUcd] (env : Env) (a : ScaffoldArgs) (fs : Fs) {p : FPath}
    (hp : (scaffoldRun env a fs).fs.state p ≠ fs.state p) :
    a.writeFiles = true ∧ fs.writable p = true ∧ ∃ f ∈ a.files, SolOf f p ∧
      ∃ text out, (scaffoldRun env a fs).fs.state p = .text out ∧ Yields env a.config text out := by
  have key : (scaffoldRun env a fs).fs.writable = fs.writable ∧ ((scaffoldRun env a fs).fs.state p = fs.state p ∨
      a.writeFiles = true ∧ fs.writable p = true ∧ ∃ f ∈ a.files, SolOf f p ∧
      ∃ text out, (scaffoldRun env a fs).fs.state p = .text out ∧ Yields env a.config text out) := by
    unfold scaffoldRun
    refine loop_invariant (P := fun x => x.writable = fs.writable ∧ (x.state p = fs.state p ∨
      a.writeFiles = true ∧ fs.writable p = true ∧ ∃ f ∈ a.files, SolOf f p ∧
      ∃ text out, x.state p = .text out ∧ Yields env a.config text out)) ?_ (fun _ h => h) fs [] [] [] ⟨rfl, Or.inl rfl⟩
    rintro x f out hf hw ⟨text, _, hy⟩ ⟨hx1, hx2⟩
    refine ⟨by rw [writeFile_writable, hx1], ?_⟩
    rw [writeFile_state]
    by_cases hc : p = f.withSolExt ∧ x.writable f.withSolExt = true ∧ (a.forceWrite = true ∨ x.state f.withSolExt = .absent)
    · rw [if_pos hc]
      exact Or.inr ⟨hw, by rw [← hx1, hc.1]; exact hc.2.1, f, hf, (solOf_iff _ _).2 hc.1, text, out, rfl, hy⟩
    · rw [if_neg hc]; exact hx2
  rcases key.2 with h | h
  · exact absurd h hp
  · exact h

/-- **C48**, contents: if no tree file is named like a Solidity test, what is written is the code of one of the tree files. -/
theorem C48_contents [LawfulUcd] {env : Env} {a : ScaffoldArgs} {fs : Fs} (hn : NoTests a.files) {p : FPath}
    (hp : (scaffoldRun env a fs).fs.state p ≠ fs.state p) :
    ∃ f ∈ a.files, SolOf f p ∧ ∃ out, Good env a.config fs f out ∧ (scaffoldRun env a fs).fs.state p = .text out := by
  have key : (∀ q : FPath, ¬ c!".t.sol" <:+ q.name → (scaffoldRun env a fs).fs.state q = fs.state q) ∧
      ((scaffoldRun env a fs).fs.state p = fs.state p ∨
      ∃ f ∈ a.files, SolOf f p ∧ ∃ out, Good env a.config fs f out ∧ (scaffoldRun env a fs).fs.state p = .text out) := by
    unfold scaffoldRun
    refine loop_invariant (P := fun x => (∀ q : FPath, ¬ c!".t.sol" <:+ q.name → x.state q = fs.state q) ∧ (x.state p = fs.state p ∨
      ∃ f ∈ a.files, SolOf f p ∧ ∃ out, Good env a.config fs f out ∧ x.state p = .text out)) ?_ (fun _ h => h) fs [] [] []
      ⟨fun _ _ => rfl, Or.inl rfl⟩
    rintro x f out hf hw hg ⟨hx1, hx2⟩
    refine ⟨?_, ?_⟩
    · intro q hq
      rw [writeFile_state, if_neg]
      · exact hx1 q hq
      · rintro ⟨rfl, _⟩
        exact hq (withSolExt_suffix f)
    · rw [writeFile_state]
      by_cases hc : p = f.withSolExt ∧ x.writable f.withSolExt = true ∧ (a.forceWrite = true ∨ x.state f.withSolExt = .absent)
      · rw [if_pos hc]
        exact Or.inr ⟨f, hf, (solOf_iff _ _).2 hc.1, out, (good_congr (hx1 f (hn f hf)) out).1 hg, rfl⟩
      · rw [if_neg hc]; exact hx2
  rcases key.2 with h | h
  · exact absurd h hp
  · exact h

theorem outputs_of {env : Env} {cfg : Config} {fs : Fs} [LawfulUcd] : ∀ {files : List FPath}
    (_ : ∀ f ∈ files, ¬ Unformatted env cfg fs f), Outputs env cfg fs files (files.filterMap (outOf env cfg fs)) := by
  intro files
  induction files with
  | nil => intro _; exact .nil
  | cons f files ih =>
    intro h
    have ih := ih (fun g hg => h g (by simp [hg]))
    rw [List.filterMap_cons]
    cases ho : outOf env cfg fs f with
    | some o => exact .good (outOf_some.1 ho) ih
    | none =>
      refine .bad ?_ ih
      rcases processFile_cases env ⟨[], false, false, cfg.solidityVersion, cfg.emitVmSkip, cfg.skipModifiers⟩ fs f with ⟨o, _, hg, _⟩ | ⟨e, hb, _⟩ | ⟨hu, _⟩
      · have hg : Good env cfg fs f o := hg
        rw [outOf_some.2 hg] at ho; cases ho
      · exact bad_iff.2 ⟨e, hb⟩
      · exact absurd hu (h f (by simp))

/-- **C49**, exit code: if the formatter accepts the generated code, the exit code is 0 if every tree can be read and is
accepted, else 1. -/
theorem C49_exit [LawfulUcd] {env : Env} {a : ScaffoldArgs} {fs : Fs} (hn : NoTests a.files)
    (hu : ∀ f ∈ a.files, ¬ Unformatted env a.config fs f) :
    ((scaffoldRun env a fs).exit = .code 0 ∧ ∀ f ∈ a.files, ¬ Bad env a.config fs f) ∨
    ((scaffoldRun env a fs).exit = .code 1 ∧ ∃ f ∈ a.files, Bad env a.config fs f) := by
  rw [run_exit hn]
  simp only [exitOf, runs_all hu, if_true, true_and]
  by_cases h : ∀ f ∈ a.files, ¬ Bad env a.config fs f
  · exact Or.inl ⟨by rw [if_pos ⟨rfl, h⟩], h⟩
  · refine Or.inr ⟨by rw [if_neg (fun x => h x.2)], ?_⟩
    exact Classical.byContradiction fun hc => h fun f hf hb => hc ⟨f, hf, hb⟩

/-- **C49**, printing: without `-w` the code of every good tree is printed, in order, whatever happens to the others. -/
theorem C49_printed [LawfulUcd] {env : Env} {a : ScaffoldArgs} {fs : Fs} (hn : NoTests a.files)
    (hu : ∀ f ∈ a.files, ¬ Unformatted env a.config fs f) (hw : a.writeFiles = false) :
    Outputs env a.config fs a.files (scaffoldRun env a fs).stdout := by
  rw [run_stdout hn]
  simp only [hw, runs_all hu, Bool.false_eq_true, if_false]
  exact outputs_of hu

theorem mem_effects {env : Env} {cfg : Config} {fs : Fs} {l : List FPath} (q : FPath) (hq : ∀ g ∈ l, ∀ o, Good env cfg fs g o → ¬ SolOf g q) :
    (l.filterMap (fun f => (outOf env cfg fs f).map (fun o => (f.withSolExt, o)))).filter (fun e => e.1 = q) = [] := by
  rw [List.filter_eq_nil_iff]
  intro e he hc
  obtain ⟨g, hg, he⟩ := List.mem_filterMap.1 he
  obtain ⟨o, ho, rfl⟩ := Option.map_eq_some_iff.1 he
  exact hq g hg o (outOf_some.1 ho) ((solOf_iff _ _).2 (of_decide_eq_true hc).symm)

theorem filter_append_effects {env : Env} {cfg : Config} {fs : Fs} {A B : List FPath} {f q : FPath} {out : Str}
    (hg : Good env cfg fs f out) (hq : SolOf f q) :
    ((A ++ f :: B).filterMap (fun f => (outOf env cfg fs f).map (fun o => (f.withSolExt, o)))).filter (fun e => e.1 = q) =
      (A.filterMap (fun f => (outOf env cfg fs f).map (fun o => (f.withSolExt, o)))).filter (fun e => e.1 = q) ++ (q, out) ::
      (B.filterMap (fun f => (outOf env cfg fs f).map (fun o => (f.withSolExt, o)))).filter (fun e => e.1 = q) := by
  have := (solOf_iff _ _).1 hq
  rw [List.filterMap_append, List.filter_append, List.filterMap_cons, outOf_some.2 hg]
  simp [← this]

/-- **C49**, writing with `-f`: the code of every good tree is written to the file next to it, unless a later good tree
has the same file. -/
theorem C49_written_force [LawfulUcd] {env : Env} {a : ScaffoldArgs} {fs : Fs} (hn : NoTests a.files)
    (hu : ∀ f ∈ a.files, ¬ Unformatted env a.config fs f) (hw : a.writeFiles = true) (hf : a.forceWrite = true)
    {A B : List FPath} {f p : FPath} (hfiles : a.files = A ++ f :: B) {out : Str} (hg : Good env a.config fs f out) (hp : SolOf f p)
    (hwp : fs.writable p = true) (hB : ∀ g ∈ B, ∀ o, Good env a.config fs g o → ¬ SolOf g p) :
    (scaffoldRun env a fs).fs.state p = .text out := by
  rw [run_fs hn]
  simp only [hw, if_true]
  rw [writeAll_force hf, if_pos hwp]
  unfold effects
  rw [runs_all hu, hfiles, filter_append_effects hg hp, mem_effects p hB]
  simp

/-- **C49**, writing without `-f`: the code of every good tree is written to the file next to it if that is missing, unless
an earlier good tree has the same file. -/
theorem C49_written [LawfulUcd] {env : Env} {a : ScaffoldArgs} {fs : Fs} (hn : NoTests a.files)
    (hu : ∀ f ∈ a.files, ¬ Unformatted env a.config fs f) (hw : a.writeFiles = true) (hf : a.forceWrite = false)
    {A B : List FPath} {f p : FPath} (hfiles : a.files = A ++ f :: B) {out : Str} (hg : Good env a.config fs f out) (hp : SolOf f p)
    (hwp : fs.writable p = true) (habs : fs.state p = .absent) (hA : ∀ g ∈ A, ∀ o, Good env a.config fs g o → ¬ SolOf g p) :
    (scaffoldRun env a fs).fs.state p = .text out := by
  rw [run_fs hn]
  simp only [hw, if_true]
  rw [writeAll_keep hf, if_pos ⟨hwp, habs⟩]
  unfold effects
  rw [runs_all hu, hfiles, ← List.head?_filter, filter_append_effects hg hp, mem_effects p hA]
  simp

/-- **C49**, crash: a tree whose generated code the formatter rejects stops the command; the trees after it are not processed. -/
theorem C49_crash [LawfulUcd] {env : Env} {a : ScaffoldArgs} {fs : Fs} (hn : NoTests a.files) {A B : List FPath} {f : FPath}
    (hfiles : a.files = A ++ f :: B) (hA : ∀ g ∈ A, ¬ Unformatted env a.config fs g) (hu : Unformatted env a.config fs f) :
    (scaffoldRun env a fs).exit = .panicked ∧
    (scaffoldRun env a fs).fs = (scaffoldRun env { a with files := A } fs).fs ∧
    (scaffoldRun env a fs).stdout = (scaffoldRun env { a with files := A } fs).stdout := by
  have hr : runs env a.config fs (A ++ f :: B) = A := by
    have e1 := runs_all hA
    unfold runs at e1 ⊢
    rw [List.takeWhile_append, if_pos (by rw [e1]), List.takeWhile_cons_of_neg (by simpa using hu), List.append_nil]
  have hn' : NoTests A := fun g hg => hn g (by rw [hfiles]; simp [hg])
  have hcfg : ({ a with files := A } : ScaffoldArgs).config = a.config := rfl
  have hne : A ≠ A ++ f :: B := by simp
  refine ⟨?_, ?_, ?_⟩
  · rw [run_exit hn]
    simp only [exitOf, hfiles, hr, if_neg hne]
  · rw [run_fs hn, run_fs (a := { a with files := A }) hn', hcfg]
    simp only [effects, hfiles, hr, runs_all hA]
    rfl
  · rw [run_stdout hn, run_stdout (a := { a with files := A }) hn', hcfg]
    simp only [hfiles, hr, runs_all hA]

/-- **C52.** Running `scaffold -w` again, with or without `-f`, changes nothing. -/
theorem C52_idempotent [LawfulUcd] {env : Env} {a : ScaffoldArgs} {fs : Fs} (hn : NoTests a.files) :
    (scaffoldRun env a (scaffoldRun env a fs).fs).fs = (scaffoldRun env a fs).fs := by
  cases hw : a.writeFiles with
  | false => rw [C48_no_write env hw]
  | true =>
    have hsame : ∀ q : FPath, ¬ c!".t.sol" <:+ q.name → (scaffoldRun env a fs).fs.state q = fs.state q := by
      intro q hq
      exact Classical.byContradiction fun hc => by
        obtain ⟨f, _, hs, _⟩ := C48_contents hn hc
        exact hq ((solOf_iff _ _).1 hs ▸ withSolExt_suffix f)
    have h2 : (scaffoldRun env a (scaffoldRun env a fs).fs).fs = writeAll a (effects env a.config fs a.files) (scaffoldRun env a fs).fs := by
      rw [show (scaffoldRun env a (scaffoldRun env a fs).fs).fs = _ from (loop_spec (base := fs) hn hsame [] [] []).1]
      simp [hw]
    rw [h2]
    have h1 : (scaffoldRun env a fs).fs = writeAll a (effects env a.config fs a.files) fs := by
      rw [run_fs hn]; simp [hw]
    rw [h1]
    exact writeAll_twice _ _ _

end
end Bulloak
