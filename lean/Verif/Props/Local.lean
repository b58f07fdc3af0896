import Verif.Spec.Local
import Verif.Props.Main
/-!
# A run depends only on the files it is given (C122)
-/

namespace Bulloak
open Spec
set_option linter.unusedSectionVars false

section
variable [U : Ucd]

/-! ## scaffold -/

/-- What stays the same during two runs of `scaffold`. -/
private structure Twin (files : List FPath) (f0 f0' fs fs' : Fs) : Prop where
  trees : ∀ t ∈ files, fs.state t = fs'.state t
  there : ∀ t ∈ files, BothThere fs fs' t.withSolExt
  writable : ∀ t ∈ files, fs.writable t.withSolExt = fs'.writable t.withSolExt
  wrote : WroteSame f0 f0' fs fs'

private theorem exists_iff {fs fs' : Fs} {p : FPath} (h : BothThere fs fs' p) : fs.exists_ p = fs'.exists_ p := by
  unfold BothThere at h
  unfold Fs.exists_
  cases h1 : fs.state p <;> cases h2 : fs'.state p <;> simp [h1, h2] at h ⊢

private theorem write_twin {files : List FPath} {f0 f0' fs fs' : Fs} (h : Twin files f0 f0' fs fs') {a : ScaffoldArgs} {t : FPath} (ht : t ∈ files) (o : Str) :
    (writeFile a fs o t.withSolExt).2 = (writeFile a fs' o t.withSolExt).2 ∧
      Twin files f0 f0' (writeFile a fs o t.withSolExt).1 (writeFile a fs' o t.withSolExt).1 := by
  unfold writeFile
  rw [exists_iff (h.there t ht)]
  split
  · exact ⟨rfl, h⟩
  · unfold Fs.write
    rw [h.writable t ht]
    by_cases hw : fs'.writable t.withSolExt = true
    · simp only [hw, if_true]
      refine ⟨trivial, ⟨?_, ?_, h.writable, ?_⟩⟩
      · intro u hu
        show (if u = t.withSolExt then _ else _) = (if u = t.withSolExt then _ else _)
        split
        · rfl
        · exact h.trees u hu
      · intro u hu
        show (if u.withSolExt = t.withSolExt then _ else _) = _ ↔ (if u.withSolExt = t.withSolExt then _ else _) = _
        split
        · exact Iff.rfl
        · exact h.there u hu
      · intro p
        show (if p = t.withSolExt then _ else _) = (if p = t.withSolExt then _ else _) ∨
          ((if p = t.withSolExt then _ else _) = _ ∧ (if p = t.withSolExt then _ else _) = _)
        split
        · exact .inl rfl
        · exact h.wrote p
    · simp only [Bool.not_eq_true] at hw
      simp only [hw, Bool.false_eq_true, if_false]
      exact ⟨trivial, h⟩

private theorem read_eq {fs fs' : Fs} {t : FPath} (h : fs.state t = fs'.state t) : fs.read t = fs'.read t := by
  unfold Fs.read; rw [h]

private theorem process_twin {files : List FPath} {f0 f0' fs fs' : Fs} (h : Twin files f0 f0' fs fs') {env : Env} {a : ScaffoldArgs} {t : FPath}
    (ht : t ∈ files) :
    (∃ g g' o n, processFile env a fs t = .ok (g, o, n) ∧ processFile env a fs' t = .ok (g', o, n) ∧ Twin files f0 f0' g g') ∨
    (∃ e, processFile env a fs t = .err e ∧ processFile env a fs' t = .err e) ∨
    (processFile env a fs t = .panic ∧ processFile env a fs' t = .panic) := by
  unfold processFile
  rw [read_eq (h.trees t ht)]
  cases fs'.read t with
  | none => exact .inr (.inl ⟨_, rfl, rfl⟩)
  | some text =>
    simp only [Res.okOr, Res.bind_ok]
    cases scaffold env.forgeFmt env.order a.config text with
    | err e => exact .inr (.inl ⟨_, rfl, rfl⟩)
    | panic => exact .inr (.inr ⟨rfl, rfl⟩)
    | ok emitted =>
      simp only [Res.mapErr, Res.bind_ok]
      cases a.writeFiles with
      | false => exact .inl ⟨fs, fs', _, _, rfl, rfl, h⟩
      | true =>
        cases env.forgeFmt emitted with
        | none =>
          obtain ⟨h1, h2⟩ := write_twin (a := a) h ht emitted
          refine .inl ⟨_, _, _, _, rfl, ?_, h2⟩
          simp only [if_true, h1]
        | some o =>
          obtain ⟨h1, h2⟩ := write_twin (a := a) h ht o
          refine .inl ⟨_, _, _, _, rfl, ?_, h2⟩
          simp only [if_true, h1]

private theorem loop_twin {files : List FPath} {f0 f0' : Fs} {env : Env} {a : ScaffoldArgs} : ∀ (l : List FPath), (∀ t ∈ l, t ∈ files) → ∀ (fs fs' : Fs),
    Twin files f0 f0' fs fs' → ∀ out notes errs, ShowSame (scaffoldLoop env a l fs out notes errs) (scaffoldLoop env a l fs' out notes errs) ∧
      Twin files f0 f0' (scaffoldLoop env a l fs out notes errs).fs (scaffoldLoop env a l fs' out notes errs).fs := by
  intro l
  induction l with
  | nil =>
    intro _ fs fs' h out notes errs
    unfold scaffoldLoop
    split <;> exact ⟨⟨rfl, rfl, rfl⟩, h⟩
  | cons t l ih =>
    intro hl fs fs' h out notes errs
    have hl' : ∀ u ∈ l, u ∈ files := fun u hu => hl u (List.mem_cons_of_mem _ hu)
    rcases process_twin (env := env) (a := a) h (hl t List.mem_cons_self) with ⟨g, g', o, n, h1, h2, h3⟩ | ⟨e, h1, h2⟩ | ⟨h1, h2⟩
    · simp only [scaffoldLoop, h1, h2]
      exact ih hl' g g' h3 _ _ _
    · simp only [scaffoldLoop, h1, h2]
      exact ih hl' fs fs' h _ _ _
    · simp only [scaffoldLoop, h1, h2]
      exact ⟨⟨rfl, rfl, rfl⟩, h⟩

/-- **C122**, `scaffold`: it shows the same and writes the same files in all file systems that hold the same tree files, and in which the same Solidity files next
to them are there and can be written. So it does not depend on other files, nor on what is in the Solidity files. -/
theorem C122_scaffold (env : Env) (a : ScaffoldArgs) (fs fs' : Fs) (ht : ∀ t ∈ a.files, fs.state t = fs'.state t)
    (hs : ∀ t ∈ a.files, ∀ p, SolOf t p → BothThere fs fs' p ∧ fs.writable p = fs'.writable p) :
    ShowSame (scaffoldRun env a fs) (scaffoldRun env a fs') ∧ WroteSame fs fs' (scaffoldRun env a fs).fs (scaffoldRun env a fs').fs := by
  have h : Twin a.files fs fs' fs fs' := ⟨ht, fun t h => (hs t h _ ((solOf_iff _ _).2 rfl)).1, fun t h => (hs t h _ ((solOf_iff _ _).2 rfl)).2,
    fun p => .inr ⟨rfl, rfl⟩⟩
  obtain ⟨h1, h2⟩ := loop_twin (env := env) (a := a) a.files (fun _ h => h) fs fs' h [] [] []
  exact ⟨h1, h2.wrote⟩

/-! ## check -/

private theorem context_eq {env : Env} {skip : Bool} {fs fs' : Fs} {t : FPath} (h : fs.state t = fs'.state t) (h' : fs.state t.withSolExt = fs'.state t.withSolExt) :
    contextNew env skip fs t = contextNew env skip fs' t := by
  unfold contextNew Fs.read Fs.exists_
  dsimp only
  rw [h, h']

private theorem contexts_eq {env : Env} {skip : Bool} {fs fs' : Fs} : ∀ (l : List FPath), (∀ t ∈ l, fs.state t = fs'.state t ∧
    fs.state t.withSolExt = fs'.state t.withSolExt) → contexts env skip fs l = contexts env skip fs' l := by
  intro l
  induction l with
  | nil => intro _; rfl
  | cons t l ih =>
    intro h
    obtain ⟨h1, h2⟩ := h t List.mem_cons_self
    unfold contexts
    rw [context_eq h1 h2, ih fun u hu => h u (List.mem_cons_of_mem _ hu)]

private theorem contexts_paths {env : Env} {skip : Bool} {fs : Fs} : ∀ {l : List FPath} {cs : List (Context × FPath)} {vs : List Violation},
    contexts env skip fs l = .ok (cs, vs) → ∀ c ∈ cs, ∃ t ∈ l, c.2 = t.withSolExt := by
  intro l
  induction l with
  | nil => intro cs vs h c hc; cases h; cases hc
  | cons t l ih =>
    intro cs vs h c hc
    unfold contexts at h
    split at h
    · rename_i d hd
      obtain ⟨⟨cs', vs'⟩, h1, h2⟩ := Res.bind_eq_ok.1 h
      cases h2
      rcases List.mem_cons.1 hc with rfl | hc
      · refine ⟨t, List.mem_cons_self, ?_⟩
        unfold contextNew at hd
        obtain ⟨_, _, hd⟩ := Res.bind_eq_ok.1 hd
        obtain ⟨_, _, hd⟩ := Res.bind_eq_ok.1 hd
        dsimp only at hd
        split at hd
        · cases hd
        · obtain ⟨_, _, hd⟩ := Res.bind_eq_ok.1 hd
          obtain ⟨_, _, hd⟩ := Res.bind_eq_ok.1 hd
          cases hd
          rfl
      · obtain ⟨u, hu, h3⟩ := ih h1 c hc
        exact ⟨u, List.mem_cons_of_mem _ hu, h3⟩
    · obtain ⟨⟨cs', vs'⟩, h1, h2⟩ := Res.bind_eq_ok.1 h
      cases h2
      obtain ⟨u, hu, h3⟩ := ih h1 c hc
      exact ⟨u, List.mem_cons_of_mem _ hu, h3⟩
    · cases h

private theorem fixLoop_twin {env : Env} {a : CheckArgs} {f0 f0' : Fs} : ∀ (cs : List (Context × FPath)) (fs fs' : Fs),
    (a.stdout = false → ∀ c ∈ cs, fs.writable c.2 = fs'.writable c.2) → WroteSame f0 f0' fs fs' → ∀ out notes n,
    ShowSame (fixLoop env a cs fs out notes n) (fixLoop env a cs fs' out notes n) ∧
      WroteSame f0 f0' (fixLoop env a cs fs out notes n).fs (fixLoop env a cs fs' out notes n).fs := by
  intro cs
  induction cs with
  | nil => intro fs fs' _ h out notes n; exact ⟨⟨rfl, rfl, rfl⟩, h⟩
  | cons c cs ih =>
    obtain ⟨ctx, sol⟩ := c
    intro fs fs' hw h out notes n
    simp only [fixLoop]
    cases fixContext env.solParse ctx with
    | panic => exact ⟨⟨rfl, rfl, rfl⟩, h⟩
    | err e => exact nomatch e
    | ok r =>
      obtain ⟨ctx', k⟩ := r
      dsimp only
      cases env.ctxFmt ctx' with
      | none => exact ⟨⟨rfl, rfl, rfl⟩, h⟩
      | some o =>
        dsimp only
        cases hs : a.stdout with
        | true =>
          simp only [checkWrite, hs, if_true]
          exact ih fs fs' (fun h => by rw [hs] at h; cases h) h _ _ _
        | false =>
          have hw0 := hw hs (ctx, sol) List.mem_cons_self
          have hws : a.stdout = false → ∀ c ∈ cs, fs.writable c.2 = fs'.writable c.2 := fun h c hc => hw h c (List.mem_cons_of_mem _ hc)
          dsimp only at hw0
          simp only [checkWrite, hs, Bool.false_eq_true, if_false, Fs.write, hw0]
          by_cases hy : fs'.writable sol = true
          · simp only [hy, if_true]
            exact ih { fs with state := fun q => if q = sol then .text o else fs.state q }
              { fs' with state := fun q => if q = sol then .text o else fs'.state q } hws (by
                intro p
                show (if p = sol then _ else _) = (if p = sol then _ else _) ∨ ((if p = sol then _ else _) = _ ∧ (if p = sol then _ else _) = _)
                split
                · exact .inl rfl
                · exact h p) (out ++ []) (notes ++ []) (n + k)
          · simp only [Bool.not_eq_true] at hy
            simp only [hy, Bool.false_eq_true, if_false]
            exact ih fs fs' hws h _ _ _

/-- **C122**, `check`: it shows the same and writes the same files in all file systems that hold the same tree files and the same Solidity files next to them; with
`--fix`, unless `--stdout` is given, also the same Solidity files have to be writable. So it does not depend on other files. -/
theorem C122_check (env : Env) (a : CheckArgs) (fs fs' : Fs) (ht : ∀ t ∈ a.files, fs.state t = fs'.state t)
    (hs : ∀ t ∈ a.files, ∀ p, SolOf t p → fs.state p = fs'.state p)
    (hw : a.fix = true → a.stdout = false → ∀ t ∈ a.files, ∀ p, SolOf t p → fs.writable p = fs'.writable p) :
    ShowSame (checkRun env a fs) (checkRun env a fs') ∧ WroteSame fs fs' (checkRun env a fs).fs (checkRun env a fs').fs := by
  have h0 : WroteSame fs fs' fs fs' := fun p => .inr ⟨rfl, rfl⟩
  have hc := contexts_eq (env := env) (skip := a.skipModifiers) a.files fun t h => ⟨ht t h, hs t h _ ((solOf_iff _ _).2 rfl)⟩
  unfold checkRun
  rw [hc]
  cases hk : contexts env a.skipModifiers fs' a.files with
  | panic => exact ⟨⟨rfl, rfl, rfl⟩, h0⟩
  | err e => exact nomatch e
  | ok r =>
    obtain ⟨cs, vs⟩ := r
    dsimp only
    cases hf : a.fix with
    | true =>
      simp only [if_true]
      refine fixLoop_twin cs fs fs' (fun h c hc => ?_) h0 _ _ _
      obtain ⟨t, h1, h2⟩ := contexts_paths hk c hc
      exact hw hf h t h1 _ ((solOf_iff _ _).2 h2)
    | false =>
      simp only [Bool.false_eq_true, if_false]
      cases checkAll cs with
      | panic => exact ⟨⟨rfl, rfl, rfl⟩, h0⟩
      | err e => exact nomatch e
      | ok ws =>
        dsimp only [checkExit]
        split <;> exact ⟨⟨rfl, rfl, rfl⟩, h0⟩

/-! ## The program -/

private theorem args_of {args : List Str} {c : Command} (hc : cliParse args = .run c) :
    ∃ rest, (∃ a, c = .scaffold a ∧ args = c!"scaffold" :: rest) ∨ (∃ a, c = .check a ∧ args = c!"check" :: rest) := by
  cases args with
  | nil => cases hc
  | cons a as =>
    refine ⟨as, ?_⟩
    rw [cliParse] at hc
    by_cases h1 : a = c!"scaffold"
    · rw [if_pos h1] at hc
      subst h1
      cases hl : argLoop scaffoldOpts ⟨[], []⟩ none as with
      | help => rw [hl] at hc; cases hc
      | usage => rw [hl] at hc; cases hc
      | run g =>
        rw [hl] at hc
        have hc' : scaffoldCommand g = .run c := hc
        unfold scaffoldCommand at hc'
        split at hc'
        · cases hc'
        · cases hc'
          exact .inl ⟨_, rfl, rfl⟩
    · rw [if_neg h1] at hc
      by_cases h2 : a = c!"check"
      · rw [if_pos h2] at hc
        subst h2
        cases hl : argLoop checkOpts ⟨[], []⟩ none as with
        | help => rw [hl] at hc; cases hc
        | usage => rw [hl] at hc; cases hc
        | run g =>
          rw [hl] at hc
          have hc' : checkCommand g = .run c := hc
          unfold checkCommand at hc'
          split at hc'
          · cases hc'
          · cases hc'
            exact .inr ⟨_, rfl, rfl⟩
      · rw [if_neg h2] at hc
        exfalso
        unfold helpCommand topOption at hc
        split at hc <;> split at hc <;> cases hc

private theorem path_given {l : List Str} {ps : List FPath} {t : FPath} (he : Each PathOf l ps) (ht : t ∈ ps) : ∃ f ∈ l, PathOf f t := by
  induction he with
  | nil => cases ht
  | cons h _ ih =>
    rcases List.mem_cons.1 ht with rfl | ht
    · exact ⟨_, List.mem_cons_self, h⟩
    · obtain ⟨f, hf, h⟩ := ih ht
      exact ⟨f, List.mem_cons_of_mem _ hf, h⟩

/-- **C122.** A run of the program depends only on the files named in its arguments and the Solidity files next to them: in file systems that agree on these the same is
shown, and the same files are written with the same contents. -/
theorem C122_program [LawfulUcd] (env : Env) (args : List Str) (fs fs' : Fs)
    (h : ∀ f ∈ args.tail, ∀ t, PathOf f t → AgreeAt fs fs' t ∧ ∀ p, SolOf t p → AgreeAt fs fs' p) :
    (program env args fs).exit = (program env args fs').exit ∧
    (∀ r, program env args fs = .ran r → ∃ r', program env args fs' = .ran r' ∧ ShowSame r r') ∧
    WroteSame fs fs' ((program env args fs).fs fs) ((program env args fs').fs fs') := by
  have h0 : WroteSame fs fs' fs fs' := fun p => .inr ⟨rfl, rfl⟩
  unfold program
  cases hp : cliParse args with
  | help => refine ⟨rfl, fun r hr => ?_, h0⟩; cases hr
  | usage => refine ⟨rfl, fun r hr => ?_, h0⟩; cases hr
  | run c =>
    obtain ⟨rest, ⟨a, rfl, rfl⟩ | ⟨a, rfl, rfl⟩⟩ := args_of hp
    · obtain ⟨items, h1, _, _, h4⟩ := (C86_scaffold rest a).1 hp
      have hag : ∀ t ∈ a.files, AgreeAt fs fs' t ∧ ∀ p, SolOf t p → AgreeAt fs fs' p := by
        intro t ht
        obtain ⟨f, hf, hft⟩ := path_given h4.files ht
        exact h f (files_written h1 hf) t hft
      obtain ⟨h5, h6⟩ := C122_scaffold env a fs fs' (fun t ht => (hag t ht).1.1) (fun t ht p hsol => by
        obtain ⟨h7, h8⟩ := (hag t ht).2 p hsol
        exact ⟨by unfold BothThere; rw [h7], h8⟩)
      refine ⟨h5.2.2, fun r hr => ?_, h6⟩
      cases hr
      exact ⟨_, rfl, h5⟩
    · obtain ⟨items, h1, _, _, h4⟩ := (C86_check rest a).1 hp
      have hag : ∀ t ∈ a.files, AgreeAt fs fs' t ∧ ∀ p, SolOf t p → AgreeAt fs fs' p := by
        intro t ht
        obtain ⟨f, hf, hft⟩ := path_given h4.files ht
        exact h f (files_written h1 hf) t hft
      obtain ⟨h5, h6⟩ := C122_check env a fs fs' (fun t ht => (hag t ht).1.1) (fun t ht p hsol => ((hag t ht).2 p hsol).1)
        (fun _ _ t ht p hsol => ((hag t ht).2 p hsol).2)
      refine ⟨h5.2.2, fun r hr => ?_, h6⟩
      cases hr
      exact ⟨_, rfl, h5⟩

end

/-! ## Concrete cases -/

/-- Two trees, the Solidity file of the second, and perhaps `notes.md`. -/
private def home (text : Str) (notes : FileState) : Fs :=
  ⟨fun p => if p.name = c!"good.tree" ∨ p.name = c!"old.tree" then .text c!"Foo\n└── it a" else if p.name = c!"old.t.sol" then .text text else
    if p.name = c!"notes.md" then notes else .absent, fun _ => true⟩

/-- Beside C122: in one file system `old.t.sol` is empty and `notes.md` is missing, in the other both have contents. `scaffold -w good.tree old.tree` shows the same in both,
whatever formatter and tables are used. -/
example [Ucd] [LawfulUcd] (env : Env) : ∀ a : ScaffoldArgs, a.files = [⟨c!"t/", c!"good.tree"⟩, ⟨c!"t/", c!"old.tree"⟩] →
    ShowSame (scaffoldRun env a (home [] .absent)) (scaffoldRun env a (home c!"contract Foo {}" (.text c!"todo"))) := by
  intro a ha
  refine (C122_scaffold env a _ _ ?_ ?_).1
  · rw [ha]; decide +kernel
  · rw [ha]
    intro t ht p hp
    rw [(solOf_iff _ _).1 hp]
    refine ⟨?_, rfl⟩
    unfold BothThere
    revert t
    simp only [List.mem_cons, List.not_mem_nil, or_false, forall_eq_or_imp, forall_eq]
    exact ⟨fun _ => by decide +kernel, fun _ => by decide +kernel⟩

private theorem home_agree (text : Str) (n n' : FileState) {p : FPath} (h : p.name ≠ c!"notes.md") : AgreeAt (home text n) (home text n') p := by
  refine ⟨?_, rfl⟩
  show (if _ then _ else if _ then _ else if p.name = c!"notes.md" then n else _) = (if _ then _ else if _ then _ else if p.name = c!"notes.md" then n' else _)
  rw [if_neg h, if_neg h]

/-- And `check good.tree old.tree` shows the same whatever is in `notes.md`. -/
example [Ucd] [LawfulUcd] (env : Env) (notes : FileState) : (program env [c!"check", c!"t/good.tree", c!"t/old.tree"] (home c!"contract Foo {}" .absent)).exit =
    (program env [c!"check", c!"t/good.tree", c!"t/old.tree"] (home c!"contract Foo {}" notes)).exit := by
  refine (C122_program env _ _ _ ?_).1
  intro f hf t ht
  have e := pathOf_unique ht (toPath_of f)
  refine ⟨home_agree _ _ _ ?_, fun p hp => home_agree _ _ _ ?_⟩
  · rw [e]
    revert f
    simp only [List.tail_cons, List.mem_cons, List.not_mem_nil, or_false, forall_eq_or_imp, forall_eq]
    exact ⟨fun _ _ => by decide +kernel, fun _ _ => by decide +kernel⟩
  · rw [(solOf_iff _ _).1 hp, e]
    revert f
    simp only [List.tail_cons, List.mem_cons, List.not_mem_nil, or_false, forall_eq_or_imp, forall_eq]
    exact ⟨fun _ _ => by decide +kernel, fun _ _ => by decide +kernel⟩

end Bulloak
