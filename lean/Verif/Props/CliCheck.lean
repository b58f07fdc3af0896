import Verif.Props.Cli
/-!
# The commands: `check` (C50, C51)
-/

set_option linter.unusedSectionVars false

namespace Bulloak
open Spec

section
variable [U : Ucd]

/-- Fixing the context crashes, or its result cannot be formatted. -/
def Spec.FixCrashes (env : Env) (ctx : Context) : Prop :=
  fixContext env.solParse ctx = .panic ∨ ∃ ctx' n, fixContext env.solParse ctx = .ok (ctx', n) ∧ env.ctxFmt ctx' = none

/-- `out` is the formatted result of fixing the context. -/
def Spec.FixedTo (env : Env) (ctx : Context) (out : Str) : Prop :=
  ∃ ctx' n, fixContext env.solParse ctx = .ok (ctx', n) ∧ env.ctxFmt ctx' = some out

theorem contextNew_ok {env : Env} {skip : Bool} {fs : Fs} {t : FPath} {ctx : Context} {p : FPath} :
    contextNew env skip fs t = .ok (ctx, p) ↔ Opens env skip fs t ctx ∧ p = t.withSolExt := by
  unfold contextNew Opens
  constructor
  · intro h
    obtain ⟨text, h1, h⟩ := Res.bind_eq_ok.1 h
    obtain ⟨hir, h2, h⟩ := Res.bind_eq_ok.1 h
    simp only at h
    split at h
    · cases h
    · obtain ⟨src, h3, h⟩ := Res.bind_eq_ok.1 h
      obtain ⟨u, h4, h⟩ := Res.bind_eq_ok.1 h
      cases h
      refine ⟨⟨text, hir, _, src, u, ?_, ?_, (solOf_iff _ _).2 rfl, ?_, ?_, rfl⟩, rfl⟩
      · apply Fs.read_eq.1
        cases hr : fs.read t <;> rw [hr] at h1 <;> cases h1; rfl
      · cases hr : translate env.order Config.default text <;> rw [hr] at h2 <;> cases h2; rfl
      · apply Fs.read_eq.1
        cases hr : fs.read t.withSolExt <;> rw [hr] at h3 <;> cases h3; rfl
      · cases hr : env.solParse src <;> rw [hr] at h4 <;> cases h4; rfl
  · rintro ⟨⟨text, hir, q, src, u, h1, h2, h3, h4, h5, rfl⟩, rfl⟩
    cases (solOf_iff _ _).1 h3
    rw [Fs.read_eq.2 h1]
    simp only [Res.okOr, Res.bind_ok, h2, Res.mapErr]
    have : fs.exists_ t.withSolExt = true := by rw [Fs.exists_eq, h4]; simp
    rw [this, Fs.read_eq.2 h4]
    simp [h5]

theorem contextNew_no_panic [LawfulUcd] {env : Env} {skip : Bool} {fs : Fs} {t : FPath} : contextNew env skip fs t ≠ .panic := by
  unfold contextNew
  refine Res.bind_ne_panic ?_ fun text _ => Res.bind_ne_panic ?_ fun hir _ => ?_
  · cases fs.read t <;> simp [Res.okOr]
  · cases h : translate env.order Config.default text with
    | panic => exact absurd h (C57_translate_never_panics _ _ _)
    | ok r => simp [Res.mapErr]
    | err e => simp [Res.mapErr]
  · simp only
    split
    · simp
    · refine Res.bind_ne_panic ?_ fun src _ => Res.bind_ne_panic ?_ fun u _ => by simp
      · cases fs.read t.withSolExt <;> simp [Res.okOr]
      · cases env.solParse src <;> simp [Res.okOr]

/-- What the first loop of `check` collects. -/
theorem contexts_spec [LawfulUcd] (env : Env) (skip : Bool) (fs : Fs) : ∀ files, ∃ cs vs, contexts env skip fs files = .ok (cs, vs) ∧
    (cs = files.filterMap (fun t => match contextNew env skip fs t with | .ok c => some c | _ => none)) ∧
    (vs = [] ↔ ∀ t ∈ files, ∃ ctx, Opens env skip fs t ctx) := by
  intro files
  induction files with
  | nil => exact ⟨[], [], rfl, rfl, by simp⟩
  | cons t ts ih =>
    obtain ⟨cs, vs, h1, h2, h3⟩ := ih
    unfold contexts
    cases hc : contextNew env skip fs t with
    | panic => exact absurd hc contextNew_no_panic
    | ok c =>
      refine ⟨c :: cs, vs, by simp [h1], by simp [hc, h2], ?_⟩
      obtain ⟨ctx, p⟩ := c
      rw [h3]
      simp only [List.mem_cons, forall_eq_or_imp]
      exact ⟨fun h => ⟨⟨ctx, (contextNew_ok.1 hc).1⟩, h⟩, fun h => h.2⟩
    | err v =>
      refine ⟨cs, v :: vs, by simp [h1], by simp [hc, h2], ?_⟩
      simp only [List.mem_cons, forall_eq_or_imp, reduceCtorEq, false_iff]
      rintro ⟨⟨ctx, h⟩, _⟩
      rw [contextNew_ok.2 ⟨h, rfl⟩] at hc
      cases hc

theorem mem_contexts {env : Env} {skip : Bool} {fs : Fs} {files : List FPath} {c : Context × FPath} :
    c ∈ files.filterMap (fun t => match contextNew env skip fs t with | .ok c => some c | _ => none) ↔
      ∃ t ∈ files, Opens env skip fs t c.1 ∧ SolOf t c.2 := by
  rw [List.mem_filterMap]
  constructor
  · rintro ⟨t, ht, h⟩
    cases hc : contextNew env skip fs t with
    | ok x =>
      rw [hc] at h
      cases h
      obtain ⟨h1, h2⟩ := contextNew_ok.1 hc
      exact ⟨t, ht, h1, (solOf_iff _ _).2 h2⟩
    | err e => rw [hc] at h; cases h
    | panic => rw [hc] at h; cases h
  · rintro ⟨t, ht, h1, h2⟩
    refine ⟨t, ht, ?_⟩
    rw [contextNew_ok.2 ⟨h1, (solOf_iff _ _).1 h2⟩]

/-! ## Fixing -/

theorem fix_cases (env : Env) (ctx : Context) : FixCrashes env ctx ∨ ∃ ctx' n out, fixContext env.solParse ctx = .ok (ctx', n) ∧
    env.ctxFmt ctx' = some out := by
  cases h : fixContext env.solParse ctx with
  | panic => exact Or.inl (Or.inl h)
  | err e => exact nomatch e
  | ok r =>
    obtain ⟨ctx', n⟩ := r
    cases hf : env.ctxFmt ctx' with
    | none => exact Or.inl (Or.inr ⟨ctx', n, h, hf⟩)
    | some out => exact Or.inr ⟨ctx', n, out, rfl, hf⟩

theorem checkWrite_fst (a : CheckArgs) (fs : Fs) (out : Str) (p : FPath) :
    (checkWrite a fs out p).1 = if a.stdout then fs else (fs.write p out).getD fs := by
  unfold checkWrite
  split
  · rfl
  · cases fs.write p out <;> rfl

theorem checkWrite_fs (a : CheckArgs) (fs : Fs) (out : Str) (p q : FPath) :
    (checkWrite a fs out p).1.state q = if a.stdout = false ∧ q = p ∧ fs.writable p = true then .text out else fs.state q := by
  rw [checkWrite_fst]
  cases h : a.stdout with
  | true => simp
  | false => simp [write_state]

theorem checkWrite_writable (a : CheckArgs) (fs : Fs) (out : Str) (p : FPath) : (checkWrite a fs out p).1.writable = fs.writable := by
  rw [checkWrite_fst]
  split
  · rfl
  · exact write_writable _ _ _

theorem fixLoop_crash {env : Env} {a : CheckArgs} {ctx : Context} (h : FixCrashes env ctx) (p : FPath) (cs : List (Context × FPath))
    (fs : Fs) (out : List Str) (ns : List Note) (n : Nat) : fixLoop env a ((ctx, p) :: cs) fs out ns n = ⟨fs, out, ns, .panicked⟩ := by
  unfold fixLoop
  rcases h with h | ⟨ctx', m, h, hf⟩
  · rw [h]
  · rw [h]; simp [hf]

theorem fixLoop_step {env : Env} {a : CheckArgs} {ctx ctx' : Context} {m : Nat} {o : Str} (h : fixContext env.solParse ctx = .ok (ctx', m))
    (hf : env.ctxFmt ctx' = some o) (p : FPath) (cs : List (Context × FPath))
    (fs : Fs) (out : List Str) (ns : List Note) (n : Nat) : fixLoop env a ((ctx, p) :: cs) fs out ns n =
      fixLoop env a cs (checkWrite a fs o p).1 (out ++ (checkWrite a fs o p).2.1) (ns ++ (checkWrite a fs o p).2.2) (n + m) := by
  rw [fixLoop]
  rw [h]; simp [hf]

theorem fixLoop_exit {env : Env} {a : CheckArgs} : ∀ (cs : List (Context × FPath)) (fs : Fs) (out : List Str) (ns : List Note) (n : Nat),
    ((fixLoop env a cs fs out ns n).exit = .code 0 ∧ ∀ c ∈ cs, ¬ FixCrashes env c.1) ∨
    ((fixLoop env a cs fs out ns n).exit = .panicked ∧ ∃ c ∈ cs, FixCrashes env c.1) := by
  intro cs
  induction cs with
  | nil => intro fs out ns n; exact Or.inl ⟨rfl, by simp⟩
  | cons c cs ih =>
    intro fs out ns n
    obtain ⟨ctx, p⟩ := c
    rcases fix_cases env ctx with h | ⟨ctx', m, o, h1, h2⟩
    · exact Or.inr ⟨by rw [fixLoop_crash h], (ctx, p), by simp, h⟩
    · rw [fixLoop_step h1 h2]
      rcases ih (checkWrite a fs o p).1 (out ++ (checkWrite a fs o p).2.1) (ns ++ (checkWrite a fs o p).2.2) (n + m) with ⟨h3, h4⟩ | ⟨h3, c, hc, h4⟩
      · refine Or.inl ⟨h3, ?_⟩
        simp only [List.mem_cons, forall_eq_or_imp]
        refine ⟨?_, h4⟩
        rintro (h5 | ⟨_, _, h5, h6⟩)
        · rw [h1] at h5; cases h5
        · rw [h1] at h5; cases h5
          rw [h2] at h6; cases h6
      · exact Or.inr ⟨h3, c, by simp [hc], h4⟩

/-- Where a path changed, the last write to it is the result of fixing one of the contexts. -/
theorem fixLoop_fs {env : Env} {a : CheckArgs} (q : FPath) : ∀ (cs : List (Context × FPath)) (fs : Fs) (out : List Str) (ns : List Note) (n : Nat),
    (fixLoop env a cs fs out ns n).fs.state q = fs.state q ∨
    (a.stdout = false ∧ fs.writable q = true ∧ ∃ c ∈ cs, c.2 = q ∧ ∃ o, FixedTo env c.1 o ∧ (fixLoop env a cs fs out ns n).fs.state q = .text o) := by
  intro cs
  induction cs with
  | nil => intro fs out ns n; exact Or.inl rfl
  | cons c cs ih =>
    intro fs out ns n
    obtain ⟨ctx, p⟩ := c
    rcases fix_cases env ctx with h | ⟨ctx', m, o, h1, h2⟩
    · exact Or.inl (by rw [fixLoop_crash h])
    · rw [fixLoop_step h1 h2]
      rcases ih (checkWrite a fs o p).1 (out ++ (checkWrite a fs o p).2.1) (ns ++ (checkWrite a fs o p).2.2) (n + m) with h3 | ⟨h3, h4, c, hc, h5, h6⟩
      · rw [h3, checkWrite_fs]
        by_cases hc : a.stdout = false ∧ q = p ∧ fs.writable p = true
        · rw [if_pos hc]
          exact Or.inr ⟨hc.1, by rw [hc.2.1]; exact hc.2.2, (ctx, p), by simp, hc.2.1.symm, o, ⟨ctx', m, h1, h2⟩, rfl⟩
        · rw [if_neg hc]; exact Or.inl rfl
      · rw [checkWrite_writable] at h4
        exact Or.inr ⟨h3, h4, c, by simp [hc], h5, h6⟩

theorem fixLoop_last {env : Env} {a : CheckArgs} (hs : a.stdout = false) {ctx : Context} {q : FPath} {o : Str} (ho : FixedTo env ctx o)
    {B : List (Context × FPath)} (hB : ∀ c ∈ B, c.2 ≠ q) : ∀ (A : List (Context × FPath)) (_ : ∀ c ∈ A, ¬ FixCrashes env c.1) (fs : Fs) (_ : fs.writable q = true) (out : List Str) (ns : List Note) (n : Nat),
    (fixLoop env a (A ++ (ctx, q) :: B) fs out ns n).fs.state q = .text o := by
  intro A
  induction A with
  | nil =>
    intro _ fs hw out ns n
    obtain ⟨ctx', m, h1, h2⟩ := ho
    rw [List.nil_append, fixLoop_step h1 h2]
    rcases fixLoop_fs q B (checkWrite a fs o q).1 (out ++ (checkWrite a fs o q).2.1) (ns ++ (checkWrite a fs o q).2.2) (n + m) with h | ⟨_, _, c, hc, h, _⟩
    · rw [h, checkWrite_fs, if_pos ⟨hs, rfl, hw⟩]
    · exact absurd h (hB c hc)
  | cons c A ih =>
    intro hA fs hw out ns n
    obtain ⟨ctx1, p⟩ := c
    rcases fix_cases env ctx1 with h | ⟨ctx', m, o', h1, h2⟩
    · exact absurd h (hA (ctx1, p) (by simp))
    · rw [List.cons_append, fixLoop_step h1 h2]
      exact ih (fun c hc => hA c (by simp [hc])) _ (by rw [checkWrite_writable]; exact hw) _ _ _

/-- **C50.** Without `--fix`, or with `--stdout`, `check` changes no file. -/
theorem C50_no_write [LawfulUcd] (env : Env) {a : CheckArgs} (h : a.fix = false ∨ a.stdout = true) (fs : Fs) :
    (checkRun env a fs).fs.state = fs.state := by
  obtain ⟨cs, vs, h1, _, _⟩ := contexts_spec env a.skipModifiers fs a.files
  unfold checkRun
  rw [h1]
  simp only
  cases hf : a.fix with
  | false =>
    simp only [Bool.false_eq_true, if_false]
    cases checkAll cs with
    | panic => rfl
    | err e => exact nomatch e
    | ok v => simp only [checkExit]; split <;> rfl
  | true =>
    simp only [if_true]
    funext q
    rcases fixLoop_fs q cs fs [] [] 0 with h2 | ⟨h2, _⟩
    · exact h2
    · rw [hf] at h
      rcases h with h | h
      · cases h
      · rw [h] at h2; cases h2

/-- **C50.** What `check --fix` changes is the Solidity file next to one of the trees, and that tree was readable and
accepted, the Solidity file existed and could be parsed; afterwards it holds the formatted result of fixing it. -/
theorem C50_only_sol [LawfulUcd] {env : Env} {a : CheckArgs} {fs : Fs} {p : FPath} (hp : (checkRun env a fs).fs.state p ≠ fs.state p) :
    a.fix = true ∧ a.stdout = false ∧ fs.writable p = true ∧ ∃ t ∈ a.files, SolOf t p ∧ ∃ ctx, Opens env a.skipModifiers fs t ctx ∧
      ∃ out, FixedTo env ctx out ∧ (checkRun env a fs).fs.state p = .text out := by
  have hfix : a.fix = true := by
    cases h : a.fix with
    | true => rfl
    | false => exact absurd (congrFun (C50_no_write env (Or.inl h) fs) p) hp
  obtain ⟨cs, vs, h1, h2, _⟩ := contexts_spec env a.skipModifiers fs a.files
  have he : checkRun env a fs = fixLoop env a cs fs [] [] 0 := by
    unfold checkRun
    rw [h1]
    simp [hfix]
  rw [he] at hp ⊢
  rcases fixLoop_fs p cs fs [] [] 0 with h3 | ⟨h3, h4, c, hc, h5, o, h6, h7⟩
  · exact absurd h3 hp
  · rw [h2] at hc
    obtain ⟨t, ht, h8, h9⟩ := mem_contexts.1 hc
    rw [h5] at h9
    exact ⟨hfix, h3, h4, t, ht, h9, c.1, h8, o, h6, h7⟩

/-- **C50.** `check --fix` writes the fixed code of every tree it could open, unless a later one has the same Solidity file,
provided nothing before crashes. -/
theorem C50_written [LawfulUcd] {env : Env} {a : CheckArgs} {fs : Fs} (hfix : a.fix = true) (hst : a.stdout = false)
    {A B : List FPath} {t p : FPath} (hfiles : a.files = A ++ t :: B) (hA : ∀ g ∈ A, ∀ ctx, Opens env a.skipModifiers fs g ctx → ¬ FixCrashes env ctx)
    (hB : ∀ g ∈ B, ¬ SolOf g p) {ctx : Context} (ho : Opens env a.skipModifiers fs t ctx) {out : Str} (hout : FixedTo env ctx out)
    (hp : SolOf t p) (hw : fs.writable p = true) : (checkRun env a fs).fs.state p = .text out := by
  obtain ⟨cs, vs, h1, h2, _⟩ := contexts_spec env a.skipModifiers fs a.files
  have he : checkRun env a fs = fixLoop env a cs fs [] [] 0 := by
    unfold checkRun
    rw [h1]
    simp [hfix]
  rw [he, h2, hfiles, List.filterMap_append, List.filterMap_cons, contextNew_ok.2 ⟨ho, (solOf_iff _ _).1 hp⟩]
  refine fixLoop_last hst hout ?_ _ ?_ fs hw _ _ _
  · intro c hc hq
    obtain ⟨g, hg, _, h9⟩ := mem_contexts.1 hc
    rw [hq] at h9
    exact hB g hg h9
  · intro c hc
    obtain ⟨g, hg, h8, _⟩ := mem_contexts.1 hc
    exact hA g hg c.1 h8

/-! ## Exit codes -/

theorem checkAll_cases : ∀ (cs : List (Context × FPath)),
    (∃ vs, checkAll cs = .ok vs ∧ (∀ c ∈ cs, ∃ v, checkCtx c.1 = .ok v) ∧ (vs = [] ↔ ∀ c ∈ cs, checkCtx c.1 = .ok [])) ∨
    (checkAll cs = .panic ∧ ∃ c ∈ cs, checkCtx c.1 = .panic) := by
  intro cs
  induction cs with
  | nil => exact Or.inl ⟨[], rfl, by simp, by simp⟩
  | cons c cs ih =>
    obtain ⟨ctx, p⟩ := c
    unfold checkAll
    cases h : checkCtx ctx with
    | panic => exact Or.inr ⟨rfl, (ctx, p), by simp, h⟩
    | err e => exact nomatch e
    | ok v =>
      rcases ih with ⟨vs, h1, h2, h3⟩ | ⟨h1, c, hc, h2⟩
      · refine Or.inl ⟨v ++ vs, by simp [h1], ?_, ?_⟩
        · simp only [List.mem_cons, forall_eq_or_imp]
          exact ⟨⟨v, h⟩, h2⟩
        · simp [h, h3]
      · exact Or.inr ⟨by simp [h1], c, by simp [hc], h2⟩

/-- **C51.** Without `--fix` the exit code is 0 if for every tree: it and its Solidity file can be read and parsed, and
nothing is reported; it is 1 if one of these fails; the only other outcome is a crash in checking some tree. -/
theorem C51_exit [LawfulUcd] {env : Env} {a : CheckArgs} {fs : Fs} (hf : a.fix = false) :
    ((checkRun env a fs).exit = .code 0 ∧ ∀ t ∈ a.files, ∃ ctx, Opens env a.skipModifiers fs t ctx ∧ checkCtx ctx = .ok []) ∨
    ((checkRun env a fs).exit = .code 1 ∧ (∀ t ∈ a.files, ∀ ctx, Opens env a.skipModifiers fs t ctx → checkCtx ctx ≠ .panic) ∧
      ∃ t ∈ a.files, ∀ ctx, Opens env a.skipModifiers fs t ctx → checkCtx ctx ≠ .ok []) ∨
    ((checkRun env a fs).exit = .panicked ∧ ∃ t ∈ a.files, ∃ ctx, Opens env a.skipModifiers fs t ctx ∧ checkCtx ctx = .panic) := by
  obtain ⟨cs, vs, h1, h2, h3⟩ := contexts_spec env a.skipModifiers fs a.files
  have hmem : ∀ {t ctx}, t ∈ a.files → Opens env a.skipModifiers fs t ctx → (ctx, t.withSolExt) ∈ cs := by
    intro t ctx ht ho
    rw [h2]
    exact mem_contexts.2 ⟨t, ht, ho, (solOf_iff _ _).2 rfl⟩
  have hex : ∀ c ∈ cs, ∃ t ∈ a.files, Opens env a.skipModifiers fs t c.1 := by
    intro c hc
    rw [h2] at hc
    obtain ⟨t, ht, ho, _⟩ := mem_contexts.1 hc
    exact ⟨t, ht, ho⟩
  unfold checkRun
  rw [h1]
  simp only [hf, Bool.false_eq_true, if_false]
  rcases checkAll_cases cs with ⟨ws, h4, h5, h6⟩ | ⟨h4, c, hc, h5⟩
  · rw [h4]
    simp only [checkExit]
    by_cases he : (vs ++ ws).isEmpty = true
    · rw [if_pos he]
      rw [List.isEmpty_iff, List.append_eq_nil_iff] at he
      refine Or.inl ⟨rfl, fun t ht => ?_⟩
      obtain ⟨ctx, ho⟩ := h3.1 he.1 t ht
      exact ⟨ctx, ho, h6.1 he.2 _ (hmem ht ho)⟩
    · rw [if_neg he]
      refine Or.inr (Or.inl ⟨rfl, ?_, ?_⟩)
      · intro t ht ctx ho
        obtain ⟨v, hv⟩ := h5 _ (hmem ht ho)
        rw [hv]; simp
      · refine Classical.byContradiction fun hc => he ?_
        have hall : ∀ t ∈ a.files, ∃ ctx, Opens env a.skipModifiers fs t ctx ∧ checkCtx ctx = .ok [] := by
          intro t ht
          refine Classical.byContradiction fun hn => hc ⟨t, ht, fun ctx ho hk => hn ⟨ctx, ho, hk⟩⟩
        rw [List.isEmpty_iff, List.append_eq_nil_iff]
        refine ⟨h3.2 fun t ht => ?_, h6.2 fun c hc => ?_⟩
        · obtain ⟨ctx, ho, _⟩ := hall t ht
          exact ⟨ctx, ho⟩
        · obtain ⟨t, ht, ho⟩ := hex c hc
          obtain ⟨ctx, ho', hk⟩ := hall t ht
          have e1 := contextNew_ok.2 ⟨ho, rfl⟩
          have e2 := contextNew_ok.2 ⟨ho', rfl⟩
          rw [e1] at e2
          cases e2
          exact hk
  · rw [h4]
    obtain ⟨t, ht, ho⟩ := hex c hc
    exact Or.inr (Or.inr ⟨rfl, t, ht, c.1, ho, h5⟩)

/-- **C51**, `--fix`: the exit code is 0 unless fixing crashes. -/
theorem C51_exit_fix [LawfulUcd] {env : Env} {a : CheckArgs} {fs : Fs} (hf : a.fix = true) :
    ((checkRun env a fs).exit = .code 0 ∧ ∀ t ∈ a.files, ∀ ctx, Opens env a.skipModifiers fs t ctx → ¬ FixCrashes env ctx) ∨
    ((checkRun env a fs).exit = .panicked ∧ ∃ t ∈ a.files, ∃ ctx, Opens env a.skipModifiers fs t ctx ∧ FixCrashes env ctx) := by
  obtain ⟨cs, vs, h1, h2, _⟩ := contexts_spec env a.skipModifiers fs a.files
  have he : checkRun env a fs = fixLoop env a cs fs [] [] 0 := by
    unfold checkRun
    rw [h1]
    simp [hf]
  rw [he]
  rcases fixLoop_exit (env := env) (a := a) cs fs [] [] 0 with ⟨h3, h4⟩ | ⟨h3, c, hc, h4⟩
  · refine Or.inl ⟨h3, fun t ht ctx ho => ?_⟩
    exact h4 (ctx, t.withSolExt) (by rw [h2]; exact mem_contexts.2 ⟨t, ht, ho, (solOf_iff _ _).2 rfl⟩)
  · rw [h2] at hc
    obtain ⟨t, ht, ho, _⟩ := mem_contexts.1 hc
    exact Or.inr ⟨h3, t, ht, c.1, ho, h4⟩

/-- **C51**, `--fix` ignores what it cannot open: if no tree can be opened it reports success and changes nothing. -/
theorem C51_fix_ignores [LawfulUcd] {env : Env} {a : CheckArgs} {fs : Fs} (hf : a.fix = true)
    (h : ∀ t ∈ a.files, ∀ ctx, ¬ Opens env a.skipModifiers fs t ctx) :
    (checkRun env a fs).exit = .code 0 ∧ (checkRun env a fs).fs.state = fs.state := by
  refine ⟨?_, ?_⟩
  · rcases C51_exit_fix (env := env) (fs := fs) hf with ⟨h1, _⟩ | ⟨_, t, ht, ctx, ho, _⟩
    · exact h1
    · exact absurd ho (h t ht ctx)
  · funext p
    refine Classical.byContradiction fun hc => ?_
    obtain ⟨_, _, _, t, ht, _, ctx, ho, _⟩ := C50_only_sol hc
    exact h t ht ctx ho

end
end Bulloak
