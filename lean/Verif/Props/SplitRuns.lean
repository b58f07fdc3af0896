import Verif.Props.EndToEnd
/-!
# Splitting a run over several runs (C105)
-/

namespace Bulloak
open Spec
set_option linter.unusedSectionVars false

/-- The messages of a run without the summary at its end. -/
def Spec.details (ns : List Note) : List Note := ns.filter (fun n => match n with
  | .scaffoldSummary _ | .checkSummary _ _ => false
  | _ => true)

section
variable [U : Ucd]

/-! ## scaffold -/

theorem scaffoldLoop_files (env : Env) (a : ScaffoldArgs) (z : List FPath) : ∀ (l : List FPath) (fs : Fs) (out : List Str) (ns : List Note)
    (es : List (FPath × FileError)), scaffoldLoop env { a with files := z } l fs out ns es = scaffoldLoop env a l fs out ns es := by
  intro l
  induction l with
  | nil => intro fs out ns es; rfl
  | cons f l ih =>
    intro fs out ns es
    have e : processFile env { a with files := z } fs f = processFile env a fs f := rfl
    simp only [scaffoldLoop, e, ih]

theorem processFile_details {env : Env} {a : ScaffoldArgs} {fs fs' : Fs} {f : FPath} {o : List Str} {n : List Note} [LawfulUcd]
    (h : processFile env a fs f = .ok (fs', o, n)) : details n = n := by
  rcases processFile_cases env a fs f with ⟨out, w, _, ⟨hw1, hw2⟩, hp⟩ | ⟨e, _, hp⟩ | ⟨_, hp⟩
  · have hw : w = [] ∨ w = [.unformatted] := by
      by_cases hu : Unstable env a.config fs f
      · exact .inr (hw1 hu)
      · exact .inl (hw2 hu)
    have h2 : (writeFile a fs out f.withSolExt).2 = [] ∨ (writeFile a fs out f.withSolExt).2 = [.skipped f.withSolExt] ∨
        (writeFile a fs out f.withSolExt).2 = [.writeFailed] := by
      unfold writeFile
      split
      · exact .inr (.inl rfl)
      · split
        · exact .inl rfl
        · exact .inr (.inr rfl)
    rw [hp] at h
    have h3 := Res.ok.inj h
    split at h3 <;> cases h3
    · rcases hw with rfl | rfl <;> rcases h2 with h2 | h2 | h2 <;> rw [h2] <;> rfl
    · rcases hw with rfl | rfl <;> rfl
  · rw [hp] at h; cases h
  · rw [hp] at h; cases h

/-- The loop over a first part of the files leaves a state with which the loop over the others goes on, or it crashes. -/
theorem loop_split [LawfulUcd] (env : Env) (a : ScaffoldArgs) : ∀ (xs : List FPath) (fs : Fs), ∃ (fs' : Fs) (o : List Str) (n : List Note) (es : List (FPath × FileError))
    (crash : Bool), details n = n ∧ ∀ rest out ns errs, scaffoldLoop env a (xs ++ rest) fs out ns errs =
      if crash then ⟨fs', out ++ o, ns ++ n, .panicked⟩ else scaffoldLoop env a rest fs' (out ++ o) (ns ++ n) (errs ++ es) := by
  intro xs
  induction xs with
  | nil => intro fs; exact ⟨fs, [], [], [], false, rfl, fun rest out ns errs => by simp⟩
  | cons f xs ih =>
    intro fs
    cases hp : processFile env a fs f with
    | ok r =>
      obtain ⟨fs1, o1, n1⟩ := r
      obtain ⟨fs', o, n, es, crash, hd, h⟩ := ih fs1
      refine ⟨fs', o1 ++ o, n1 ++ n, es, crash, ?_, fun rest out ns errs => ?_⟩
      · have := processFile_details hp
        unfold details at hd this ⊢
        rw [List.filter_append, hd, this]
      · rw [List.cons_append, scaffoldLoop, hp]
        simp only [h, List.append_assoc]
    | err e =>
      obtain ⟨fs', o, n, es, crash, hd, h⟩ := ih fs
      refine ⟨fs', o, n, (f, e) :: es, crash, hd, fun rest out ns errs => ?_⟩
      rw [List.cons_append, scaffoldLoop, hp]
      simp only [h, List.append_assoc, List.singleton_append]
    | panic =>
      refine ⟨fs, [], [], [], true, rfl, fun rest out ns errs => ?_⟩
      rw [List.cons_append, scaffoldLoop, hp]
      simp

theorem details_append (l m : List Note) : details (l ++ m) = details l ++ details m := List.filter_append ..

theorem details_report (es : List (FPath × FileError)) : details (reportErrors es) = es.map (fun e => Note.failed e.1 e.2) := by
  unfold reportErrors
  rw [details_append]
  have : details [Note.scaffoldSummary es.length] = [] := rfl
  rw [this, List.append_nil]
  unfold details
  rw [List.filter_map]
  congr 1
  exact List.filter_eq_self.2 (fun _ _ => rfl)

/-- **C105**, `scaffold`: running it on a list of files is the same as running it on a first part of them and then on the rest: the same files are written, the same is
printed, the same problems are reported, and it exits with 0 if both runs do. If the first run crashes the others are not touched. -/
theorem C105_scaffold [LawfulUcd] {env : Env} {a : ScaffoldArgs} {fs : Fs} {xs ys : List FPath} {r r1 r2 : Run}
    (hr : r = scaffoldRun env { a with files := xs ++ ys } fs) (hr1 : r1 = scaffoldRun env { a with files := xs } fs)
    (hr2 : r2 = scaffoldRun env { a with files := ys } r1.fs) :
    (r1.exit = .panicked → r = r1) ∧
    (r1.exit ≠ .panicked → r.fs = r2.fs ∧ r.stdout = r1.stdout ++ r2.stdout ∧ (r.exit = .code 0 ↔ r1.exit = .code 0 ∧ r2.exit = .code 0) ∧
      (r.exit = .panicked ↔ r2.exit = .panicked) ∧ (r2.exit ≠ .panicked → (details r.stderr).Perm (details r1.stderr ++ details r2.stderr))) := by
  unfold scaffoldRun at hr hr1 hr2
  rw [scaffoldLoop_files] at hr hr1 hr2
  simp only at hr hr1 hr2
  obtain ⟨fs1, o1, n1, e1, c1, hd1, h1⟩ := loop_split env a xs fs
  have h1' := h1 [] [] [] []
  rw [List.append_nil] at h1'
  rw [h1'] at hr1
  rw [h1] at hr
  cases c1 with
  | true =>
    simp only [if_true, List.nil_append] at hr hr1
    subst hr hr1
    exact ⟨fun _ => rfl, fun h => absurd rfl h⟩
  | false =>
    simp only [Bool.false_eq_true, if_false, List.nil_append] at hr hr1
    have hfs : r1.fs = fs1 := by subst hr1; unfold scaffoldLoop; split <;> rfl
    have ho1 : r1.stdout = o1 := by subst hr1; unfold scaffoldLoop; split <;> rfl
    have hx1 : r1.exit = .code (if e1.isEmpty then 0 else 1) := by subst hr1; unfold scaffoldLoop; split <;> rename_i h <;> simp [h]
    have hn1 : details r1.stderr = n1 ++ e1.map (fun e => Note.failed e.1 e.2) := by
      subst hr1; unfold scaffoldLoop; split
      · rename_i h
        cases e1 with
        | nil => simpa using hd1
        | cons _ _ => simp at h
      · simp only [details_append, details_report, hd1]
    have hne : r1.exit ≠ .panicked := by rw [hx1]; simp
    refine ⟨fun h => absurd h hne, fun _ => ?_⟩
    rw [hfs] at hr2
    obtain ⟨fs2, o2, n2, e2, c2, hd2, h2⟩ := loop_split env a ys fs1
    have h2a := h2 [] [] [] []
    have h2b := h2 [] o1 n1 e1
    rw [List.append_nil] at h2a h2b
    rw [h2a] at hr2
    rw [h2b] at hr
    rw [ho1, hx1, hn1]
    cases c2 with
    | true =>
      simp only [if_true, List.nil_append] at hr hr2
      subst hr hr2
      exact ⟨rfl, rfl, by simp, by simp, fun h => absurd rfl h⟩
    | false =>
      simp only [Bool.false_eq_true, if_false, List.nil_append] at hr hr2
      subst hr hr2
      cases e1 with
      | nil =>
        cases e2 with
        | nil => simp [scaffoldLoop, details_append, hd1, hd2]
        | cons x e2 =>
          simp only [scaffoldLoop, List.nil_append, List.isEmpty_cons, Bool.false_eq_true, if_false, List.isEmpty_nil, if_true, details_append, hd1, hd2,
            details_report, List.map_nil, List.append_nil, List.append_assoc]
          simp
      | cons x e1 =>
        cases e2 with
        | nil =>
          simp only [scaffoldLoop, List.nil_append, List.isEmpty_cons, Bool.false_eq_true, if_false, List.isEmpty_nil, if_true, details_append, hd1, hd2,
            details_report, List.append_nil, List.append_assoc]
          simp only [true_and, reduceCtorEq, iff_self]
          refine ⟨by simp, fun _ => ?_⟩
          exact List.Perm.append_left _ List.perm_append_comm
        | cons y e2 =>
          simp only [scaffoldLoop, List.nil_append, List.isEmpty_cons, Bool.false_eq_true, if_false, details_append, hd1, hd2,
            details_report, List.cons_append, List.append_assoc]
          simp only [true_and, reduceCtorEq, iff_self]
          refine ⟨by simp, fun _ => ?_⟩
          refine List.Perm.append_left _ ?_
          have e : List.map (fun e : FPath × FileError => Note.failed e.1 e.2) (x :: (e1 ++ y :: e2)) =
            List.map (fun e : FPath × FileError => Note.failed e.1 e.2) (x :: e1) ++ List.map (fun e : FPath × FileError => Note.failed e.1 e.2) (y :: e2) := by simp
          rw [e, ← List.append_assoc, ← List.append_assoc]
          exact List.Perm.append_right _ List.perm_append_comm

/-! ## check -/

theorem contexts_append {env : Env} {skip : Bool} {fs : Fs} : ∀ {xs ys : List FPath} {cs1 cs2 : List (Context × FPath)} {vs1 vs2 : List Violation},
    contexts env skip fs xs = .ok (cs1, vs1) → contexts env skip fs ys = .ok (cs2, vs2) → contexts env skip fs (xs ++ ys) = .ok (cs1 ++ cs2, vs1 ++ vs2) := by
  intro xs
  induction xs with
  | nil => intro ys cs1 cs2 vs1 vs2 h1 h2; cases h1; exact h2
  | cons x xs ih =>
    intro ys cs1 cs2 vs1 vs2 h1 h2
    rw [List.cons_append]
    unfold contexts at h1 ⊢
    split at h1
    · obtain ⟨⟨cs, vs⟩, h3, h4⟩ := Res.bind_eq_ok.1 h1
      cases h4
      simp [ih h3 h2]
    · obtain ⟨⟨cs, vs⟩, h3, h4⟩ := Res.bind_eq_ok.1 h1
      cases h4
      simp [ih h3 h2]
    · cases h1

theorem checkAll_append : ∀ (cs1 cs2 : List (Context × FPath)), checkAll (cs1 ++ cs2) = (do let v ← checkAll cs1; let w ← checkAll cs2; .ok (v ++ w)) := by
  intro cs1
  induction cs1 with
  | nil => intro cs2; cases h : checkAll cs2 <;> simp [checkAll, h]
  | cons c cs1 ih =>
    intro cs2
    simp only [List.cons_append, checkAll, ih]
    cases checkCtx c.1 with
    | panic => rfl
    | err e => exact nomatch e
    | ok v =>
      simp only [Res.bind_ok]
      cases checkAll cs1 with
      | panic => rfl
      | err e => exact nomatch e
      | ok w =>
        simp only [Res.bind_ok]
        cases checkAll cs2 with
        | panic => rfl
        | err e => exact nomatch e
        | ok x => simp

theorem checkExit_details (fs : Fs) (vs : List Violation) : details (checkExit fs vs).stderr = vs.map Note.violation := by
  unfold checkExit
  split
  · rename_i h
    cases vs with
    | nil => rfl
    | cons _ _ => simp at h
  · simp only [details_append]
    have : details [Note.checkSummary vs.length (vs.filter (fun v => v.kind.isFixable)).length] = [] := rfl
    rw [this, List.append_nil]
    unfold details
    rw [List.filter_map]
    congr 1
    exact List.filter_eq_self.2 (fun _ _ => rfl)

theorem checkExit_exit (fs : Fs) (vs : List Violation) : (checkExit fs vs).exit = .code (if vs = [] then 0 else 1) := by
  unfold checkExit
  cases vs <;> simp

/-- **C105**, `check`: checking a list of files reports what checking a first part of them and checking the rest report. -/
theorem C105_check [LawfulUcd] {env : Env} {a : CheckArgs} (hf : a.fix = false) {fs : Fs} {xs ys : List FPath} {r r1 r2 : Run}
    (hr : r = checkRun env { a with files := xs ++ ys } fs) (hr1 : r1 = checkRun env { a with files := xs } fs)
    (hr2 : r2 = checkRun env { a with files := ys } r1.fs) :
    r.fs = fs ∧ (r.exit = .panicked ↔ r1.exit = .panicked ∨ r2.exit = .panicked) ∧ (r.exit = .code 0 ↔ r1.exit = .code 0 ∧ r2.exit = .code 0) ∧
      (r.exit ≠ .panicked → (details r.stderr).Perm (details r1.stderr ++ details r2.stderr)) := by
  obtain ⟨cs1, vs1, h1, _, _⟩ := contexts_spec env a.skipModifiers fs xs
  obtain ⟨cs2, vs2, h2, _, _⟩ := contexts_spec env a.skipModifiers fs ys
  have hfs : ∀ z, (checkRun env { a with files := z } fs).fs = fs := by
    intro z
    unfold checkRun
    split
    · rfl
    · rename_i e _; exact nomatch e
    · simp only [hf, Bool.false_eq_true, if_false]
      split
      · rfl
      · rename_i e _; exact nomatch e
      · simp only [checkExit]; split <;> rfl
  rw [show r1.fs = fs by rw [hr1]; exact hfs xs] at hr2
  have hres : ∀ z cs vs, contexts env a.skipModifiers fs z = .ok (cs, vs) → checkRun env { a with files := z } fs =
      match checkAll cs with
      | .panic => ⟨fs, [], [], .panicked⟩
      | .err e => nomatch e
      | .ok ws => checkExit fs (vs ++ ws) := by
    intro z cs vs h
    unfold checkRun
    simp only [h]
    rw [if_neg (by rw [hf]; simp)]
    cases checkAll cs with
    | err e => exact nomatch e
    | ok _ => rfl
    | panic => rfl
  rw [hres _ _ _ (contexts_append h1 h2), checkAll_append] at hr
  rw [hres _ _ _ h1] at hr1
  rw [hres _ _ _ h2] at hr2
  have hfs' : r.fs = fs := by
    rw [hr]
    split
    · rfl
    · rename_i e _; exact nomatch e
    · simp only [checkExit]; split <;> rfl
  refine ⟨hfs', ?_⟩
  cases k1 : checkAll cs1 with
  | panic =>
    rw [k1] at hr hr1
    subst hr hr1
    simp [Bind.bind, Res.bind]
  | err e => exact nomatch e
  | ok w1 =>
    cases k2 : checkAll cs2 with
    | panic =>
      rw [k1, k2] at hr
      rw [k2] at hr2
      subst hr hr2
      simp [Bind.bind, Res.bind]
    | err e => exact nomatch e
    | ok w2 =>
      rw [k1, k2] at hr
      rw [k1] at hr1
      rw [k2] at hr2
      simp only [Res.bind_ok] at hr hr1 hr2
      subst hr hr1 hr2
      simp only [checkExit_exit, checkExit_details, ← List.map_append]
      refine ⟨by simp, ?_, fun _ => ?_⟩
      · simp only [List.append_eq_nil_iff, Exit.code.injEq]
        by_cases e1 : vs1 = [] ∧ w1 = [] <;> by_cases e2 : vs2 = [] ∧ w2 = []
        · simp [e1, e2]
        · rw [if_neg (by rintro ⟨⟨_, h⟩, _, h'⟩; exact e2 ⟨h, h'⟩), if_neg e2]; simp
        · rw [if_neg (by rintro ⟨⟨h, _⟩, h', _⟩; exact e1 ⟨h, h'⟩), if_neg e1]; simp
        · rw [if_neg (by rintro ⟨⟨_, h⟩, _, h'⟩; exact e2 ⟨h, h'⟩), if_neg e2]; simp
      · refine List.Perm.map _ ?_
        simp only [List.append_assoc]
        refine List.Perm.append_left _ ?_
        rw [← List.append_assoc, ← List.append_assoc]
        exact List.Perm.append_right _ List.perm_append_comm

/-! ## check --fix -/

/-- What `check --fix` prints at the end. -/
def Spec.fixedMessage (n : Nat) : Str := c!"\nsuccess: " ++ natToStr n ++ (if n = 1 then c!" issue fixed." else c!" issues fixed.")

theorem fixLoop_files (env : Env) (a : CheckArgs) (z : List FPath) : ∀ (cs : List (Context × FPath)) (fs : Fs) (out : List Str) (ns : List Note) (n : Nat),
    fixLoop env { a with files := z } cs fs out ns n = fixLoop env a cs fs out ns n := by
  intro cs
  induction cs with
  | nil => intro fs out ns n; rfl
  | cons c cs ih =>
    intro fs out ns n
    rcases fix_cases env c.1 with h | ⟨ctx', m, o, h1, h2⟩
    · rw [fixLoop_crash h, fixLoop_crash h]
    · rw [fixLoop_step h1 h2, fixLoop_step h1 h2, ih]
      rfl

theorem fixLoop_nil (env : Env) (a : CheckArgs) (fs : Fs) (out : List Str) (ns : List Note) (n : Nat) :
    fixLoop env a [] fs out ns n = ⟨fs, out ++ [fixedMessage n], ns, .code 0⟩ := by
  unfold fixLoop fixedMessage pluralize
  by_cases h : n = 1
  · rw [if_pos h, if_pos h]; simp
  · rw [if_neg h, if_neg h]; simp

theorem fixLoop_split (env : Env) (a : CheckArgs) : ∀ (cs : List (Context × FPath)) (fs : Fs), ∃ (fs' : Fs) (o : List Str) (n : List Note) (k : Nat) (crash : Bool),
    ∀ rest out ns m, fixLoop env a (cs ++ rest) fs out ns m =
      if crash then ⟨fs', out ++ o, ns ++ n, .panicked⟩ else fixLoop env a rest fs' (out ++ o) (ns ++ n) (m + k) := by
  intro cs
  induction cs with
  | nil => intro fs; exact ⟨fs, [], [], 0, false, fun rest out ns errs => by simp⟩
  | cons c cs ih =>
    intro fs
    rcases fix_cases env c.1 with h | ⟨ctx', m, o, h1, h2⟩
    · exact ⟨fs, [], [], 0, true, fun rest out ns k => by rw [List.cons_append, fixLoop_crash h]; simp⟩
    · obtain ⟨fs', o', n, k, crash, h⟩ := ih (checkWrite a fs o c.2).1
      refine ⟨fs', (checkWrite a fs o c.2).2.1 ++ o', (checkWrite a fs o c.2).2.2 ++ n, m + k, crash, fun rest out ns j => ?_⟩
      rw [List.cons_append, fixLoop_step h1 h2, h]
      simp only [List.append_assoc, Nat.add_assoc]

theorem contextNew_congr {env : Env} {skip : Bool} {fs fs' : Fs} {t : FPath} (h1 : fs'.state t = fs.state t)
    (h2 : fs'.state t.withSolExt = fs.state t.withSolExt) : contextNew env skip fs' t = contextNew env skip fs t := by
  have e1 : fs'.read t = fs.read t := by unfold Fs.read; rw [h1]
  have e2 : fs'.read t.withSolExt = fs.read t.withSolExt := by unfold Fs.read; rw [h2]
  have e3 : fs'.exists_ t.withSolExt = fs.exists_ t.withSolExt := by unfold Fs.exists_; rw [h2]
  unfold contextNew
  simp only [e1, e2, e3]

theorem contexts_congr {env : Env} {skip : Bool} {fs fs' : Fs} : ∀ {ts : List FPath} (_ : ∀ t ∈ ts, contextNew env skip fs' t = contextNew env skip fs t),
    contexts env skip fs' ts = contexts env skip fs ts := by
  intro ts
  induction ts with
  | nil => intro _; rfl
  | cons t ts ih =>
    intro h
    simp only [contexts, h t (by simp), ih (fun t ht => h t (by simp [ht]))]

theorem fix_run {env : Env} {a : CheckArgs} (hf : a.fix = true) {fs : Fs} {z : List FPath} {cs : List (Context × FPath)} {vs : List Violation}
    (h : contexts env a.skipModifiers fs z = .ok (cs, vs)) : checkRun env { a with files := z } fs = fixLoop env a cs fs [] [] 0 := by
  unfold checkRun
  simp only [h]
  rw [if_pos hf]
  exact fixLoop_files env a z cs fs [] [] 0

/-- **C105**, `check --fix`: fixing a list of files with separate Solidity files is the same as fixing a first part of them and then the rest; the numbers of
fixed issues add up. If the first run crashes the others are not touched. -/
theorem C105_fix [LawfulUcd] {env : Env} {a : CheckArgs} (hf : a.fix = true) {fs : Fs} {xs ys : List FPath} (hn : NoTests (xs ++ ys)) (hown : OwnFiles (xs ++ ys))
    {r r1 r2 : Run} (hr : r = checkRun env { a with files := xs ++ ys } fs) (hr1 : r1 = checkRun env { a with files := xs } fs)
    (hr2 : r2 = checkRun env { a with files := ys } r1.fs) :
    (r1.exit = .panicked → r = r1) ∧
    (r1.exit ≠ .panicked → r.fs = r2.fs ∧ r.exit = r2.exit ∧ r.stderr = r1.stderr ++ r2.stderr ∧ ∃ o1 n1, r1.stdout = o1 ++ [fixedMessage n1] ∧
      (r2.exit = .panicked → r.stdout = o1 ++ r2.stdout) ∧
      (r2.exit ≠ .panicked → ∃ o2 n2, r2.stdout = o2 ++ [fixedMessage n2] ∧ r.stdout = o1 ++ o2 ++ [fixedMessage (n1 + n2)])) := by
  obtain ⟨cs1, vs1, h1, _, _⟩ := contexts_spec env a.skipModifiers fs xs
  obtain ⟨cs2, vs2, h2, _, _⟩ := contexts_spec env a.skipModifiers fs ys
  have h2' : contexts env a.skipModifiers r1.fs ys = .ok (cs2, vs2) := by
    rw [← h2]
    apply contexts_congr
    intro t ht
    apply contextNew_congr
    · refine Classical.byContradiction fun hc => ?_
      rw [hr1] at hc
      obtain ⟨_, _, _, x, _, hx, _⟩ := C50_only_sol hc
      exact hn t (by simp [ht]) ((solOf_iff _ _).1 hx ▸ withSolExt_suffix x)
    · refine Classical.byContradiction fun hc => ?_
      rw [hr1] at hc
      obtain ⟨_, _, _, x, hx', hx, _⟩ := C50_only_sol hc
      exact (List.pairwise_append.1 hown).2.2 x hx' t ht _ hx ((solOf_iff _ _).2 rfl)
  rw [fix_run hf (contexts_append h1 h2)] at hr
  rw [fix_run hf h1] at hr1
  rw [fix_run hf h2'] at hr2
  obtain ⟨fs1, o1, n1, k1, c1, g1⟩ := fixLoop_split env a cs1 fs
  have g1' := g1 [] [] [] 0
  rw [List.append_nil] at g1'
  rw [g1'] at hr1
  rw [g1] at hr
  cases c1 with
  | true =>
    simp only [if_true, List.nil_append] at hr hr1
    subst hr hr1
    exact ⟨fun _ => rfl, fun h => absurd rfl h⟩
  | false =>
    simp only [Bool.false_eq_true, if_false, List.nil_append, fixLoop_nil, Nat.zero_add] at hr hr1
    have hfs : r1.fs = fs1 := by rw [hr1]
    rw [hfs] at hr2
    obtain ⟨fs2, o2, n2, k2, c2, g2⟩ := fixLoop_split env a cs2 fs1
    have g2a := g2 [] [] [] 0
    have g2b := g2 [] o1 n1 k1
    rw [List.append_nil] at g2a g2b
    rw [g2a] at hr2
    rw [g2b] at hr
    subst hr1
    refine ⟨fun h => by simp at h, fun _ => ?_⟩
    cases c2 with
    | true =>
      simp only [if_true, List.nil_append] at hr hr2
      subst hr hr2
      exact ⟨rfl, rfl, rfl, o1, k1, rfl, fun _ => rfl, fun h => absurd rfl h⟩
    | false =>
      simp only [Bool.false_eq_true, if_false, List.nil_append, fixLoop_nil, Nat.zero_add] at hr hr2
      subst hr hr2
      exact ⟨rfl, rfl, rfl, o1, k1, rfl, fun h => by simp at h, fun _ => ⟨o2, k2, rfl, rfl⟩⟩

/-! ## The order of the files -/

theorem filter_perm_eq {α β : Type} [DecidableEq β] (f : α → β) (q : β) {l l' : List α} (hp : l.Perm l') (hn : (l.map f).Nodup) :
    l.filter (fun x => f x = q) = l'.filter (fun x => f x = q) := by
  have hp' := hp.filter (fun x => f x = q)
  have hlen : (l.filter (fun x => f x = q)).length ≤ 1 := by
    have hs : ((l.filter (fun x => f x = q)).map f).Nodup := List.Nodup.sublist (List.Sublist.map f List.filter_sublist) hn
    have hall : ∀ x ∈ l.filter (fun x => f x = q), f x = q := fun x hx => by simpa using (List.mem_filter.1 hx).2
    match h : l.filter (fun x => f x = q) with
    | [] => simp
    | [_] => simp
    | x :: y :: t =>
      rw [h] at hs hall
      have h1 := hall x (by simp)
      have h2 := hall y (by simp)
      simp [h1, h2] at hs
  match h : l.filter (fun x => f x = q) with
  | [] => rw [h] at hp'; exact (List.nil_perm.1 hp').symm
  | [x] => rw [h] at hp'; exact List.singleton_perm.1 hp'
  | x :: y :: t => rw [h] at hlen; simp at hlen

theorem own_nodup {files : List FPath} (h : OwnFiles files) : (files.map FPath.withSolExt).Nodup := by
  rw [List.Nodup, List.pairwise_map]
  refine h.imp ?_
  intro x y hxy e
  exact hxy _ ((solOf_iff _ _).2 rfl) ((solOf_iff _ _).2 e)

theorem own_perm {files files' : List FPath} (h : OwnFiles files) (hp : files.Perm files') : OwnFiles files' :=
  (hp.pairwise_iff (fun h p h1 h2 => h p h2 h1)).1 h

theorem runs_perm {env : Env} {cfg : Config} {fs : Fs} {l l' : List FPath} (hp : l.Perm l') (h : runs env cfg fs l = l) : runs env cfg fs l' = l' :=
  runs_all fun f hf => runs_eq h f (hp.mem_iff.2 hf)

/-- **C105**, the order of the files: if their Solidity files are separate, `scaffold` ends in the same way and writes the same files in whatever order the trees are given, unless the
formatter rejects one. -/
theorem C105_scaffold_order [LawfulUcd] {env : Env} {a : ScaffoldArgs} {fs : Fs} {files' : List FPath} (hn : NoTests a.files) (hown : OwnFiles a.files)
    (hp : a.files.Perm files') (hx : (scaffoldRun env a fs).exit ≠ .panicked) :
    (scaffoldRun env { a with files := files' } fs).fs = (scaffoldRun env a fs).fs ∧
    (scaffoldRun env { a with files := files' } fs).exit = (scaffoldRun env a fs).exit := by
  have hn' : NoTests files' := fun f hf => hn f (hp.mem_iff.2 hf)
  have hcfg : ({ a with files := files' } : ScaffoldArgs).config = a.config := rfl
  rw [run_exit hn] at hx ⊢
  rw [run_exit (a := { a with files := files' }) hn', run_fs hn, run_fs (a := { a with files := files' }) hn', hcfg]
  have hr : runs env a.config fs a.files = a.files := Classical.byContradiction fun hc => hx (by unfold exitOf; rw [if_neg hc])
  have hr' := runs_perm hp hr
  have hbad : (∀ f ∈ files', ¬ Bad env a.config fs f) ↔ ∀ f ∈ a.files, ¬ Bad env a.config fs f :=
    ⟨fun h f hf => h f (hp.mem_iff.1 hf), fun h f hf => h f (hp.mem_iff.2 hf)⟩
  constructor
  · simp only
    split
    · refine Fs.ext (fun q => ?_) (by rw [writeAll_writable, writeAll_writable])
      have hpe : (effects env a.config fs a.files).Perm (effects env a.config fs files') := by
        unfold effects
        rw [hr, hr']
        exact hp.filterMap _
      have hnd : ((effects env a.config fs a.files).map Prod.fst).Nodup := by
        refine List.Nodup.sublist ?_ (own_nodup hown)
        unfold effects
        rw [hr]
        clear hpe hbad hr hr' hx hown hn hn' hp hcfg
        induction a.files with
        | nil => exact .slnil
        | cons f l ih =>
          rw [List.filterMap_cons]
          cases outOf env a.config fs f with
          | none => exact ih.cons _
          | some o => exact ih.cons_cons _
      have e := filter_perm_eq Prod.fst q hpe hnd
      by_cases hf : a.forceWrite = true
      · rw [writeAll_force (a := { a with files := files' }) hf, writeAll_force hf, e]
      · have hf' : a.forceWrite = false := by simpa using hf
        rw [writeAll_keep (a := { a with files := files' }) hf', writeAll_keep hf', ← List.head?_filter, ← List.head?_filter, e]
    · rfl
  · unfold exitOf
    rw [if_pos hr, if_pos hr']
    by_cases h : ∀ f ∈ a.files, ¬ Bad env a.config fs f
    · rw [if_pos ⟨rfl, hbad.2 h⟩, if_pos ⟨rfl, h⟩]
    · rw [if_neg (fun x => h (hbad.1 x.2)), if_neg (fun x => h x.2)]

theorem fixedTo_unique {env : Env} {ctx : Context} {o o' : Str} (h : FixedTo env ctx o) (h' : FixedTo env ctx o') : o = o' := by
  obtain ⟨c, n, h1, h2⟩ := h
  obtain ⟨c', n', h3, h4⟩ := h'
  rw [h1] at h3
  cases h3
  rw [h2] at h4
  cases h4
  rfl

theorem opens_same {env : Env} {skip : Bool} {fs : Fs} {t : FPath} {c d : Context} (h1 : Opens env skip fs t c) (h2 : Opens env skip fs t d) : c = d := by
  have e1 := contextNew_ok.2 ⟨h1, rfl⟩
  rw [contextNew_ok.2 ⟨h2, rfl⟩] at e1
  cases e1; rfl

/-- What a path holds after `check --fix` in any order of the files. -/
theorem fix_order_state [LawfulUcd] {env : Env} {a b : CheckArgs} {fs : Fs} (hfa : b.fix = a.fix) (hst : b.stdout = a.stdout) (hsk : b.skipModifiers = a.skipModifiers)
    (hown : OwnFiles b.files) (hp : b.files.Perm a.files) (hx : ∀ t ∈ b.files, ∀ ctx, Opens env b.skipModifiers fs t ctx → ¬ FixCrashes env ctx) {q : FPath}
    (hq : (checkRun env a fs).fs.state q ≠ fs.state q) : (checkRun env b fs).fs.state q = (checkRun env a fs).fs.state q := by
  obtain ⟨h1, h2, h3, t, ht, h4, ctx, h5, out, h6, h7⟩ := C50_only_sol hq
  rw [h7]
  obtain ⟨A, B, hAB⟩ := List.append_of_mem (hp.mem_iff.2 ht)
  refine C50_written (hfa.trans h1) (hst.trans h2) hAB (fun g hg => hx g (by rw [hAB]; simp [hg])) ?_ (hsk ▸ h5) h6 h4 h3
  intro g hg hs
  unfold OwnFiles at hown
  rw [hAB] at hown
  exact (List.pairwise_cons.1 (List.pairwise_append.1 hown).2.1).1 g hg _ h4 hs

theorem fix_writable [LawfulUcd] {env : Env} {a : CheckArgs} (hf : a.fix = true) {fs : Fs} : (checkRun env a fs).fs.writable = fs.writable := by
  obtain ⟨cs, vs, h1, _⟩ := contexts_spec env a.skipModifiers fs a.files
  rw [show checkRun env a fs = fixLoop env a cs fs [] [] 0 from fix_run hf h1]
  clear h1
  suffices h : ∀ (cs : List (Context × FPath)) (x : Fs) (out : List Str) (ns : List Note) (n : Nat), (fixLoop env a cs x out ns n).fs.writable = x.writable from h _ _ _ _ _
  intro cs
  induction cs with
  | nil => intro x out ns n; rfl
  | cons c cs ih =>
    intro x out ns n
    rcases fix_cases env c.1 with h | ⟨ctx', m, o, h1, h2⟩
    · rw [fixLoop_crash h]
    · rw [fixLoop_step h1 h2, ih, checkWrite_writable]

/-- **C105**, the order of the files: if their Solidity files are separate, `check --fix` ends in the same way and, unless it crashes, leaves the same files in whatever order
the trees are given. -/
theorem C105_fix_order [LawfulUcd] {env : Env} {a : CheckArgs} (hf : a.fix = true) {fs : Fs} {files' : List FPath} (hown : OwnFiles a.files)
    (hp : a.files.Perm files') :
    (checkRun env { a with files := files' } fs).exit = (checkRun env a fs).exit ∧
    ((checkRun env a fs).exit ≠ .panicked → (checkRun env { a with files := files' } fs).fs = (checkRun env a fs).fs) := by
  rcases C51_exit_fix (env := env) (fs := fs) hf with ⟨h1, h2⟩ | ⟨h1, t, ht, ctx, h3, h4⟩ <;>
    rcases C51_exit_fix (env := env) (a := { a with files := files' }) (fs := fs) hf with ⟨g1, g2⟩ | ⟨g1, t', ht', ctx', g3, g4⟩
  · refine ⟨g1.trans h1.symm, fun _ => Fs.ext (fun q => ?_) (by rw [fix_writable hf, fix_writable (a := { a with files := files' }) hf])⟩
    by_cases hq : (checkRun env a fs).fs.state q = fs.state q
    · by_cases hq' : (checkRun env { a with files := files' } fs).fs.state q = fs.state q
      · rw [hq, hq']
      · exact (fix_order_state (a := { a with files := files' }) (b := a) rfl rfl rfl hown hp h2 hq').symm
    · exact fix_order_state (a := a) (b := { a with files := files' }) rfl rfl rfl (own_perm hown hp) hp.symm g2 hq
  · exact absurd g4 (h2 t' (hp.mem_iff.2 ht') ctx' g3)
  · exact absurd h4 (g2 t (hp.mem_iff.1 ht) ctx h3)
  · exact ⟨g1.trans h1.symm, fun h => absurd h1 h⟩

end
end Bulloak
