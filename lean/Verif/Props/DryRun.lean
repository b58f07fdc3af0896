import Verif.Props.SplitRuns
import Verif.Props.Report
/-!
# Dry runs (C117), and the number of fixes `check` announces and reports (C118, C119)
-/

namespace Bulloak
open Spec
set_option linter.unusedSectionVars false

/-- Saving files with these texts, one after the other, in `fs` gives `fs'`: only paths that can be written change.  If files are overwritten (`force`) a path
ends up with the last of its texts, otherwise only paths at which there is nothing change, and they have the first of their texts. -/
def Spec.Saved (force : Bool) (fs : Fs) (shown : List (FPath × Str)) (fs' : Fs) : Prop :=
  fs'.writable = fs.writable ∧ ∀ p, fs'.state p =
    if fs.writable p = true ∧ (force = true ∨ fs.state p = .absent) then
      match (if force then ((shown.filter (fun s => s.1 = p)).map (·.2)).getLast? else ((shown.filter (fun s => s.1 = p)).map (·.2)).head?) with
      | some t => .text t
      | none => fs.state p
    else fs.state p

/-- The texts belong to the Solidity files next to these tree files. -/
def Spec.Beside (files : List FPath) (shown : List (FPath × Str)) : Prop := Each (fun f s => SolOf f s.1) files shown

theorem saved_nil (force : Bool) (fs : Fs) : Saved force fs [] fs := by
  refine ⟨rfl, fun p => ?_⟩
  cases force <;> simp

theorem saved_cons {force : Bool} {fs fs1 fs' : Fs} {p : FPath} {t : Str} {rest : List (FPath × Str)}
    (hw : fs1.writable = fs.writable) (hs : ∀ q, fs1.state q = if q = p ∧ fs.writable p = true ∧ (force = true ∨ fs.state p = .absent) then .text t else fs.state q)
    (h : Saved force fs1 rest fs') : Saved force fs ((p, t) :: rest) fs' := by
  obtain ⟨h1, h2⟩ := h
  refine ⟨h1.trans hw, fun q => ?_⟩
  rw [h2 q, hw, hs q]
  by_cases hq : q = p
  · subst hq
    by_cases hwq : fs.writable q = true
    · cases force with
      | true =>
        simp only [hwq, true_or, and_self, if_true, List.filter_cons, decide_true, List.map_cons, List.getLast?_cons]
        cases ((rest.filter (fun s => decide (s.1 = q))).map (·.2)).getLast? <;> rfl
      | false =>
        by_cases ha : fs.state q = .absent
        · simp [hwq, ha]
        · simp [hwq, ha]
    · simp [hwq]
  · have : ¬ p = q := fun h => hq h.symm
    simp [hq, this]

section
variable [U : Ucd]

/-! ## scaffold -/

theorem scaffold_dry [LawfulUcd] {env : Env} {a : ScaffoldArgs} {base : Fs} : ∀ {files : List FPath} (_ : NoTests files) (fs : Fs)
    (_ : ∀ q : FPath, ¬ c!".t.sol" <:+ q.name → fs.state q = base.state q) (out out' : List Str) (ns ns' : List Note) (es : List (FPath × FileError)),
    ∃ done shown, done.Sublist files ∧ Beside done shown ∧
      (scaffoldLoop env { a with writeFiles := false } files base out ns es).stdout = out ++ shown.map (·.2) ∧
      (scaffoldLoop env { a with writeFiles := true } files fs out' ns' es).stdout = out' ∧
      (scaffoldLoop env { a with writeFiles := true } files fs out' ns' es).exit = (scaffoldLoop env { a with writeFiles := false } files base out ns es).exit ∧
      Saved a.forceWrite fs shown (scaffoldLoop env { a with writeFiles := true } files fs out' ns' es).fs ∧
      ((scaffoldLoop env { a with writeFiles := false } files base out ns es).exit = .code 0 → done = files ∧ es = []) := by
  intro files
  induction files with
  | nil =>
    intro _ fs _ out out' ns ns' es
    refine ⟨[], [], .slnil, .nil, ?_⟩
    cases es with
    | nil => simp [scaffoldLoop, saved_nil]
    | cons e es => simp [scaffoldLoop, saved_nil]
  | cons f files ih =>
    intro hn fs hfs out out' ns ns' es
    have hf : fs.state f = base.state f := hfs f (hn f (by simp))
    have hn' : NoTests files := fun g hg => hn g (by simp [hg])
    simp only [scaffoldLoop]
    rcases processFile_cases env { a with writeFiles := false } base f with ⟨o, w, hg, _, hp⟩ | ⟨e, hb, hp⟩ | ⟨hu, hp⟩
    · rcases processFile_cases env { a with writeFiles := true } fs f with ⟨o', w', hg', _, hp'⟩ | ⟨e', hb', hp'⟩ | ⟨hu', hp'⟩
      · have ho : o' = o := good_unique ((good_congr hf o').1 hg') hg
        subst ho
        rw [hp, hp']
        simp only [Bool.false_eq_true, if_false, if_true]
        have hst := writeFile_state { a with writeFiles := true } fs o' f.withSolExt
        have hwr := writeFile_writable { a with writeFiles := true } fs o' f.withSolExt
        obtain ⟨done, shown, h1, h2, h3, h4, h5, h6, h7⟩ := ih hn' (writeFile { a with writeFiles := true } fs o' f.withSolExt).1 (by
          intro q hq
          rw [hst, if_neg, hfs q hq]
          rintro ⟨rfl, _⟩
          exact hq (withSolExt_suffix f)) (out ++ [o']) (out' ++ []) (ns ++ w) (ns' ++ (w' ++ (writeFile { a with writeFiles := true } fs o' f.withSolExt).2)) es
        refine ⟨f :: done, (f.withSolExt, o') :: shown, h1.cons_cons f, .cons ((solOf_iff _ _).2 rfl) h2, ?_, ?_, h5, saved_cons hwr hst h6, ?_⟩
        · rw [h3]; simp
        · rw [h4]; simp
        · intro hx
          obtain ⟨rfl, h8⟩ := h7 hx
          exact ⟨rfl, h8⟩
      · exact absurd (bad_iff.2 ⟨e', (failsWith_congr hf e').1 hb'⟩) (fun hb => good_not_bad hg hb)
      · exact absurd ((unformatted_congr hf).1 hu') (fun h => good_formatted hg h)
    · rcases processFile_cases env { a with writeFiles := true } fs f with ⟨o', w', hg', _, hp'⟩ | ⟨e', hb', hp'⟩ | ⟨hu', hp'⟩
      · exact absurd (bad_iff.2 ⟨e, hb⟩) (fun hb => good_not_bad ((good_congr hf o').1 hg') hb)
      · have he : e' = e := failsWith_unique ((failsWith_congr hf e').1 hb') hb
        subst he
        rw [hp, hp']
        obtain ⟨done, shown, h1, h2, h3, h4, h5, h6, h7⟩ := ih hn' fs hfs out out' ns ns' (es ++ [(f, e')])
        refine ⟨done, shown, h1.cons f, h2, h3, h4, h5, h6, fun hx => ?_⟩
        have := (h7 hx).2
        simp at this
      · exact absurd ((unformatted_congr hf).1 hu') (fun h => bad_formatted (bad_iff.2 ⟨e, hb⟩) h)
    · rcases processFile_cases env { a with writeFiles := true } fs f with ⟨o', w', hg', _, hp'⟩ | ⟨e', hb', hp'⟩ | ⟨hu', hp'⟩
      · exact absurd hu (fun h => good_formatted ((good_congr hf o').1 hg') h)
      · exact absurd hu (fun h => bad_formatted (bad_iff.2 ⟨e', (failsWith_congr hf e').1 hb'⟩) h)
      · rw [hp, hp']
        exact ⟨[], [], List.nil_sublist _, .nil, by simp, rfl, rfl, saved_nil _ _, by simp⟩

/-- **C117**, scaffold: without `-w` scaffold prints, for the trees it accepts, exactly what it saves with `-w` next to them, ends in the same way, and prints nothing with `-w`. -/
theorem C117_scaffold [LawfulUcd] {env : Env} {a : ScaffoldArgs} {fs : Fs} (hn : NoTests a.files) :
    ∃ done shown, done.Sublist a.files ∧ Beside done shown ∧
      (scaffoldRun env { a with writeFiles := false } fs).stdout = shown.map (·.2) ∧
      (scaffoldRun env { a with writeFiles := true } fs).stdout = [] ∧
      (scaffoldRun env { a with writeFiles := true } fs).exit = (scaffoldRun env { a with writeFiles := false } fs).exit ∧
      Saved a.forceWrite fs shown (scaffoldRun env { a with writeFiles := true } fs).fs ∧
      ((scaffoldRun env { a with writeFiles := false } fs).exit = .code 0 → done = a.files) := by
  obtain ⟨done, shown, h1, h2, h3, h4, h5, h6, h7⟩ := scaffold_dry (env := env) (a := a) (base := fs) hn fs (fun _ _ => rfl) [] [] [] [] []
  exact ⟨done, shown, h1, h2, by simpa [scaffoldRun] using h3, h4, h5, h6, fun h => (h7 h).1⟩

/-! ## check -/

theorem fix_dry {env : Env} {a : CheckArgs} {base : Fs} : ∀ (cs : List (Context × FPath)) (fs : Fs) (out out' : List Str) (ns ns' : List Note) (n : Nat),
    ∃ (k : Nat) (texts : List Str), k ≤ cs.length ∧ texts.length = k ∧ ∃ last : List Str,
      fixLoop env { a with stdout := true } cs base out ns n = ⟨base, out ++ (((cs.take k).map (·.2)).zip texts).flatMap (fun s => [c!"--> " ++ s.1.str, trim s.2, c!"<--"]) ++ last,
        ns, (fixLoop env { a with stdout := false } cs fs out' ns' n).exit⟩ ∧
      (fixLoop env { a with stdout := false } cs fs out' ns' n).stdout = out' ++ last ∧
      Saved true fs (((cs.take k).map (·.2)).zip texts) (fixLoop env { a with stdout := false } cs fs out' ns' n).fs ∧
      ((fixLoop env { a with stdout := false } cs fs out' ns' n).exit = .code 0 → k = cs.length) := by
  intro cs
  induction cs with
  | nil =>
    intro fs out out' ns ns' n
    exact ⟨0, [], Nat.le_refl _, rfl, _, by simp [fixLoop], rfl, saved_nil _ _, fun _ => rfl⟩
  | cons c cs ih =>
    intro fs out out' ns ns' n
    obtain ⟨ctx, p⟩ := c
    have crash : ∀ (h1 : fixLoop env { a with stdout := true } ((ctx, p) :: cs) base out ns n = ⟨base, out, ns, .panicked⟩)
        (h2 : fixLoop env { a with stdout := false } ((ctx, p) :: cs) fs out' ns' n = ⟨fs, out', ns', .panicked⟩), ∃ (k : Nat) (texts : List Str),
        k ≤ ((ctx, p) :: cs).length ∧ texts.length = k ∧ ∃ last : List Str,
      fixLoop env { a with stdout := true } ((ctx, p) :: cs) base out ns n = ⟨base, out ++ (((((ctx, p) :: cs).take k).map (·.2)).zip texts).flatMap (fun s => [c!"--> " ++ s.1.str, trim s.2, c!"<--"]) ++ last,
        ns, (fixLoop env { a with stdout := false } ((ctx, p) :: cs) fs out' ns' n).exit⟩ ∧
      (fixLoop env { a with stdout := false } ((ctx, p) :: cs) fs out' ns' n).stdout = out' ++ last ∧
      Saved true fs (((((ctx, p) :: cs).take k).map (·.2)).zip texts) (fixLoop env { a with stdout := false } ((ctx, p) :: cs) fs out' ns' n).fs ∧
      ((fixLoop env { a with stdout := false } ((ctx, p) :: cs) fs out' ns' n).exit = .code 0 → k = ((ctx, p) :: cs).length) := by
      intro h1 h2
      refine ⟨0, [], Nat.zero_le _, rfl, [], ?_⟩
      rw [h1, h2]
      exact ⟨by simp, by simp, saved_nil _ _, by simp⟩
    cases hf : fixContext env.solParse ctx with
    | panic => exact crash (by simp [fixLoop, hf]) (by simp [fixLoop, hf])
    | err e => exact nomatch e
    | ok r =>
      obtain ⟨ctx', m⟩ := r
      cases ho : env.ctxFmt ctx' with
      | none => exact crash (by simp [fixLoop, hf, ho]) (by simp [fixLoop, hf, ho])
      | some o =>
        rw [fixLoop_step hf ho, fixLoop_step hf ho]
        have e1 : checkWrite { a with stdout := true } base o p = (base, [c!"--> " ++ p.str, trim o, c!"<--"], []) := rfl
        have e2 : (checkWrite { a with stdout := false } fs o p).2.1 = [] := by
          unfold checkWrite
          simp only [Bool.false_eq_true, if_false]
          cases fs.write p o <;> rfl
        rw [e1, e2]
        obtain ⟨k, texts, h1, h2, last, h3, h4, h5, h6⟩ := ih (checkWrite { a with stdout := false } fs o p).1 (out ++ [c!"--> " ++ p.str, trim o, c!"<--"]) (out' ++ [])
          (ns ++ []) (ns' ++ (checkWrite { a with stdout := false } fs o p).2.2) (n + m)
        refine ⟨k + 1, o :: texts, by simpa using h1, by simp [h2], last, ?_, ?_, ?_, fun hx => by simp [h6 hx]⟩
        · rw [h3]; simp
        · rw [h4]; simp
        · refine saved_cons (t := o) (p := p) (checkWrite_writable _ _ _ _) (fun q => ?_) h5
          rw [checkWrite_fs]
          simp

open Classical in
/-- **C117**, check: `check --fix --stdout` changes nothing and prints, for the trees it can work on, in order, the name of the Solidity file and, up to white space around it,
exactly what `check --fix` saves there; after that both print the same, and they end in the same way. -/
theorem C117_check [LawfulUcd] (env : Env) (a : CheckArgs) (fs : Fs) :
    ∃ done shown, Beside done shown ∧ done <+: a.files.filter (fun t => decide (∃ ctx, Opens env a.skipModifiers fs t ctx)) ∧
      checkRun env { a with fix := true, stdout := true } fs = ⟨fs,
        shown.flatMap (fun s => [c!"--> " ++ s.1.str, trim s.2, c!"<--"]) ++ (checkRun env { a with fix := true, stdout := false } fs).stdout, [],
        (checkRun env { a with fix := true, stdout := false } fs).exit⟩ ∧
      Saved true fs shown (checkRun env { a with fix := true, stdout := false } fs).fs ∧
      ((checkRun env { a with fix := true, stdout := true } fs).exit = .code 0 →
        done = a.files.filter (fun t => decide (∃ ctx, Opens env a.skipModifiers fs t ctx))) := by
  obtain ⟨cs, vs, h1, h2, _⟩ := contexts_spec env a.skipModifiers fs a.files
  have e1 : checkRun env { a with fix := true, stdout := true } fs = fixLoop env { a with fix := true, stdout := true } cs fs [] [] 0 := by
    unfold checkRun; rw [h1]; rfl
  have e2 : checkRun env { a with fix := true, stdout := false } fs = fixLoop env { a with fix := true, stdout := false } cs fs [] [] 0 := by
    unfold checkRun; rw [h1]; rfl
  obtain ⟨k, texts, g1, g2, last, g3, g4, g5, g6⟩ := fix_dry (env := env) (a := { a with fix := true }) (base := fs) cs fs [] [] [] [] 0
  have hcs : ∀ (l : List FPath), (l.filterMap (fun t => match contextNew env a.skipModifiers fs t with | .ok c => some c | _ => none)).map (·.2) =
      (l.filter (fun t => decide (∃ ctx, Opens env a.skipModifiers fs t ctx))).map FPath.withSolExt := by
    intro l
    induction l with
    | nil => rfl
    | cons t l ih =>
      cases hc : contextNew env a.skipModifiers fs t with
      | panic => exact absurd hc contextNew_no_panic
      | ok c =>
        obtain ⟨ctx, p⟩ := c
        obtain ⟨k1, rfl⟩ := contextNew_ok.1 hc
        have : ∃ ctx, Opens env a.skipModifiers fs t ctx := ⟨ctx, k1⟩
        simp [hc, this, ih]
      | err v =>
        have : ¬ ∃ ctx, Opens env a.skipModifiers fs t ctx := by
          rintro ⟨ctx, h⟩
          rw [contextNew_ok.2 ⟨h, rfl⟩] at hc
          cases hc
        simp [hc, this, ih]
  have hcs : cs.map (·.2) = (a.files.filter (fun t => decide (∃ ctx, Opens env a.skipModifiers fs t ctx))).map FPath.withSolExt := by
    rw [h2]; exact hcs a.files
  have hlen : cs.length = (a.files.filter (fun t => decide (∃ ctx, Opens env a.skipModifiers fs t ctx))).length := by
    have := congrArg List.length hcs
    simpa using this
  refine ⟨(a.files.filter (fun t => decide (∃ ctx, Opens env a.skipModifiers fs t ctx))).take k, ((cs.take k).map (·.2)).zip texts, ?_, List.take_prefix _ _, ?_, ?_, ?_⟩
  · rw [List.map_take, hcs, ← List.map_take]
    have hl : ((a.files.filter (fun t => decide (∃ ctx, Opens env a.skipModifiers fs t ctx))).take k).length = texts.length := by
      rw [List.length_take, g2, ← hlen]; omega
    generalize (a.files.filter (fun t => decide (∃ ctx, Opens env a.skipModifiers fs t ctx))).take k = l at hl
    clear g2 g3 g4 g5 g6
    induction l generalizing texts with
    | nil => exact .nil
    | cons t l ih =>
      cases texts with
      | nil => cases hl
      | cons x texts => exact .cons ((solOf_iff _ _).2 rfl) (ih texts (by simpa using hl))
  · rw [e1, e2, g4]
    simpa using g3
  · rw [e2]; exact g5
  · intro hx
    rw [e1, g3] at hx
    rw [g6 hx, hlen, List.take_length]

/-! ## The number of fixes -/

theorem fixContext_number {P : SolParser} {ctx ctx' : Context} {n : Nat} (h : fixContext P ctx = .ok (ctx', n)) :
    ∃ vs, checkCtx ctx = .ok vs ∧ n = (vs.filter (fun v => v.kind.isFixable)).length := by
  unfold fixContext at h
  obtain ⟨vs, h1, h⟩ := Res.bind_eq_ok.1 h
  refine ⟨vs, h1, ?_⟩
  obtain ⟨c1, _, h⟩ := Res.bind_eq_ok.1 h
  obtain ⟨ws, _, h⟩ := Res.bind_eq_ok.1 h
  simp only at h
  split at h
  · cases h; rfl
  · split at h
    · obtain ⟨c2, _, h⟩ := Res.bind_eq_ok.1 h
      cases h; rfl
    · cases h; rfl

theorem fixLoop_number {env : Env} {a : CheckArgs} : ∀ (cs : List (Context × FPath)) (fs : Fs) (out : List Str) (ns : List Note) (n : Nat),
    (fixLoop env a cs fs out ns n).exit = .code 0 → ∃ vs, checkAll cs = .ok vs ∧
      (fixLoop env a cs fs out ns n).stdout.getLast? = some (c!"\nsuccess: " ++ natToStr (n + (vs.filter (fun v => v.kind.isFixable)).length) ++ c!" " ++
        pluralize (n + (vs.filter (fun v => v.kind.isFixable)).length) c!"issue" c!"issues" ++ c!" fixed.") := by
  intro cs
  induction cs with
  | nil => intro fs out ns n _; exact ⟨[], rfl, by simp [fixLoop]⟩
  | cons c cs ih =>
    intro fs out ns n hx
    obtain ⟨ctx, p⟩ := c
    cases hf : fixContext env.solParse ctx with
    | panic => simp [fixLoop, hf] at hx
    | err e => exact nomatch e
    | ok r =>
      obtain ⟨ctx', m⟩ := r
      cases ho : env.ctxFmt ctx' with
      | none => simp [fixLoop, hf, ho] at hx
      | some o =>
        rw [fixLoop_step hf ho] at hx ⊢
        obtain ⟨vs, h1, h2⟩ := ih _ _ _ _ hx
        obtain ⟨ws, h3, rfl⟩ := fixContext_number hf
        refine ⟨ws ++ vs, by simp [checkAll, h3, h1], ?_⟩
        rw [h2, List.filter_append, List.length_append, Nat.add_assoc]

theorem refused_unfixable {env : Env} {fs : Fs} {t : FPath} {v : Violation} (h : Refused env fs t v) : v.kind.isFixable = false := by
  cases h <;> rfl

theorem sorted_unfixable {env : Env} {skip : Bool} {fs : Fs} {files : List FPath} {vs : List Violation} {cs : List (Context × FPath)}
    (h : Sorted env skip fs files vs cs) : vs.filter (fun v => v.kind.isFixable) = [] := by
  induction h with
  | nil => rfl
  | refused hr _ ih => simp [refused_unfixable hr, ih]
  | opens _ _ _ ih => exact ih

/-- **C118.** Unless it crashes, `check --fix` reports exactly as many fixed issues as `check` announces; if `check` finds nothing, or nothing it can fix, that is none. -/
theorem C118_announced [LawfulUcd] {env : Env} {a : CheckArgs} {fs : Fs} (hx : (checkRun env { a with fix := true } fs).exit = .code 0) :
    ∃ m, (checkRun env { a with fix := true } fs).stdout.getLast? =
        some (c!"\nsuccess: " ++ natToStr m ++ (if m = 1 then c!" issue" else c!" issues") ++ c!" fixed.") ∧
      (((checkRun env { a with fix := false } fs).exit = .code 0 ∧ m = 0) ∨
        (checkRun env { a with fix := false } fs).exit = .code 1 ∧
        ∃ n, (checkRun env { a with fix := false } fs).stderr.getLast? = some (.checkSummary n m) ∧
          n + 1 = (checkRun env { a with fix := false } fs).stderr.length ∧ m ≤ n) := by
  obtain ⟨cs, refused, h1, h2⟩ := contexts_sorted env a.skipModifiers fs a.files
  have e1 : checkRun env { a with fix := true } fs = fixLoop env { a with fix := true } cs fs [] [] 0 := by
    unfold checkRun; rw [h1]; rfl
  rw [e1] at hx ⊢
  obtain ⟨vs, h3, h4⟩ := fixLoop_number cs fs [] [] 0 hx
  have e2 : checkRun env { a with fix := false } fs = checkExit fs (refused ++ vs) := by
    unfold checkRun; rw [h1]; simp [h3]
  refine ⟨(vs.filter (fun v => v.kind.isFixable)).length, ?_, ?_⟩
  · rw [h4]
    simp only [Nat.zero_add, pluralize]
    by_cases h : (vs.filter (fun v => v.kind.isFixable)).length = 1 <;> simp [h]
  · rw [e2]
    unfold checkExit
    by_cases he : refused ++ vs = []
    · left
      have : vs = [] := (List.append_eq_nil_iff.1 he).2
      rw [if_pos (by simpa using he)]
      exact ⟨rfl, by simp [this]⟩
    · right
      rw [if_neg (by simpa using he)]
      refine ⟨rfl, (refused ++ vs).length, ?_, by simp; omega, ?_⟩
      · simp [sorted_unfixable h2]
      · have := List.length_filter_le (fun v : Violation => v.kind.isFixable) vs
        simp only [List.length_append]
        omega

/-- **C119**, the part that holds: if every tree can be opened, the Solidity files differ and can be written, and the fixed code conforms and survives formatting, then
afterwards `check` finds nothing, so that all the problems it found before are gone, of which the reported number is the number of fixable ones.  Missing: `check --fix` reports
them as fixed as well if the file cannot be written, or if the fixed code does not conform. -/
theorem C119_fixed_partial [LawfulUcd] {env : Env} {a : CheckArgs} {fs : Fs} (hn : NoTests a.files)
    (hfix : a.fix = true) (hst : a.stdout = false) (hown : OwnFiles a.files)
    (hwell : ∀ t ∈ a.files, ∃ ctx, Opens env a.skipModifiers fs t ctx ∧ FixesWell env ctx)
    (hw : ∀ t ∈ a.files, ∀ p, SolOf t p → fs.writable p = true) :
    ∃ m, (checkRun env a fs).stdout = [c!"\nsuccess: " ++ natToStr m ++ (if m = 1 then c!" issue" else c!" issues") ++ c!" fixed."] ∧
      (((checkRun env { a with fix := false } fs).exit = .code 0 ∧ m = 0) ∨
        ∃ n, (checkRun env { a with fix := false } fs).stderr.getLast? = some (.checkSummary n m)) ∧
      (checkRun env { a with fix := false } (checkRun env a fs).fs).stdout = [c!"All checks completed successfully! No issues found."] ∧
      (checkRun env { a with fix := false } (checkRun env a fs).fs).stderr = [] := by
  obtain ⟨h1, h2⟩ := C60_fix_then_check hn hfix hst hown hwell hw
  have ea : { a with fix := true } = a := by cases a; simp only at hfix; rw [hfix]
  obtain ⟨m, h3, h4⟩ := C118_announced (env := env) (a := a) (fs := fs) (by rw [ea]; exact h1)
  rw [ea] at h3
  obtain ⟨cs, vs, g1, _, _⟩ := contexts_spec env a.skipModifiers fs a.files
  have e1 : checkRun env a fs = fixLoop env { a with stdout := false } cs fs [] [] 0 := by
    have : { a with stdout := false } = a := by cases a; simp only at hst; rw [hst]
    unfold checkRun; rw [g1, this]; simp [hfix]
  have hlen : ∀ (cs : List (Context × FPath)) (fs : Fs) (ns : List Note) (n : Nat), (fixLoop env { a with stdout := false } cs fs [] ns n).stdout.length ≤ 1 := by
    intro cs
    induction cs with
    | nil => intro fs ns n; simp [fixLoop]
    | cons c cs ih =>
      intro fs ns n
      obtain ⟨ctx, p⟩ := c
      rcases fix_cases env ctx with h | ⟨ctx', m, o, k1, k2⟩
      · rcases h with h | ⟨ctx', m, h, h'⟩
        · simp [fixLoop, h]
        · simp [fixLoop, h, h']
      · rw [fixLoop_step k1 k2]
        have e2 : (checkWrite { a with stdout := false } fs o p).2.1 = [] := by
          unfold checkWrite
          simp only [Bool.false_eq_true, if_false]
          cases fs.write p o <;> rfl
        rw [e2]
        exact ih _ _ _
  have hl := hlen cs fs [] 0
  rw [← e1] at hl
  refine ⟨m, ?_, ?_, ?_⟩
  · cases ho : (checkRun env a fs).stdout with
    | nil => rw [ho] at h3; cases h3
    | cons x l =>
      cases l with
      | nil => rw [ho] at h3; exact congrArg (fun y => [y]) (Option.some.inj h3)
      | cons y l => rw [ho] at hl; simp at hl
  · rcases h4 with h4 | ⟨_, n, h4, _⟩
    · exact .inl h4
    · exact .inr ⟨n, h4⟩
  · generalize (checkRun env a fs).fs = fs' at h2 ⊢
    obtain ⟨cs', vs', k1, _⟩ := contexts_spec env a.skipModifiers fs' a.files
    have e3 : checkRun env { a with fix := false } fs' = match checkAll cs' with
      | .panic => ⟨fs', [], [], .panicked⟩
      | .err e => nomatch e
      | .ok vs => checkExit fs' (vs' ++ vs) := by
      unfold checkRun; rw [k1]; rfl
    rw [e3] at h2 ⊢
    cases hc : checkAll cs' with
    | panic => rw [hc] at h2; cases h2
    | err e => exact nomatch e
    | ok ws =>
      rw [hc] at h2
      simp only [checkExit] at h2 ⊢
      by_cases he : vs' ++ ws = []
      · rw [if_pos (by simpa using he)]; exact ⟨rfl, rfl⟩
      · rw [if_neg (by simpa using he)] at h2; cases h2

end
end Bulloak
