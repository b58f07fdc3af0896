import Verif.Spec.Report
import Verif.Props.EndToEnd
import Verif.Props.Error
import Verif.Lemmas.Fix3
/-!
# What the commands report (C55, C61, C62, C63)
-/

set_option linter.unusedSectionVars false

namespace Bulloak
open Spec

section
variable [U : Ucd]

/-! ## scaffold -/

theorem unstable_congr {env : Env} {cfg : Config} {fs fs' : Fs} {f : FPath} (h : fs'.state f = fs.state f) :
    Unstable env cfg fs' f ↔ Unstable env cfg fs f := by unfold Unstable; rw [h]

theorem writeFile_notes (a : ScaffoldArgs) (fs : Fs) (s : Str) (p : FPath) :
    (writeFile a fs s p).2 = if fs.state p ≠ .absent ∧ a.forceWrite = false then [.skipped p]
      else if fs.writable p = true then [] else [.writeFailed] := by
  unfold writeFile
  by_cases h : (fs.exists_ p && !a.forceWrite) = true
  · rw [if_pos h, if_pos]
    simpa [Fs.exists_eq] using h
  · rw [if_neg h, if_neg]
    · unfold Fs.write
      by_cases hw : fs.writable p = true
      · simp [hw]
      · simp [hw]
    · intro hc
      apply h
      simp [Fs.exists_eq, hc.1, hc.2]

/-- The state of the loop after the files `before`. -/
private def After (env : Env) (a : ScaffoldArgs) (base : Fs) (before : List FPath) (fs : Fs) : Prop :=
  (∀ p : FPath, ¬ c!".t.sol" <:+ p.name → fs.state p = base.state p) ∧ fs.writable = base.writable ∧
    (a.writeFiles = true → ∀ p, fs.state p ≠ .absent ↔ Taken env a.config base before p)

private theorem after_bad [LawfulUcd] {env : Env} {a : ScaffoldArgs} {base fs : Fs} {before : List FPath} {f : FPath}
    (h : After env a base before fs) (hb : Bad env a.config base f) : After env a base (before ++ [f]) fs := by
  refine ⟨h.1, h.2.1, fun hw p => (h.2.2 hw p).trans ?_⟩
  unfold Taken
  refine or_congr Iff.rfl (and_congr Iff.rfl ⟨?_, ?_⟩)
  · rintro ⟨g, hg, x⟩; exact ⟨g, by simp [hg], x⟩
  · rintro ⟨g, hg, ⟨o, ho⟩, x⟩
    rcases List.mem_append.1 hg with hg | hg
    · exact ⟨g, hg, ⟨o, ho⟩, x⟩
    · rw [List.mem_singleton.1 hg] at ho
      exact absurd hb (good_not_bad ho)

private theorem after_good [LawfulUcd] {env : Env} {a : ScaffoldArgs} {base fs : Fs} {before : List FPath} {f : FPath} {o : Str}
    (h : After env a base before fs) (hg : Good env a.config base f o) :
    After env a base (before ++ [f]) (if a.writeFiles then (writeFile a fs o f.withSolExt).1 else fs) := by
  cases hw : a.writeFiles with
  | false => exact ⟨h.1, h.2.1, fun h => by rw [hw] at h; cases h⟩
  | true =>
    simp only [if_true]
    refine ⟨?_, by rw [writeFile_writable, h.2.1], fun _ p => ?_⟩
    · intro p hp
      rw [writeFile_state, if_neg]
      · exact h.1 p hp
      · rintro ⟨rfl, _⟩; exact hp (withSolExt_suffix f)
    · have hh := h.2.2 hw p
      rw [writeFile_state]
      by_cases hc : p = f.withSolExt ∧ fs.writable f.withSolExt = true ∧ (a.forceWrite = true ∨ fs.state f.withSolExt = .absent)
      · rw [if_pos hc]
        refine ⟨fun _ => Or.inr ⟨?_, f, by simp, ⟨o, hg⟩, (solOf_iff _ _).2 hc.1⟩, fun _ => by simp⟩
        rw [← h.2.1, hc.1]; exact hc.2.1
      · rw [if_neg hc, hh]
        unfold Taken
        constructor
        · rintro (h1 | ⟨h1, g, hg, x⟩)
          · exact Or.inl h1
          · exact Or.inr ⟨h1, g, by simp [hg], x⟩
        · rintro (h1 | ⟨h1, g, hg', x, y⟩)
          · exact Or.inl h1
          · rcases List.mem_append.1 hg' with hg' | hg'
            · exact Or.inr ⟨h1, g, hg', x, y⟩
            · rw [List.mem_singleton.1 hg'] at y
              have hp := (solOf_iff _ _).1 y
              refine hh.1 fun hs => hc ⟨hp, ?_, Or.inr ?_⟩
              · rw [← hp, h.2.1]; exact h1
              · rw [← hp]; exact hs

private theorem reports_of [LawfulUcd] {env : Env} {a : ScaffoldArgs} {base fs : Fs} {before : List FPath} {f : FPath} {o : Str} {w : List Note}
    (h : After env a base before fs) (hw : (Unstable env a.config base f → w = [.unformatted]) ∧ (¬ Unstable env a.config base f → w = [])) :
    Reports env a base before f f.withSolExt (w ++ if a.writeFiles then (writeFile a fs o f.withSolExt).2 else []) := by
  refine ⟨w, _, rfl, hw.1, hw.2, fun h => by rw [h]; rfl, fun h1 => ?_⟩
  rw [h1]
  simp only [if_true]
  have ht := h.2.2 h1 f.withSolExt
  rw [writeFile_notes]
  constructor
  · rintro ⟨h2, h3⟩
    rw [if_pos ⟨ht.2 h3, h2⟩]
  · intro hn
    rw [if_neg (fun hc => hn ⟨hc.2, ht.1 hc.1⟩), h.2.1]
    exact ⟨fun h => by rw [if_pos h], fun h => by rw [if_neg (by rw [h]; simp)]⟩

/-- The end of the report: the failed files with their errors, and how many they are. -/
private def closing (es : List (FPath × FileError)) : List Note :=
  if es = [] then [] else es.map (fun e => .failed e.1 e.2) ++ [.scaffoldSummary es.length]

private theorem loop_reports [LawfulUcd] {env : Env} {a : ScaffoldArgs} {base : Fs} : ∀ {files : List FPath} (_ : NoTests files)
    (_ : ∀ f ∈ files, ¬ Unformatted env a.config base f) {before : List FPath} {fs : Fs} (_ : After env a base before fs)
    (out : List Str) (ns : List Note) (es : List (FPath × FileError)),
    ∃ ds fails, During env a base before files ds ∧ Failures env a.config base files fails ∧
      (scaffoldLoop env a files fs out ns es).stderr = ns ++ ds ++ closing (es ++ fails) := by
  intro files
  induction files with
  | nil =>
    intro _ _ before fs _ out ns es
    refine ⟨[], [], .nil, .nil, ?_⟩
    unfold scaffoldLoop closing reportErrors
    cases es <;> simp
  | cons f files ih =>
    intro hnt hu before fs ha out ns es
    have hsf : fs.state f = base.state f := ha.1 f (hnt f (by simp))
    have hnt' : NoTests files := fun g hg => hnt g (by simp [hg])
    have hu' : ∀ g ∈ files, ¬ Unformatted env a.config base g := fun g hg => hu g (by simp [hg])
    unfold scaffoldLoop
    rcases processFile_cases env a fs f with ⟨o, wn, hg, hwn, hp⟩ | ⟨e, hbad, hp⟩ | ⟨hun, hp⟩
    · have hg' := (good_congr hsf o).1 hg
      rw [unstable_congr hsf] at hwn
      have hr := reports_of (o := o) ha hwn
      have hstep := after_good ha hg'
      rw [hp]
      cases hw : a.writeFiles with
      | true =>
        rw [hw] at hr hstep
        simp only [if_true] at hr hstep ⊢
        obtain ⟨ds, fails, h1, h2, h3⟩ := ih hnt' hu' hstep (out ++ []) (ns ++ (wn ++ (writeFile a fs o f.withSolExt).2)) es
        refine ⟨_, fails, .good hg' ((solOf_iff _ _).2 rfl) hr h1, .good hg' h2, ?_⟩
        rw [h3]; simp
      | false =>
        rw [hw] at hr hstep
        simp only [Bool.false_eq_true, if_false] at hr hstep ⊢
        obtain ⟨ds, fails, h1, h2, h3⟩ := ih hnt' hu' hstep (out ++ [o]) (ns ++ wn) es
        refine ⟨_, fails, .good hg' ((solOf_iff _ _).2 rfl) hr h1, .good hg' h2, ?_⟩
        rw [h3]; simp
    · have hb' := (failsWith_congr hsf e).1 hbad
      rw [hp]
      obtain ⟨ds, fails, h1, h2, h3⟩ := ih hnt' hu' (after_bad ha (bad_iff.2 ⟨e, hb'⟩)) out ns (es ++ [(f, e)])
      refine ⟨ds, (f, e) :: fails, .bad (bad_iff.2 ⟨e, hb'⟩) h1, .bad hb' h2, ?_⟩
      simp only
      rw [h3]; simp
    · exact absurd ((unformatted_congr hsf).1 hun) (hu f (by simp))

private theorem after_start {env : Env} {a : ScaffoldArgs} {fs : Fs} : After env a fs [] fs :=
  ⟨fun _ _ => rfl, rfl, fun _ p => by simp [Taken]⟩

/-- **C61.** What `scaffold` writes to standard error: while working, a message for every file that is left alone or cannot be
written; at the end, if files failed, each of them with its error, in order, and how many they are. -/
theorem C61_reports [LawfulUcd] {env : Env} {a : ScaffoldArgs} {fs : Fs} (hn : NoTests a.files)
    (hu : ∀ f ∈ a.files, ¬ Unformatted env a.config fs f) :
    ∃ ds fails, During env a fs [] a.files ds ∧ Failures env a.config fs a.files fails ∧
      (scaffoldRun env a fs).stderr =
        ds ++ (if fails = [] then [] else fails.map (fun e => .failed e.1 e.2) ++ [.scaffoldSummary fails.length]) := by
  obtain ⟨ds, fails, h1, h2, h3⟩ := loop_reports hn hu (after_start (env := env) (a := a) (fs := fs)) [] [] []
  exact ⟨ds, fails, h1, h2, by simpa [scaffoldRun, closing] using h3⟩

private theorem loop_crash [LawfulUcd] {env : Env} {a : ScaffoldArgs} {base : Fs} {f : FPath} {B : List FPath}
    (hf : ¬ c!".t.sol" <:+ f.name) (hu : Unformatted env a.config base f) : ∀ {A : List FPath} (_ : NoTests A)
    (_ : ∀ f ∈ A, ¬ Unformatted env a.config base f) {before : List FPath} {fs : Fs} (_ : After env a base before fs)
    (out : List Str) (ns : List Note) (es : List (FPath × FileError)),
    ∃ ds, During env a base before A ds ∧ (scaffoldLoop env a (A ++ f :: B) fs out ns es).stderr = ns ++ ds := by
  intro A
  induction A with
  | nil =>
    intro _ _ before fs ha out ns es
    refine ⟨[], .nil, ?_⟩
    have hsf : fs.state f = base.state f := ha.1 f hf
    have hu' := (unformatted_congr hsf).2 hu
    rw [List.nil_append]
    unfold scaffoldLoop
    rcases processFile_cases env a fs f with ⟨o, _, hg, _⟩ | ⟨e, hb, _⟩ | ⟨_, hp⟩
    · exact absurd hu' (good_formatted hg)
    · exact absurd hu' (bad_formatted (bad_iff.2 ⟨e, hb⟩))
    · rw [hp]; simp
  | cons g A ih =>
    intro hnt hun before fs ha out ns es
    have hsf : fs.state g = base.state g := ha.1 g (hnt g (by simp))
    have hnt' : NoTests A := fun g hg => hnt g (by simp [hg])
    have hun' : ∀ g ∈ A, ¬ Unformatted env a.config base g := fun g hg => hun g (by simp [hg])
    rw [List.cons_append]
    unfold scaffoldLoop
    rcases processFile_cases env a fs g with ⟨o, wn, hg, hwn, hp⟩ | ⟨e, hbad, hp⟩ | ⟨hx, hp⟩
    · have hg' := (good_congr hsf o).1 hg
      rw [unstable_congr hsf] at hwn
      have hr := reports_of (o := o) ha hwn
      have hstep := after_good ha hg'
      rw [hp]
      cases hw : a.writeFiles with
      | true =>
        rw [hw] at hr hstep
        simp only [if_true] at hr hstep ⊢
        obtain ⟨ds, h1, h3⟩ := ih hnt' hun' hstep (out ++ []) (ns ++ (wn ++ (writeFile a fs o g.withSolExt).2)) es
        refine ⟨_, .good hg' ((solOf_iff _ _).2 rfl) hr h1, ?_⟩
        rw [h3]; simp
      | false =>
        rw [hw] at hr hstep
        simp only [Bool.false_eq_true, if_false] at hr hstep ⊢
        obtain ⟨ds, h1, h3⟩ := ih hnt' hun' hstep (out ++ [o]) (ns ++ wn) es
        refine ⟨_, .good hg' ((solOf_iff _ _).2 rfl) hr h1, ?_⟩
        rw [h3]; simp
    · have hb' := (failsWith_congr hsf e).1 hbad
      rw [hp]
      obtain ⟨ds, h1, h3⟩ := ih hnt' hun' (after_bad ha (bad_iff.2 ⟨e, hb'⟩)) out ns (es ++ [(g, e)])
      exact ⟨ds, .bad (bad_iff.2 ⟨e, hb'⟩) h1, h3⟩
    · exact absurd ((unformatted_congr hsf).1 hx) (hun g (by simp))

/-- **C61**, crash: if the formatter rejects the code of a file, the files that failed before it are not reported. -/
theorem C61_crash [LawfulUcd] {env : Env} {a : ScaffoldArgs} {fs : Fs} (hn : NoTests a.files) {A B : List FPath} {f : FPath}
    (hfiles : a.files = A ++ f :: B) (hA : ∀ g ∈ A, ¬ Unformatted env a.config fs g) (hu : Unformatted env a.config fs f) :
    ∃ ds, During env a fs [] A ds ∧ (scaffoldRun env a fs).stderr = ds ∧ ∀ g e, .failed g e ∉ (scaffoldRun env a fs).stderr := by
  obtain ⟨ds, h1, h2⟩ := loop_crash (B := B) (hn f (by rw [hfiles]; simp)) hu (A := A) (fun g hg => hn g (by rw [hfiles]; simp [hg])) hA
    (after_start (env := env) (a := a) (fs := fs)) [] [] []
  have h3 : (scaffoldRun env a fs).stderr = ds := by
    unfold scaffoldRun
    rw [hfiles, h2]; simp
  refine ⟨ds, h1, h3, ?_⟩
  rw [h3]
  clear h2 h3 hfiles hu hA
  intro g e hm
  generalize ([] : List FPath) = before at h1
  induction h1 with
  | nil => cases hm
  | bad _ _ ih => exact ih hm
  | @good before f out p ns' files ns _ _ hr _ ih =>
    rcases List.mem_append.1 hm with hm | hm
    · obtain ⟨w, n, rfl, h1, h2, h3, h4⟩ := hr
      rcases List.mem_append.1 hm with hm | hm
      · by_cases hx : Unstable env a.config fs f
        · rw [h1 hx] at hm; simp at hm
        · rw [h2 hx] at hm; cases hm
      · cases hw : a.writeFiles with
        | false => rw [h3 hw] at hm; cases hm
        | true =>
          by_cases hx : a.forceWrite = false ∧ Taken env a.config fs before p
          · rw [(h4 hw).1 hx] at hm; simp at hm
          · cases hy : fs.writable p with
            | true => rw [((h4 hw).2 hx).1 hy] at hm; cases hm
            | false => rw [((h4 hw).2 hx).2 hy] at hm; simp at hm
    · exact ih hm

theorem failures_mem {env : Env} {cfg : Config} {fs : Fs} {files : List FPath} {fails : List (FPath × FileError)}
    (h : Failures env cfg fs files fails) {f : FPath} {e : FileError} : (f, e) ∈ fails ↔ f ∈ files ∧ FailsWith env cfg fs f e := by
  induction h with
  | nil => simp
  | @bad g x files es hb _ ih =>
    rw [List.mem_cons, ih, List.mem_cons]
    constructor
    · rintro (h | ⟨h1, h2⟩)
      · cases h; exact ⟨Or.inl rfl, hb⟩
      · exact ⟨Or.inr h1, h2⟩
    · rintro ⟨rfl | h1, h2⟩
      · exact Or.inl (by rw [failsWith_unique h2 hb])
      · exact Or.inr ⟨h1, h2⟩
  | @good g o files es hg _ ih =>
    rw [ih, List.mem_cons]
    constructor
    · rintro ⟨h1, h2⟩; exact ⟨Or.inr h1, h2⟩
    · rintro ⟨rfl | h1, h2⟩
      · exact absurd (bad_iff.2 ⟨e, h2⟩) (good_not_bad hg)
      · exact ⟨h1, h2⟩

/-- The notes of one good file. -/
private theorem reports_mem [LawfulUcd] {env : Env} {a : ScaffoldArgs} {fs : Fs} {before : List FPath} {f p : FPath} {ns : List Note}
    (h : Reports env a fs before f p ns) :
    (∀ q, .skipped q ∈ ns ↔ q = p ∧ a.writeFiles = true ∧ a.forceWrite = false ∧ Taken env a.config fs before p) ∧
    (.writeFailed ∈ ns ↔ a.writeFiles = true ∧ fs.writable p = false ∧ ¬ (a.forceWrite = false ∧ Taken env a.config fs before p)) ∧
    (.unformatted ∈ ns ↔ Unstable env a.config fs f) ∧ (∀ g e, .failed g e ∉ ns) ∧ (∀ n, .scaffoldSummary n ∉ ns) := by
  obtain ⟨w, n, rfl, h1, h2, h3, h4⟩ := h
  have hw : w = [.unformatted] ∧ Unstable env a.config fs f ∨ w = [] ∧ ¬ Unstable env a.config fs f := by
    by_cases hx : Unstable env a.config fs f
    · exact Or.inl ⟨h1 hx, hx⟩
    · exact Or.inr ⟨h2 hx, hx⟩
  have hn : (a.writeFiles = false ∧ n = []) ∨ a.writeFiles = true ∧ ((a.forceWrite = false ∧ Taken env a.config fs before p) ∧ n = [.skipped p] ∨
      (¬ (a.forceWrite = false ∧ Taken env a.config fs before p) ∧ (fs.writable p = true ∧ n = [] ∨ fs.writable p = false ∧ n = [.writeFailed]))) := by
    cases hwf : a.writeFiles with
    | false => exact Or.inl ⟨rfl, h3 hwf⟩
    | true =>
      right
      refine ⟨rfl, ?_⟩
      by_cases hx : a.forceWrite = false ∧ Taken env a.config fs before p
      · exact Or.inl ⟨hx, (h4 hwf).1 hx⟩
      · right
        refine ⟨hx, ?_⟩
        cases hy : fs.writable p with
        | true => exact Or.inl ⟨rfl, ((h4 hwf).2 hx).1 hy⟩
        | false => exact Or.inr ⟨rfl, ((h4 hwf).2 hx).2 hy⟩
  clear h1 h2 h3 h4
  rcases hw with ⟨rfl, hu⟩ | ⟨rfl, hu⟩ <;> rcases hn with ⟨h5, rfl⟩ | ⟨h5, ⟨h6, rfl⟩ | ⟨h6, ⟨h7, rfl⟩ | ⟨h7, rfl⟩⟩⟩ <;>
    simp [hu, h5] <;> (try simp only [Bool.not_eq_false] at *) <;> grind

/-- What can be reported while working. -/
private theorem during_mem [LawfulUcd] {env : Env} {a : ScaffoldArgs} {fs : Fs} {before files : List FPath} {ns : List Note}
    (h : During env a fs before files ns) :
    (∀ p, .skipped p ∈ ns ↔ a.writeFiles = true ∧ a.forceWrite = false ∧ ∃ A f B out, files = A ++ f :: B ∧ Good env a.config fs f out ∧
      SolOf f p ∧ Taken env a.config fs (before ++ A) p) ∧
    (.writeFailed ∈ ns ↔ a.writeFiles = true ∧ ∃ f ∈ files, ∃ out p, Good env a.config fs f out ∧ SolOf f p ∧ fs.writable p = false ∧
      (a.forceWrite = true ∨ fs.state p = .absent)) ∧
    (.unformatted ∈ ns ↔ ∃ f ∈ files, Unstable env a.config fs f) ∧ (∀ g e, .failed g e ∉ ns) ∧ (∀ n, .scaffoldSummary n ∉ ns) := by
  induction h with
  | nil => simp
  | @bad before f files ns hb _ ih =>
    obtain ⟨i1, i2, i3, i4⟩ := ih
    refine ⟨fun p => ?_, ?_, ?_, i4⟩
    · rw [i1 p]
      refine and_congr Iff.rfl (and_congr Iff.rfl ?_)
      constructor
      · rintro ⟨A, g, B, o, rfl, h1, h2, h3⟩
        exact ⟨f :: A, g, B, o, rfl, h1, h2, by simpa using h3⟩
      · rintro ⟨A, g, B, o, h0, h1, h2, h3⟩
        cases A with
        | nil => cases h0; exact absurd hb (good_not_bad h1)
        | cons x A => cases h0; exact ⟨A, g, B, o, rfl, h1, h2, by simpa using h3⟩
    · rw [i2]
      refine and_congr Iff.rfl ?_
      constructor
      · rintro ⟨g, hg, x⟩; exact ⟨g, by simp [hg], x⟩
      · rintro ⟨g, hg, o, p, h1, h2⟩
        rcases List.mem_cons.1 hg with rfl | hg
        · exact absurd hb (good_not_bad h1)
        · exact ⟨g, hg, o, p, h1, h2⟩
    · rw [i3]
      constructor
      · rintro ⟨g, hg, x⟩; exact ⟨g, by simp [hg], x⟩
      · rintro ⟨g, hg, x⟩
        rcases List.mem_cons.1 hg with rfl | hg
        · obtain ⟨t, s, o, x1, x2, x3, x4⟩ := x
          exact absurd hb (good_not_bad (o := o) ⟨t, x1, s, o, x2, x3, Or.inr ⟨x4, rfl⟩⟩)
        · exact ⟨g, hg, x⟩
  | @good before f out p ns' files ns hg hp hr _ ih =>
    obtain ⟨i1, i2, i3, i4, i5⟩ := ih
    obtain ⟨r1, r2, r3, r4, r5⟩ := reports_mem hr
    refine ⟨fun q => ?_, ?_, ?_, fun g e hm => ?_, fun n hm => ?_⟩
    · rw [List.mem_append, r1 q, i1 q]
      constructor
      · rintro (⟨rfl, h1, h2, h3⟩ | ⟨h1, h2, A, g, B, o, rfl, h3, h4, h5⟩)
        · exact ⟨h1, h2, [], f, files, out, rfl, hg, hp, by simpa using h3⟩
        · exact ⟨h1, h2, f :: A, g, B, o, rfl, h3, h4, by simpa using h5⟩
      · rintro ⟨h1, h2, A, g, B, o, h0, h3, h4, h5⟩
        cases A with
        | nil =>
          cases h0
          have : q = p := by rw [(solOf_iff _ _).1 h4, (solOf_iff _ _).1 hp]
          subst this
          exact Or.inl ⟨rfl, h1, h2, by simpa using h5⟩
        | cons x A => cases h0; exact Or.inr ⟨h1, h2, A, g, B, o, rfl, h3, h4, by simpa using h5⟩
    · rw [List.mem_append, r2, i2]
      have key : fs.writable p = false → (¬ (a.forceWrite = false ∧ Taken env a.config fs before p) ↔ (a.forceWrite = true ∨ fs.state p = .absent)) := by
        intro hw
        have : Taken env a.config fs before p ↔ fs.state p ≠ .absent := by simp [Taken, hw]
        rw [this]
        cases a.forceWrite <;> simp
      constructor
      · rintro (⟨h1, h2, h3⟩ | ⟨h1, g, hgm, x⟩)
        · exact ⟨h1, f, by simp, out, p, hg, hp, h2, (key h2).1 h3⟩
        · exact ⟨h1, g, by simp [hgm], x⟩
      · rintro ⟨h1, g, hgm, o, q, h2, h3, h4, h5⟩
        rcases List.mem_cons.1 hgm with rfl | hgm
        · have : q = p := by rw [(solOf_iff _ _).1 h3, (solOf_iff _ _).1 hp]
          subst this
          exact Or.inl ⟨h1, h4, (key h4).2 h5⟩
        · exact Or.inr ⟨h1, g, hgm, o, q, h2, h3, h4, h5⟩
    · rw [List.mem_append, r3, i3]
      simp
    · rcases List.mem_append.1 hm with hm | hm
      · exact r4 g e hm
      · exact i4 g e hm
    · rcases List.mem_append.1 hm with hm | hm
      · exact r5 n hm
      · exact i5 n hm

/-- **C61.** A file is reported as failed exactly if it cannot be read or is rejected, with the right error; a Solidity file is
reported as skipped exactly if, with `-w` and without `-f`, it was there or was just written for an earlier tree; a failed
write is reported exactly if it happens. -/
theorem C61_which [LawfulUcd] {env : Env} {a : ScaffoldArgs} {fs : Fs} (hn : NoTests a.files)
    (hu : ∀ f ∈ a.files, ¬ Unformatted env a.config fs f) :
    (∀ f e, .failed f e ∈ (scaffoldRun env a fs).stderr ↔ f ∈ a.files ∧ FailsWith env a.config fs f e) ∧
    (∀ p, .skipped p ∈ (scaffoldRun env a fs).stderr ↔ a.writeFiles = true ∧ a.forceWrite = false ∧
      ∃ A f B out, a.files = A ++ f :: B ∧ Good env a.config fs f out ∧ SolOf f p ∧ Taken env a.config fs A p) ∧
    (.writeFailed ∈ (scaffoldRun env a fs).stderr ↔ a.writeFiles = true ∧ ∃ f ∈ a.files, ∃ out p, Good env a.config fs f out ∧
      SolOf f p ∧ fs.writable p = false ∧ (a.forceWrite = true ∨ fs.state p = .absent)) ∧
    (.unformatted ∈ (scaffoldRun env a fs).stderr ↔ ∃ f ∈ a.files, Unstable env a.config fs f) := by
  obtain ⟨ds, fails, h1, h2, h3⟩ := C61_reports hn hu
  obtain ⟨d1, d2, d3, d4, d5⟩ := during_mem h1
  have hcl : ∀ n : Note, n ∈ (scaffoldRun env a fs).stderr ↔ n ∈ ds ∨ (fails ≠ [] ∧ ((∃ e ∈ fails, n = .failed e.1 e.2) ∨ n = .scaffoldSummary fails.length)) := by
    intro n
    rw [h3]
    by_cases hf : fails = []
    · simp [hf]
    · simp [hf, eq_comm]
  refine ⟨fun f e => ?_, fun p => ?_, ?_, ?_⟩
  · rw [hcl, ← failures_mem h2]
    constructor
    · rintro (h | ⟨_, ⟨⟨g, x⟩, hm, h⟩ | h⟩)
      · exact absurd h (d4 f e)
      · cases h; exact hm
      · cases h
    · intro hm
      exact Or.inr ⟨List.ne_nil_of_mem hm, Or.inl ⟨_, hm, rfl⟩⟩
  · rw [hcl, d1 p]; simp
  · rw [hcl, d2]; simp
  · rw [hcl, d3]; simp

/-- **C61.** The message and the path of every rejected tree are in the text on standard error. -/
theorem C61_text [LawfulUcd] {env : Env} {a : ScaffoldArgs} {fs : Fs} (hn : NoTests a.files)
    (hu : ∀ f ∈ a.files, ¬ Unformatted env a.config fs f) {f : FPath} (hf : f ∈ a.files) {text : Str} {e : TranslateError}
    (ht : fs.state f = .text text) (he : translate env.order a.config text = .err e) (os : Str) (quoted : FPath → Str) :
    e.show ++ c!"\nfile: " ++ f.str ++ c!"\n" <:+: (scaffoldRun env a fs).stderr.flatMap (Note.show os quoted) := by
  have hm := ((C61_which hn hu).1 f (.tree e)).2 ⟨hf, Or.inr ⟨text, e, ht, he, rfl⟩⟩
  obtain ⟨A, B, h⟩ := List.append_of_mem hm
  rw [h]
  refine ⟨A.flatMap (Note.show os quoted), B.flatMap (Note.show os quoted), ?_⟩
  simp [Note.show, FileError.show]

/-! ## check -/

theorem contextNew_err [LawfulUcd] {env : Env} {skip : Bool} {fs : Fs} {t : FPath} {v : Violation}
    (h : contextNew env skip fs t = .err v) : Refused env fs t v := by
  unfold contextNew at h
  cases hr : fs.read t with
  | none =>
    rw [hr] at h
    cases h
    exact .unreadable (Fs.read_none.1 hr)
  | some text =>
    rw [hr] at h
    simp only [Res.okOr, Res.bind_ok] at h
    cases ht : translate env.order .default text with
    | panic => exact absurd ht (C57_translate_never_panics _ _ _)
    | err e =>
      rw [ht] at h
      cases h
      exact .rejected (Fs.read_eq.1 hr) ht
    | ok hir =>
      rw [ht] at h
      simp only [Res.mapErr, Res.bind_ok] at h
      cases hs : fs.state t.withSolExt with
      | absent =>
        have : fs.exists_ t.withSolExt = false := by simp [Fs.exists_, hs]
        rw [this] at h
        cases h
        exact .missing (Fs.read_eq.1 hr) ht ((solOf_iff _ _).2 rfl) hs
      | unreadable =>
        have h1 : fs.exists_ t.withSolExt = true := by simp [Fs.exists_, hs]
        have h2 : fs.read t.withSolExt = none := by simp [Fs.read, hs]
        rw [h1, h2] at h
        cases h
        exact .unreadableSol (Fs.read_eq.1 hr) ht ((solOf_iff _ _).2 rfl) hs
      | text src =>
        have h1 : fs.exists_ t.withSolExt = true := by simp [Fs.exists_, hs]
        have h2 : fs.read t.withSolExt = some src := by simp [Fs.read, hs]
        rw [h1, h2] at h
        cases hp : env.solParse src with
        | none =>
          simp only [Res.bind_ok, hp] at h
          cases h
          exact .brokenSol (Fs.read_eq.1 hr) ht ((solOf_iff _ _).2 rfl) hs hp
        | some u =>
          simp only [Res.bind_ok, hp] at h
          cases h

theorem refused_not_opens {env : Env} {skip : Bool} {fs : Fs} {t : FPath} {v : Violation} {ctx : Context} (h : Refused env fs t v) :
    ¬ Opens env skip fs t ctx := by
  rintro ⟨text, hir, p, src, u, h1, h2, h3, h4, h5, _⟩
  have hp := (solOf_iff _ _).1 h3
  cases h with
  | unreadable h => exact h _ h1
  | rejected g1 g2 => rw [h1] at g1; cases g1; rw [h2] at g2; cases g2
  | missing g1 g2 g3 g4 => rw [(solOf_iff _ _).1 g3, ← hp, h4] at g4; cases g4
  | unreadableSol g1 g2 g3 g4 => rw [(solOf_iff _ _).1 g3, ← hp, h4] at g4; cases g4
  | brokenSol g1 g2 g3 g4 g5 => rw [(solOf_iff _ _).1 g3, ← hp, h4] at g4; cases g4; rw [h5] at g5; cases g5

theorem contexts_sorted [LawfulUcd] (env : Env) (skip : Bool) (fs : Fs) : ∀ files, ∃ cs vs, contexts env skip fs files = .ok (cs, vs) ∧
    Sorted env skip fs files vs cs := by
  intro files
  induction files with
  | nil => exact ⟨[], [], rfl, .nil⟩
  | cons t ts ih =>
    obtain ⟨cs, vs, h1, h2⟩ := ih
    unfold contexts
    cases hc : contextNew env skip fs t with
    | panic => exact absurd hc contextNew_no_panic
    | ok c =>
      obtain ⟨ctx, p⟩ := c
      obtain ⟨g1, rfl⟩ := contextNew_ok.1 hc
      exact ⟨_, vs, by simp [h1], .opens g1 ((solOf_iff _ _).2 rfl) h2⟩
    | err v => exact ⟨cs, _, by simp [h1], .refused (contextNew_err hc) h2⟩

theorem checkAll_each : ∀ {cs : List (Context × FPath)} {vs : List Violation}, checkAll cs = .ok vs →
    ∃ vss : List (List Violation), Each (fun c v => checkCtx c.1 = .ok v) cs vss ∧ vs = vss.flatten := by
  intro cs
  induction cs with
  | nil => intro vs h; cases h; exact ⟨[], .nil, rfl⟩
  | cons c cs ih =>
    intro vs h
    obtain ⟨ctx, p⟩ := c
    unfold checkAll at h
    obtain ⟨v, h1, h⟩ := Res.bind_eq_ok.1 h
    obtain ⟨ws, h2, h⟩ := Res.bind_eq_ok.1 h
    cases h
    obtain ⟨vss, h3, rfl⟩ := ih h2
    exact ⟨v :: vss, .cons h1 h3, rfl⟩

theorem isFixable_iff (v : Violation) : v.kind.isFixable = true ↔ Fixable v := by
  obtain ⟨k, l⟩ := v
  cases k <;> simp [ViolationKind.isFixable, Fixable]

open Classical in
/-- **C62.** What `check` reports: one violation for every tree it cannot work on, saying why, then the violations of the others,
in order, and how many there are and how many of them can be fixed; or that there are none.  If checking crashes nothing
is reported. -/
theorem C62_reports [LawfulUcd] {env : Env} {a : CheckArgs} {fs : Fs} (hf : a.fix = false) :
    ∃ refused cs, Sorted env a.skipModifiers fs a.files refused cs ∧
      ((∃ vss vs, Each (fun c v => checkCtx c.1 = .ok v) cs vss ∧ vs = refused ++ vss.flatten ∧
        ((vs = [] ∧ (checkRun env a fs).stderr = [] ∧
            (checkRun env a fs).stdout = [c!"All checks completed successfully! No issues found."]) ∨
          (vs ≠ [] ∧ (checkRun env a fs).stdout = [] ∧ (checkRun env a fs).stderr =
            vs.map .violation ++ [.checkSummary vs.length (vs.countP (fun v => decide (Fixable v)))]))) ∨
      ((∃ c ∈ cs, checkCtx c.1 = .panic) ∧ (checkRun env a fs).stderr = [] ∧ (checkRun env a fs).stdout = [])) := by
  obtain ⟨cs, refused, h1, h2⟩ := contexts_sorted env a.skipModifiers fs a.files
  refine ⟨refused, cs, h2, ?_⟩
  unfold checkRun
  rw [h1]
  simp only [hf, Bool.false_eq_true, if_false]
  rcases checkAll_cases cs with ⟨ws, h4, h5, h6⟩ | ⟨h4, c, hc, h5⟩
  · rw [h4]
    obtain ⟨vss, h7, rfl⟩ := checkAll_each h4
    refine Or.inl ⟨vss, _, h7, rfl, ?_⟩
    simp only [checkExit]
    by_cases he : refused ++ vss.flatten = []
    · exact Or.inl ⟨he, by simp [he], by simp [he]⟩
    · right
      rw [if_neg (by simpa using he)]
      refine ⟨he, rfl, ?_⟩
      simp only
      have hcp : ∀ l : List Violation, l.countP (fun v => decide (Fixable v)) = (l.filter (fun v => v.kind.isFixable)).length := by
        intro l
        rw [List.countP_eq_length_filter]
        congr 1
        apply List.filter_congr
        intro v _
        rw [Bool.eq_iff_iff, isFixable_iff, decide_eq_true_iff]
      rw [hcp]
  · rw [h4]
    exact Or.inr ⟨⟨c, hc, h5⟩, rfl, rfl⟩

open Classical in
/-- How many violations of the context can be fixed. -/
def Spec.FixCount (c : Context × FPath) (n : Nat) : Prop := ∃ vs, checkCtx c.1 = .ok vs ∧ n = vs.countP (fun v => decide (Fixable v))

private theorem fixContext_count {env : Env} {ctx ctx' : Context} {p : FPath} {n : Nat} (h : fixContext env.solParse ctx = .ok (ctx', n)) :
    FixCount (ctx, p) n := by
  unfold fixContext at h
  obtain ⟨vs, h1, h⟩ := Res.bind_eq_ok.1 h
  refine ⟨vs, h1, ?_⟩
  have hn : n = (vs.filter (fun v => v.kind.isFixable)).length := by
    obtain ⟨c1, _, h⟩ := Res.bind_eq_ok.1 h
    obtain ⟨ws, _, h⟩ := Res.bind_eq_ok.1 h
    simp only at h
    split at h
    · cases h; rfl
    · split at h
      · obtain ⟨c2, _, h⟩ := Res.bind_eq_ok.1 h
        cases h; rfl
      · cases h; rfl
  classical
  rw [hn, List.countP_eq_length_filter]
  congr 1
  apply List.filter_congr
  intro v _
  rw [Bool.eq_iff_iff, isFixable_iff, decide_eq_true_iff]

private theorem fixLoop_reports {env : Env} {a : CheckArgs} : ∀ {cs : List (Context × FPath)} (_ : ∀ c ∈ cs, ¬ FixCrashes env c.1) (fs : Fs)
    (out : List Str) (ns : List Note) (n : Nat), ∃ outs ks, Each (fun c o => FixedTo env c.1 o) cs outs ∧ Each FixCount cs ks ∧
      (fixLoop env a cs fs out ns n).stdout = out ++ ((if a.stdout = true then (cs.zip outs).flatMap (fun x =>
        [c!"--> " ++ x.1.2.str, trim x.2, c!"<--"]) else []) ++
        [c!"\nsuccess: " ++ natToStr (n + ks.sum) ++ (if n + ks.sum = 1 then c!" issue" else c!" issues") ++ c!" fixed."]) ∧
      (fixLoop env a cs fs out ns n).stderr = ns ++ (if a.stdout = true then [] else
        (cs.filter (fun c => !fs.writable c.2)).map (fun _ => .fixFailed)) := by
  intro cs
  induction cs with
  | nil =>
    intro _ fs out ns n
    refine ⟨[], [], .nil, .nil, ?_, ?_⟩
    · simp only [fixLoop, pluralize, List.sum_nil, Nat.add_zero]
      by_cases h : n = 1 <;> simp [h]
    · simp [fixLoop]
  | cons c cs ih =>
    intro hc fs out ns n
    obtain ⟨ctx, p⟩ := c
    rcases fix_cases env ctx with h | ⟨ctx', m, o, h1, h2⟩
    · exact absurd h (hc (ctx, p) (by simp))
    · rw [fixLoop_step h1 h2]
      obtain ⟨outs, ks, i1, i2, i3, i4⟩ := ih (fun c h => hc c (by simp [h])) (checkWrite a fs o p).1 (out ++ (checkWrite a fs o p).2.1)
        (ns ++ (checkWrite a fs o p).2.2) (n + m)
      refine ⟨o :: outs, m :: ks, .cons ⟨ctx', m, h1, h2⟩ i1, .cons (fixContext_count h1) i2, ?_, ?_⟩
      · rw [i3]
        have e : n + m + ks.sum = n + (m :: ks).sum := by rw [List.sum_cons, Nat.add_assoc]
        rw [e]
        unfold checkWrite
        cases a.stdout with
        | true => simp
        | false => cases fs.write p o <;> simp
      · rw [i4, checkWrite_writable]
        unfold checkWrite
        cases a.stdout with
        | true => simp
        | false =>
          cases hw : fs.writable p with
          | true => simp [Fs.write, hw]
          | false => simp [Fs.write, hw]

/-- **C62**, `--fix`: unless fixing crashes, the number of fixable violations of all trees it can work on is reported, with
`--stdout` after the fixed code of each of them, between markers; otherwise every failed write is reported.  Nothing is
said about the trees it cannot work on. -/
theorem C62_fix_reports [LawfulUcd] {env : Env} {a : CheckArgs} {fs : Fs} (hf : a.fix = true)
    (hc : ∀ t ∈ a.files, ∀ ctx, Opens env a.skipModifiers fs t ctx → ¬ FixCrashes env ctx) :
    ∃ refused cs outs ks, Sorted env a.skipModifiers fs a.files refused cs ∧ Each (fun c o => FixedTo env c.1 o) cs outs ∧
      Each FixCount cs ks ∧
      (checkRun env a fs).stdout = (if a.stdout = true then (cs.zip outs).flatMap (fun x =>
        [c!"--> " ++ x.1.2.str, trim x.2, c!"<--"]) else []) ++
        [c!"\nsuccess: " ++ natToStr ks.sum ++ (if ks.sum = 1 then c!" issue" else c!" issues") ++ c!" fixed."] ∧
      (checkRun env a fs).stderr = if a.stdout = true then [] else (cs.filter (fun c => !fs.writable c.2)).map (fun _ => .fixFailed) := by
  obtain ⟨cs, refused, h1, h2⟩ := contexts_sorted env a.skipModifiers fs a.files
  have hcs : ∀ c ∈ cs, ¬ FixCrashes env c.1 := by
    clear h1
    have : ∀ {files vs cs}, Sorted env a.skipModifiers fs files vs cs → ∀ c ∈ cs, ∃ t ∈ files, Opens env a.skipModifiers fs t c.1 := by
      intro files vs cs h
      induction h with
      | nil => simp
      | refused _ _ ih => intro c hc; obtain ⟨t, ht, x⟩ := ih c hc; exact ⟨t, by simp [ht], x⟩
      | opens ho _ _ ih =>
        intro c hc
        rcases List.mem_cons.1 hc with rfl | hc
        · exact ⟨_, by simp, ho⟩
        · obtain ⟨t, ht, x⟩ := ih c hc; exact ⟨t, by simp [ht], x⟩
    intro c hm
    obtain ⟨t, ht, ho⟩ := this h2 c hm
    exact hc t ht _ ho
  have he : checkRun env a fs = fixLoop env a cs fs [] [] 0 := by
    unfold checkRun
    rw [h1]
    simp [hf]
  obtain ⟨outs, ks, i1, i2, i3, i4⟩ := fixLoop_reports (a := a) hcs fs [] [] 0
  refine ⟨refused, cs, outs, ks, h2, i1, i2, ?_, ?_⟩
  · rw [he, i3]; simp
  · rw [he, i4]; simp

/-! ## What a violation says -/

/-- The error is found by the semantic analyzer. -/
def Spec.Semantic (e : TranslateError) : Prop := ∃ text es, e = .syntax (.semantics text es)

theorem sorted_refused {env : Env} {skip : Bool} {fs : Fs} {files : List FPath} {vs : List Violation} {cs : List (Context × FPath)}
    (h : Sorted env skip fs files vs cs) {t : FPath} (ht : t ∈ files) {v : Violation} (hv : Refused env fs t v) : ∃ v ∈ vs, Refused env fs t v := by
  induction h with
  | nil => cases ht
  | refused h1 _ ih =>
    rcases List.mem_cons.1 ht with rfl | ht
    · exact ⟨_, by simp, h1⟩
    · obtain ⟨w, hw, x⟩ := ih ht
      exact ⟨w, by simp [hw], x⟩
  | opens h1 _ _ ih =>
    rcases List.mem_cons.1 ht with rfl | ht
    · exact absurd h1 (refused_not_opens hv)
    · exact ih ht

/-- A rejected tree is reported as such, unless checking crashes. -/
theorem rejected_reported [LawfulUcd] {env : Env} {a : CheckArgs} {fs : Fs} (hf : a.fix = false) {t : FPath} (ht : t ∈ a.files)
    {text : Str} {e : TranslateError} (hs : fs.state t = .text text) (he : translate env.order .default text = .err e)
    (hx : (checkRun env a fs).exit ≠ .panicked) :
    .violation ⟨.parsingFailed (.tree e), .file t.str⟩ ∈ (checkRun env a fs).stderr ∧ (checkRun env a fs).exit = .code 1 := by
  constructor
  · obtain ⟨refused, cs, h1, ⟨vss, vs, h2, rfl, h3⟩ | ⟨⟨c, hc, h2⟩, _⟩⟩ := C62_reports (env := env) (fs := fs) hf
    · obtain ⟨v, hv, hr⟩ := sorted_refused h1 ht (.rejected hs he)
      have hv' : v = ⟨.parsingFailed (.tree e), .file t.str⟩ := by
        cases hr with
        | unreadable h => exact absurd hs (h _)
        | rejected g1 g2 => rw [hs] at g1; cases g1; rw [he] at g2; cases g2; rfl
        | missing g1 g2 => rw [hs] at g1; cases g1; rw [he] at g2; cases g2
        | unreadableSol g1 g2 => rw [hs] at g1; cases g1; rw [he] at g2; cases g2
        | brokenSol g1 g2 => rw [hs] at g1; cases g1; rw [he] at g2; cases g2
      rcases h3 with ⟨h3, _⟩ | ⟨_, _, h3⟩
      · rw [List.append_eq_nil_iff] at h3
        rw [h3.1] at hv; cases hv
      · rw [h3, ← hv']
        simp [hv]
    · exfalso
      apply hx
      rcases C51_exit (env := env) (fs := fs) hf with ⟨_, h3⟩ | ⟨_, h3, _⟩ | ⟨h3, _⟩
      · obtain ⟨ctx, ho, _⟩ := h3 t ht
        exact absurd ho (refused_not_opens (.rejected hs he))
      · exfalso
        have : ∀ {files vs cs}, Sorted env a.skipModifiers fs files vs cs → ∀ c ∈ cs, ∃ t ∈ files, Opens env a.skipModifiers fs t c.1 := by
          intro files vs cs h
          induction h with
          | nil => simp
          | refused _ _ ih => intro c hc; obtain ⟨t, ht, x⟩ := ih c hc; exact ⟨t, by simp [ht], x⟩
          | opens ho _ _ ih =>
            intro c hc
            rcases List.mem_cons.1 hc with rfl | hc
            · exact ⟨_, by simp, ho⟩
            · obtain ⟨t, ht, x⟩ := ih c hc; exact ⟨t, by simp [ht], x⟩
        obtain ⟨t', ht', ho⟩ := this h1 c hc
        exact h3 t' ht' _ ho h2
      · exact h3
  · rcases C51_exit (env := env) (fs := fs) hf with ⟨_, h3⟩ | ⟨h3, _⟩ | ⟨h3, _⟩
    · obtain ⟨ctx, ho, _⟩ := h3 t ht
      exact absurd ho (refused_not_opens (.rejected hs he))
    · exact h3
    · exact absurd h3 hx

/-- **C55** (partial: semantic errors are excluded, see `C55_semantic`).  When `check` meets a tree that is rejected, and does not
crash on another one, it exits with 1 and its report contains what the message of the error says, as an error of the tree, and
the path of the tree. -/
theorem C55_tree_error_partial [LawfulUcd] {env : Env} {a : CheckArgs} {fs : Fs} (hf : a.fix = false) {t : FPath} (ht : t ∈ a.files)
    {text : Str} {e : TranslateError} (hs : fs.state t = .text text) (he : translate env.order .default text = .err e)
    (hx : (checkRun env a fs).exit ≠ .panicked) (hn : ¬ Semantic e) (os : Str) (quoted : FPath → Str) :
    (checkRun env a fs).exit = .code 1 ∧ ∃ kind, heading kind <+: e.show ∧
      c!"warn: an error occurred while parsing the tree: " ++ kind ++ c!"\n   --> " ++ t.str ++ c!"\n" <:+:
        (checkRun env a fs).stderr.flatMap (Note.show os quoted) := by
  obtain ⟨hm, hc⟩ := rejected_reported hf ht hs he hx
  refine ⟨hc, ?_⟩
  have key : ∃ kind, heading kind <+: e.show ∧ formatFrontendError (.tree e) = c!"an error occurred while parsing the tree: " ++ kind := by
    cases e with
    | combiner x y => exact ⟨y.text, by simp only [TranslateError.show, formatError]; split <;> simp [heading, List.append_assoc], rfl⟩
    | «syntax» s =>
      cases s with
      | tokenizer x y => exact ⟨y.kindText, by simp only [TranslateError.show, formatError]; split <;> simp [heading, List.append_assoc], rfl⟩
      | parser x y => exact ⟨y.kind.text, by simp only [TranslateError.show, formatError]; split <;> simp [heading, List.append_assoc], rfl⟩
      | semantics x y => exact absurd ⟨x, y, rfl⟩ hn
  obtain ⟨kind, hk, hk2⟩ := key
  refine ⟨kind, hk, ?_⟩
  obtain ⟨A, B, h⟩ := List.append_of_mem hm
  rw [h]
  refine ⟨A.flatMap (Note.show os quoted), c!"\n" ++ B.flatMap (Note.show os quoted), ?_⟩
  simp [Note.show, Violation.show, ViolationKind.text, ViolationKind.help, ViolationKind.isFixable, hk2, Location.show]

/-- **C55**, what happens with semantic errors: they are reported as errors of the Solidity file, with the path of the tree and no
word about what is wrong. -/
theorem C55_semantic [LawfulUcd] {env : Env} {a : CheckArgs} {fs : Fs} (hf : a.fix = false) {t : FPath} (ht : t ∈ a.files)
    {text : Str} {e : TranslateError} (hs : fs.state t = .text text) (he : translate env.order .default text = .err e)
    (hx : (checkRun env a fs).exit ≠ .panicked) (hn : Semantic e) :
    ∃ v, .violation v ∈ (checkRun env a fs).stderr ∧
      v.show = c!"warn: an error occurred while parsing the solidity file\n   --> " ++ t.str ++ c!"\n" := by
  obtain ⟨hm, hc⟩ := rejected_reported hf ht hs he hx
  refine ⟨_, hm, ?_⟩
  obtain ⟨x, y, rfl⟩ := hn
  simp [Violation.show, ViolationKind.text, ViolationKind.help, ViolationKind.isFixable, formatFrontendError, Location.show]

/-- A tree file with the usual extension and no `.t.sol` elsewhere in its path. -/
def Spec.Plain (t : FPath) : Prop := ∃ stem, t.name = stem ++ c!".tree" ∧ stem ≠ [] ∧ ¬ c!".t.sol" <:+: t.dir ++ stem

private theorem plain_sol {t p : FPath} {stem : Str} (h : t.name = stem ++ c!".tree") (h0 : stem ≠ []) (hp : SolOf t p) :
    p.str = t.dir ++ stem ++ c!".t.sol" := by
  obtain ⟨h1, st, h2, h3⟩ := hp
  unfold FPath.str
  rw [h1, h2]
  rcases h3 with ⟨h3, ext, h4, h5⟩ | ⟨h3, h4⟩
  · rw [h] at h5
    have : stem = st := by
      have e : stem ++ '.' :: c!"tree" = st ++ '.' :: ext := h5
      rcases List.append_eq_append_iff.1 e with ⟨l, rfl, g⟩ | ⟨l, rfl, g⟩
      · cases l with
        | nil => simp
        | cons c l =>
          have g2 := (List.cons.inj g).2
          have : '.' ∈ c!"tree" := by rw [g2]; simp
          exact absurd this (by decide +kernel)
      · cases l with
        | nil => simp
        | cons c l =>
          have g2 := (List.cons.inj g).2
          exact absurd (by rw [g2]; simp) h4
    rw [this]; simp
  · exfalso
    rw [h] at h3
    obtain ⟨c, r, rfl⟩ := List.exists_cons_of_ne_nil h0
    rw [← h3] at h4
    exact h4 (by simp)

theorem ends_once {x : Str} (h : ¬ c!".t.sol" <:+: x) : Once x c!".t.sol" [] := by
  intro a b e
  rw [List.append_nil] at e
  rcases List.append_eq_append_iff.1 e with ⟨l, rfl, g⟩ | ⟨l, rfl, g⟩
  · cases l with
    | nil => simp
    | cons c l =>
      exfalso
      have hl := congrArg List.length g
      simp at hl
      omega
  · cases l with
    | nil => simp
    | cons c l =>
      exfalso
      -- an occurrence that overlaps the last one, or lies before it
      match l, g with
      | [], g => revert g; simp
      | [_], g => revert g; simp
      | [_, _], g => revert g; simp
      | [_, _, _], g => revert g; simp
      | [_, _, _, _], g => revert g; simp
      | x1 :: x2 :: x3 :: x4 :: x5 :: l, g =>
        simp at g
        obtain ⟨rfl, rfl, rfl, rfl, rfl, rfl, g⟩ := g
        exact h ⟨a, l, by simp⟩

private theorem plain_once {t : FPath} {stem : Str} (h : t.name = stem ++ c!".tree") (h2 : ¬ c!".t.sol" <:+: t.dir ++ stem) :
    replaceAll c!".t.sol" c!".tree" t.str = t.str := by
  apply replaceAll_none
  intro a b e
  unfold FPath.str at e
  rw [h, ← List.append_assoc] at e
  rcases List.append_eq_append_iff.1 e with ⟨l, rfl, g⟩ | ⟨l, e2, g⟩
  · match l, g with
    | [], g => revert g; simp
    | [_], g => revert g; simp
    | [_, _], g => revert g; simp
    | [_, _, _], g => revert g; simp
    | [_, _, _, _], g => revert g; simp
    | x1 :: x2 :: x3 :: x4 :: x5 :: l, g => simp at g
  · match l, g with
    | [], g => revert g; simp
    | [_], g => revert g; simp
    | [_, _], g => revert g; simp
    | [_, _, _], g => revert g; simp
    | [_, _, _, _], g => revert g; simp
    | [_, _, _, _, _], g => revert g; simp
    | x1 :: x2 :: x3 :: x4 :: x5 :: x6 :: l, g =>
      simp at g
      obtain ⟨rfl, rfl, rfl, rfl, rfl, rfl, g⟩ := g
      exact h2 ⟨a, l, by rw [e2]; simp⟩

private theorem infix_of_eq {a b c : Str} (h : b = a ++ c) : ∀ {x : Str}, x <:+: a → x <:+: b := by
  rintro x ⟨p, q, rfl⟩
  exact ⟨p, q ++ c, by rw [h]; simp⟩

/-- Where the violations of a tree point. -/
theorem check_files [LawfulUcd] {env : Env} {skip : Bool} {fs : Fs} {t p : FPath} {ctx : Context} (ho : Opens env skip fs t ctx)
    (hp : SolOf t p) {vs : List Violation} (hv : checkCtx ctx = .ok vs) {v : Violation} (hm : v ∈ vs) :
    Fixable v ∧ (v.location.filename = t.str ∨ v.location.filename = p.str) := by
  obtain ⟨text, hir, q, src, u, h1, h2, h3, h4, h5, rfl⟩ := ho
  have hq : q = p := by rw [(solOf_iff _ _).1 h3, (solOf_iff _ _).1 hp]
  subst hq
  obtain ⟨n, fns, rfl, _⟩ := translate_ok h2
  cases hc : findContract u with
  | none =>
    rw [C37_no_contract rfl ((findContract_none _).1 hc)] at hv
    cases hv
    rw [List.mem_singleton.1 hm]
    exact ⟨Or.inl ⟨_, rfl⟩, Or.inl rfl⟩
  | some s =>
    have hs := (findContract_iff _ _).1 hc
    obtain ⟨k, loc⟩ := v
    obtain ⟨v1, v2, v3, rfl, k1, _, k2, k3⟩ := C39_kinds (ctx := ⟨t.str, ⟨[⟨n, fns⟩]⟩, q.str, src, u, skip⟩) rfl hs hv
    rcases List.mem_append.1 hm with hm' | hm'
    · rcases List.mem_append.1 hm' with hm' | hm'
      · obtain ⟨a, b, hk⟩ := k1 _ hm'
        cases hk
        obtain ⟨_, _, _, l, _, rfl⟩ := (C37_name (ctx := ⟨t.str, ⟨[⟨n, fns⟩]⟩, q.str, src, u, skip⟩) rfl hs hv a b loc).1 hm
        exact ⟨Or.inr (Or.inl ⟨_, _, rfl⟩), Or.inr rfl⟩
      · obtain ⟨f, i, hk⟩ := k2 _ hm'
        cases hk
        obtain ⟨_, _, _, rfl⟩ := ((C38_missing (ctx := ⟨t.str, ⟨[⟨n, fns⟩]⟩, q.str, src, u, skip⟩) rfl hs hv).1 f i loc).1 hm
        exact ⟨Or.inr (Or.inr (Or.inr ⟨_, _, rfl⟩)), Or.inl rfl⟩
    · obtain ⟨g, a, i, hk⟩ := k3 _ hm'
      cases hk
      obtain ⟨_, l, _, _, _, _, rfl⟩ := (C39_order (ctx := ⟨t.str, ⟨[⟨n, fns⟩]⟩, q.str, src, u, skip⟩) rfl hs hv).2.2 g a i loc hm
      exact ⟨Or.inr (Or.inr (Or.inl ⟨_, _, _, rfl⟩)), Or.inr rfl⟩

/-- **C63** (partial: for tree files called `*.tree` with no other `.t.sol` in their path).  Every violation found in a tree and its
Solidity file comes with the command that fixes it, naming the tree file. -/
theorem C63_fix_hint_partial [LawfulUcd] {env : Env} {skip : Bool} {fs : Fs} {t : FPath} {ctx : Context} (hpl : Plain t)
    (ho : Opens env skip fs t ctx) {vs : List Violation} (hv : checkCtx ctx = .ok vs) {v : Violation} (hm : v ∈ vs) :
    c!"     + fix: run `bulloak check --fix " ++ t.str ++ c!"`\n   --> " <:+: v.show := by
  obtain ⟨stem, h1, h0, h2⟩ := hpl
  have hp : SolOf t t.withSolExt := (solOf_iff _ _).2 rfl
  obtain ⟨hfx, hl⟩ := check_files ho hp hv hm
  have hr : replaceAll c!".t.sol" c!".tree" v.location.filename = t.str := by
    rcases hl with hl | hl
    · rw [hl]; exact plain_once h1 h2
    · rw [hl, plain_sol h1 h0 hp]
      have := replaceAll_once c!".tree" (by simp) (ends_once h2)
      rw [List.append_nil] at this
      rw [this]
      simp [FPath.str, h1]
  unfold Violation.show
  rw [if_pos ((isFixable_iff v).2 hfx), hr]
  refine ⟨c!"warn: " ++ v.kind.text ++ c!"\n" ++ (match v.kind.help with | some h => c!"     = help: " ++ h ++ c!"\n" | none => []),
    v.location.show ++ c!"\n", ?_⟩
  simp [List.append_assoc]
  cases v.kind.help <;> rfl

/-- **C63** (partial, same restriction).  If the Solidity file is missing, the violation comes with the command that creates it, naming
the tree file. -/
theorem C63_scaffold_hint_partial {t : FPath} (hpl : Plain t) :
    (⟨.solidityFileMissing t.str, .file t.str⟩ : Violation).show = c!"warn: the tree is missing its matching Solidity file: " ++ t.str ++
      c!"\n     = help: consider running `bulloak scaffold " ++ t.str ++ c!"`\n   --> " ++ t.str ++ c!"\n" := by
  obtain ⟨stem, h1, h0, h2⟩ := hpl
  simp [Violation.show, ViolationKind.text, ViolationKind.help, ViolationKind.isFixable, plain_once h1 h2, Location.show, List.append_assoc]

end
end Bulloak
