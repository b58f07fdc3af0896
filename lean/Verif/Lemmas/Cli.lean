import Verif.Spec.Cli
import Verif.Props.Check
/-! # Lemmas about the commands -/

set_option linter.unusedSectionVars false

namespace Bulloak
open Spec

/-! ## Paths -/

theorem dropWhile_ne_dot (r : Str) :
    (r.dropWhile (· ≠ '.') = [] ∧ '.' ∉ r) ∨ ∃ a b, '.' ∉ a ∧ r = a ++ '.' :: b ∧ r.dropWhile (· ≠ '.') = '.' :: b := by
  induction r with
  | nil => exact Or.inl ⟨rfl, by simp⟩
  | cons c r ih =>
    by_cases h : c = '.'
    · subst h
      exact Or.inr ⟨[], r, by simp, rfl, by simp⟩
    · rcases ih with ⟨h1, h2⟩ | ⟨a, b, h1, h2, h3⟩
      · exact Or.inl ⟨by rw [List.dropWhile_cons_of_pos (by simpa using h)]; exact h1, by simp [h2, Ne.symm h]⟩
      · refine Or.inr ⟨c :: a, b, by simp [h1, Ne.symm h], by simp [h2], ?_⟩
        rw [List.dropWhile_cons_of_pos (by simpa using h)]; exact h3

theorem fileStem_cases (n : Str) :
    (fileStem n ≠ [] ∧ ∃ ext, '.' ∉ ext ∧ n = fileStem n ++ '.' :: ext) ∨ (n = fileStem n ∧ '.' ∉ (fileStem n).tail) := by
  unfold fileStem
  rcases dropWhile_ne_dot n.reverse with ⟨h1, h2⟩ | ⟨a, b, h1, h2, h3⟩
  · rw [h1]
    simp only
    exact Or.inr ⟨trivial, fun h => h2 (by simpa using List.mem_of_mem_tail h)⟩
  · have hn : n = b.reverse ++ '.' :: a.reverse := by
      have := congrArg List.reverse h2
      simpa using this
    rw [h3]
    cases b with
    | nil =>
      simp only
      refine Or.inr ⟨trivial, ?_⟩
      rw [hn]; simpa using h1
    | cons d b =>
      simp only
      exact Or.inl ⟨by simp, a.reverse, by simpa using h1, hn⟩

theorem lastDot_unique : ∀ {a b a' b' : Str}, a ++ '.' :: b = a' ++ '.' :: b' → '.' ∉ b → '.' ∉ b' → a = a' := by
  intro a
  induction a with
  | nil =>
    intro b a' b' h h1 h2
    cases a' with
    | nil => rfl
    | cons c a' =>
      simp only [List.nil_append, List.cons_append, List.cons.injEq] at h
      exact absurd (by rw [h.2]; simp) h1
  | cons c a ih =>
    intro b a' b' h h1 h2
    cases a' with
    | nil =>
      simp only [List.nil_append, List.cons_append, List.cons.injEq] at h
      exact absurd (by rw [← h.2]; simp) h2
    | cons d a' =>
      simp only [List.cons_append, List.cons.injEq] at h
      rw [h.1, ih h.2 h1 h2]

theorem solOf_iff (t p : FPath) : SolOf t p ↔ p = t.withSolExt := by
  have hc := fileStem_cases t.name
  constructor
  · rintro ⟨hd, stem, hp, h⟩
    have hs : stem = fileStem t.name := by
      rcases h with ⟨h0, ext, h1, h2⟩ | ⟨h1, h2⟩
      · rcases hc with ⟨g0, ext', g1, g2⟩ | ⟨g1, g2⟩
        · exact lastDot_unique (h2.symm.trans g2) h1 g1
        · rw [← g1, h2] at g2
          cases stem with
          | nil => exact absurd rfl h0
          | cons c s => simp at g2
      · rcases hc with ⟨g0, ext', g1, g2⟩ | ⟨g1, g2⟩
        · rw [← h1, g2] at h2
          cases hf : fileStem t.name with
          | nil => exact absurd hf g0
          | cons c s => rw [hf] at h2; simp at h2
        · rw [← h1, ← g1]
    obtain ⟨d, n⟩ := p
    simp only at hd hp
    unfold FPath.withSolExt
    rw [← hs, hd, hp]
  · rintro rfl
    refine ⟨rfl, fileStem t.name, rfl, ?_⟩
    rcases hc with ⟨h0, ext, h1, h2⟩ | ⟨h1, h2⟩
    · exact Or.inl ⟨h0, ext, h1, h2⟩
    · exact Or.inr ⟨h1, h2⟩

theorem withSolExt_suffix (t : FPath) : c!".t.sol" <:+ t.withSolExt.name := ⟨fileStem t.name, rfl⟩

/-! ## Writing -/

theorem Fs.read_eq {fs : Fs} {p : FPath} {s : Str} : fs.read p = some s ↔ fs.state p = .text s := by
  unfold Fs.read
  cases fs.state p <;> simp

theorem Fs.read_none {fs : Fs} {p : FPath} : fs.read p = none ↔ ∀ s, fs.state p ≠ .text s := by
  unfold Fs.read
  cases fs.state p <;> simp

theorem Fs.exists_eq {fs : Fs} {p : FPath} : fs.exists_ p = true ↔ fs.state p ≠ .absent := by
  unfold Fs.exists_
  cases fs.state p <;> simp

theorem write_state (fs : Fs) (p : FPath) (s : Str) (q : FPath) :
    ((fs.write p s).getD fs).state q = if q = p ∧ fs.writable p = true then .text s else fs.state q := by
  unfold Fs.write
  by_cases h : fs.writable p = true
  · simp [h]
  · simp [h]

theorem write_writable (fs : Fs) (p : FPath) (s : Str) : ((fs.write p s).getD fs).writable = fs.writable := by
  unfold Fs.write
  split <;> rfl

theorem writeFile_fst (a : ScaffoldArgs) (fs : Fs) (s : Str) (p : FPath) :
    (writeFile a fs s p).1 = if fs.exists_ p && !a.forceWrite then fs else (fs.write p s).getD fs := by
  unfold writeFile
  split
  · rfl
  · cases fs.write p s <;> rfl

theorem writeFile_state (a : ScaffoldArgs) (fs : Fs) (s : Str) (p q : FPath) :
    (writeFile a fs s p).1.state q =
      if q = p ∧ fs.writable p = true ∧ (a.forceWrite = true ∨ fs.state p = .absent) then .text s else fs.state q := by
  rw [writeFile_fst]
  by_cases h : (fs.exists_ p && !a.forceWrite) = true
  · rw [if_pos h]
    simp only [Bool.and_eq_true, Bool.not_eq_true', Fs.exists_eq] at h
    rw [if_neg]
    rintro ⟨_, _, h1 | h1⟩
    · rw [h1] at h; cases h.2
    · exact h.1 h1
  · rw [if_neg h, write_state]
    have h' : a.forceWrite = true ∨ fs.state p = .absent := by
      simp only [Bool.and_eq_true, Bool.not_eq_true', Fs.exists_eq, ne_eq] at h
      by_cases hf : a.forceWrite = true
      · exact Or.inl hf
      · right
        by_cases hs : fs.state p = .absent
        · exact hs
        · exact absurd ⟨hs, by simpa using hf⟩ h
    simp [h']

theorem writeFile_writable (a : ScaffoldArgs) (fs : Fs) (s : Str) (p : FPath) : (writeFile a fs s p).1.writable = fs.writable := by
  rw [writeFile_fst]
  split
  · rfl
  · exact write_writable _ _ _

theorem Fs.ext {f g : Fs} (h1 : ∀ p, f.state p = g.state p) (h2 : f.writable = g.writable) : f = g := by
  obtain ⟨s, w⟩ := f
  obtain ⟨s', w'⟩ := g
  simp only at h1 h2
  cases funext h1
  rw [h2]

/-- Writing a list of files one after the other. -/
def writeAll (a : ScaffoldArgs) (l : List (FPath × Str)) (fs : Fs) : Fs := l.foldl (fun fs e => (writeFile a fs e.2 e.1).1) fs

theorem writeAll_writable (a : ScaffoldArgs) (l : List (FPath × Str)) : ∀ fs, (writeAll a l fs).writable = fs.writable := by
  induction l with
  | nil => intro fs; rfl
  | cons e l ih =>
    intro fs
    show (writeAll a l (writeFile a fs e.2 e.1).1).writable = _
    rw [ih, writeFile_writable]

/-- With `-f` the last write to a path counts. -/
theorem writeAll_force {a : ScaffoldArgs} (hf : a.forceWrite = true) (q : FPath) (l : List (FPath × Str)) : ∀ fs,
    (writeAll a l fs).state q = if fs.writable q = true then
      (match (l.filter (fun e => e.1 = q)).getLast? with | some e => .text e.2 | none => fs.state q) else fs.state q := by
  induction l with
  | nil => intro fs; simp [writeAll]
  | cons e l ih =>
    intro fs
    show (writeAll a l (writeFile a fs e.2 e.1).1).state q = _
    rw [ih, writeFile_writable, writeFile_state]
    by_cases hw : fs.writable q = true
    · rw [if_pos hw, if_pos hw]
      by_cases he : e.1 = q
      · rw [List.filter_cons_of_pos (by simpa using he)]
        rw [if_pos ⟨he.symm, by rw [he]; exact hw, Or.inl hf⟩]
        cases h : (l.filter (fun e => e.1 = q)).getLast? with
        | none =>
          rw [List.getLast?_eq_none_iff.1 h]
          rfl
        | some x => rw [List.getLast?_cons, h]; rfl
      · rw [List.filter_cons_of_neg (by simpa using he), if_neg (fun h => he h.1.symm)]
    · rw [if_neg hw, if_neg hw, if_neg]
      rintro ⟨rfl, h, _⟩
      exact hw h

/-- Without `-f` the first write to a missing path counts. -/
theorem writeAll_keep {a : ScaffoldArgs} (hf : a.forceWrite = false) (q : FPath) (l : List (FPath × Str)) : ∀ fs,
    (writeAll a l fs).state q = if fs.writable q = true ∧ fs.state q = .absent then
      (match l.find? (fun e => e.1 = q) with | some e => .text e.2 | none => fs.state q) else fs.state q := by
  induction l with
  | nil => intro fs; simp [writeAll]
  | cons e l ih =>
    intro fs
    show (writeAll a l (writeFile a fs e.2 e.1).1).state q = _
    rw [ih, writeFile_writable, writeFile_state]
    by_cases hw : fs.writable q = true
    · by_cases he : e.1 = q
      · subst he
        by_cases hs : fs.state e.1 = .absent
        · simp [hw, hs]
        · simp [hf, hs]
      · have hn : ¬ (q = e.1 ∧ fs.writable e.1 = true ∧ (a.forceWrite = true ∨ fs.state e.1 = .absent)) := fun h => he h.1.symm
        simp only [if_neg hn]
        rw [List.find?_cons_of_neg (by simpa using he)]
    · simp only [hw]
      simp only [Bool.false_eq_true, false_and, if_false]
      rw [if_neg]
      rintro ⟨rfl, h, _⟩
      exact hw h

/-- Writing the same files again changes nothing. -/
theorem writeAll_twice (a : ScaffoldArgs) (l : List (FPath × Str)) (fs : Fs) : writeAll a l (writeAll a l fs) = writeAll a l fs := by
  refine Fs.ext (fun q => ?_) (writeAll_writable _ _ _)
  cases hf : a.forceWrite with
  | true =>
    rw [writeAll_force hf, writeAll_writable]
    by_cases hw : fs.writable q = true
    · rw [if_pos hw, writeAll_force hf, if_pos hw]
      cases (l.filter (fun e => e.1 = q)).getLast? <;> rfl
    · rw [if_neg hw]
  | false =>
    rw [writeAll_keep hf, writeAll_writable]
    by_cases hw : fs.writable q = true ∧ (writeAll a l fs).state q = .absent
    · rw [if_pos hw]
      have h := hw.2
      rw [writeAll_keep hf] at h
      by_cases hs : fs.state q = .absent
      · rw [if_pos ⟨hw.1, hs⟩] at h
        cases hfi : l.find? (fun e => e.1 = q) with
        | none => rfl
        | some e => rw [hfi] at h; cases h
      · rw [if_neg (fun x => hs x.2)] at h
        exact absurd h hs
    · rw [if_neg hw]

/-! ## The scaffold loop -/

section
variable [U : Ucd]

/-- What `processFile` does with a file. -/
theorem processFile_cases [LawfulUcd] (env : Env) (a : ScaffoldArgs) (fs : Fs) (f : FPath) :
    (∃ out warn, Good env a.config fs f out ∧ ((Unstable env a.config fs f → warn = [.unformatted]) ∧ (¬ Unstable env a.config fs f → warn = [])) ∧
      processFile env a fs f =
      .ok (if a.writeFiles then ((writeFile a fs out f.withSolExt).1, [], warn ++ (writeFile a fs out f.withSolExt).2)
        else (fs, [out], warn))) ∨
    (∃ e, FailsWith env a.config fs f e ∧ processFile env a fs f = .err e) ∨
    (Unformatted env a.config fs f ∧ processFile env a fs f = .panic) := by
  unfold processFile
  cases hr : fs.read f with
  | none => exact Or.inr (Or.inl ⟨.io, Or.inl ⟨Fs.read_none.1 hr, rfl⟩, rfl⟩)
  | some text =>
    have ht := Fs.read_eq.1 hr
    simp only [Res.okOr, Res.bind_ok, scaffold]
    cases hs : scaffoldSource env.order a.config text with
    | panic =>
      unfold scaffoldSource at hs
      cases htr : translate env.order a.config text with
      | panic => exact absurd htr (C57_translate_never_panics _ _ _)
      | err e => rw [htr] at hs; cases hs
      | ok r => rw [htr] at hs; cases hs
    | err e =>
      refine Or.inr (Or.inl ⟨.tree e, Or.inr ⟨text, e, ht, ?_, rfl⟩, rfl⟩)
      unfold scaffoldSource at hs
      cases htr : translate env.order a.config text with
      | panic => rw [htr] at hs; cases hs
      | err e' => rw [htr] at hs; exact congrArg _ (by cases hs; rfl)
      | ok r => rw [htr] at hs; cases hs
    | ok src =>
      simp only [Res.bind_ok]
      cases h1 : env.forgeFmt src with
      | none => exact Or.inr (Or.inr ⟨⟨text, src, ht, hs, h1⟩, rfl⟩)
      | some once =>
        simp only [Res.unwrap, Res.mapErr, Res.bind_ok]
        cases h2 : env.forgeFmt once with
        | some out =>
          refine Or.inl ⟨out, [], ⟨text, ht, src, once, hs, h1, Or.inl h2⟩, ⟨?_, fun _ => rfl⟩, by cases a.writeFiles <;> simp⟩
          rintro ⟨t', s', o', g1, g2, g3, g4⟩
          rw [ht] at g1; cases g1
          rw [hs] at g2; cases g2
          rw [h1] at g3; cases g3
          rw [h2] at g4; cases g4
        | none =>
          exact Or.inl ⟨once, [.unformatted], ⟨text, ht, src, once, hs, h1, Or.inr ⟨h2, rfl⟩⟩,
            ⟨fun _ => rfl, fun hn => absurd ⟨text, src, once, ht, hs, h1, h2⟩ hn⟩, by cases a.writeFiles <;> simp⟩

theorem bad_iff {env : Env} {cfg : Config} {fs : Fs} {f : FPath} : Bad env cfg fs f ↔ ∃ e, FailsWith env cfg fs f e := by
  constructor
  · rintro (h | ⟨t, e, h1, h2⟩)
    · exact ⟨_, Or.inl ⟨h, rfl⟩⟩
    · exact ⟨_, Or.inr ⟨t, e, h1, h2, rfl⟩⟩
  · rintro ⟨e, ⟨h, _⟩ | ⟨t, e', h1, h2, _⟩⟩
    · exact Or.inl h
    · exact Or.inr ⟨t, e', h1, h2⟩

theorem failsWith_unique {env : Env} {cfg : Config} {fs : Fs} {f : FPath} {e e' : FileError} (h : FailsWith env cfg fs f e)
    (h' : FailsWith env cfg fs f e') : e = e' := by
  rcases h with ⟨h, rfl⟩ | ⟨t, x, h1, h2, rfl⟩ <;> rcases h' with ⟨g, rfl⟩ | ⟨t', x', g1, g2, rfl⟩
  · rfl
  · exact absurd g1 (h _)
  · exact absurd h1 (g _)
  · rw [h1] at g1; cases g1
    rw [h2] at g2; cases g2; rfl

theorem failsWith_congr {env : Env} {cfg : Config} {fs fs' : Fs} {f : FPath} (h : fs'.state f = fs.state f) (e : FileError) :
    FailsWith env cfg fs' f e ↔ FailsWith env cfg fs f e := by unfold FailsWith; rw [h]

theorem yields_unique {env : Env} {cfg : Config} {text o o' : Str} (h : Yields env cfg text o) (h' : Yields env cfg text o') :
    o = o' := by
  obtain ⟨s, c, h1, h2, h3⟩ := h
  obtain ⟨s', c', g1, g2, g3⟩ := h'
  rw [h1] at g1; cases g1
  rw [h2] at g2; cases g2
  rcases h3 with h3 | ⟨h3, rfl⟩ <;> rcases g3 with g3 | ⟨g3, rfl⟩ <;> rw [h3] at g3 <;> first | exact Option.some.inj g3 | cases g3 | rfl

theorem good_unique {env : Env} {cfg : Config} {fs : Fs} {f : FPath} {o o' : Str} (h : Good env cfg fs f o)
    (h' : Good env cfg fs f o') : o = o' := by
  obtain ⟨t, h1, h2⟩ := h
  obtain ⟨t', g1, g2⟩ := h'
  rw [h1] at g1; cases g1
  exact yields_unique h2 g2

theorem good_not_bad {env : Env} {cfg : Config} {fs : Fs} {f : FPath} {o : Str} (h : Good env cfg fs f o) : ¬ Bad env cfg fs f := by
  obtain ⟨t, h1, s, c, h2, _, _⟩ := h
  rintro (g | ⟨t', e, g1, g2⟩)
  · exact g t h1
  · rw [h1] at g1; cases g1
    unfold scaffoldSource at h2
    rw [g2] at h2; cases h2

theorem good_formatted {env : Env} {cfg : Config} {fs : Fs} {f : FPath} {o : Str} (h : Good env cfg fs f o) :
    ¬ Unformatted env cfg fs f := by
  obtain ⟨t, h1, s, c, h2, h3, _⟩ := h
  rintro ⟨t', s', g1, g2, g3⟩
  rw [h1] at g1; cases g1
  rw [h2] at g2; cases g2
  rw [h3] at g3; cases g3

theorem bad_formatted {env : Env} {cfg : Config} {fs : Fs} {f : FPath} (h : Bad env cfg fs f) : ¬ Unformatted env cfg fs f := by
  rintro ⟨t', s', g1, g2, g3⟩
  rcases h with h | ⟨t, e, h1, h2⟩
  · exact h _ g1
  · rw [h1] at g1; cases g1
    unfold scaffoldSource at g2
    rw [h2] at g2; cases g2

theorem good_congr {env : Env} {cfg : Config} {fs fs' : Fs} {f : FPath} (h : fs'.state f = fs.state f) (o : Str) :
    Good env cfg fs' f o ↔ Good env cfg fs f o := by unfold Good; rw [h]

theorem bad_congr {env : Env} {cfg : Config} {fs fs' : Fs} {f : FPath} (h : fs'.state f = fs.state f) :
    Bad env cfg fs' f ↔ Bad env cfg fs f := by unfold Bad; rw [h]

theorem unformatted_congr {env : Env} {cfg : Config} {fs fs' : Fs} {f : FPath} (h : fs'.state f = fs.state f) :
    Unformatted env cfg fs' f ↔ Unformatted env cfg fs f := by unfold Unformatted; rw [h]

/-- The output of a tree file, if it is good. -/
noncomputable def outOf (env : Env) (cfg : Config) (fs : Fs) (f : FPath) : Option Str :=
  open Classical in if h : ∃ o, Good env cfg fs f o then some h.choose else none

theorem outOf_some {env : Env} {cfg : Config} {fs : Fs} {f : FPath} {o : Str} : outOf env cfg fs f = some o ↔ Good env cfg fs f o := by
  unfold outOf
  constructor
  · intro h
    split at h
    · rename_i hx
      cases h
      exact hx.choose_spec
    · cases h
  · intro h
    rw [dif_pos ⟨o, h⟩]
    exact congrArg some (good_unique (Exists.choose_spec (p := fun o => Good env cfg fs f o) ⟨o, h⟩) h)

theorem outOf_congr {env : Env} {cfg : Config} {fs fs' : Fs} {f : FPath} (h : fs'.state f = fs.state f) :
    outOf env cfg fs' f = outOf env cfg fs f := by
  ext o
  rw [outOf_some, outOf_some, good_congr h]

/-- The files before the first one the formatter rejects. -/
noncomputable def runs (env : Env) (cfg : Config) (fs : Fs) (files : List FPath) : List FPath :=
  open Classical in files.takeWhile (fun f => !decide (Unformatted env cfg fs f))

/-- The writes of a run. -/
noncomputable def effects (env : Env) (cfg : Config) (fs : Fs) (files : List FPath) : List (FPath × Str) :=
  (runs env cfg fs files).filterMap (fun f => (outOf env cfg fs f).map (fun o => (f.withSolExt, o)))

/-- How a run ends, `n` files having failed before. -/
noncomputable def exitOf (env : Env) (cfg : Config) (fs : Fs) (files : List FPath) (n : Nat) : Exit :=
  open Classical in if runs env cfg fs files = files then
    .code (if n = 0 ∧ ∀ f ∈ files, ¬ Bad env cfg fs f then 0 else 1) else .panicked

/-- The loop, when nothing that is read is written. -/
theorem loop_spec [LawfulUcd] {env : Env} {a : ScaffoldArgs} {base : Fs} : ∀ {files : List FPath} (_ : NoTests files) {fs : Fs}
    (_ : ∀ p : FPath, ¬ c!".t.sol" <:+ p.name → fs.state p = base.state p) (out : List Str) (ns : List Note)
    (es : List (FPath × FileError)),
    (scaffoldLoop env a files fs out ns es).fs = (if a.writeFiles then writeAll a (effects env a.config base files) fs else fs) ∧
    (scaffoldLoop env a files fs out ns es).stdout =
      (if a.writeFiles then out else out ++ (runs env a.config base files).filterMap (outOf env a.config base)) ∧
    (scaffoldLoop env a files fs out ns es).exit = exitOf env a.config base files es.length := by
  intro files
  induction files with
  | nil =>
    intro _ fs _ out ns es
    cases es <;> simp [scaffoldLoop, runs, effects, writeAll, exitOf]
  | cons f files ih =>
    intro hnt fs hb out ns es
    have hsf : fs.state f = base.state f := hb f (hnt f (by simp))
    have hnt' : NoTests files := fun g hg => hnt g (by simp [hg])
    unfold scaffoldLoop
    rcases processFile_cases env a fs f with ⟨o, wn, hg, _, hp⟩ | ⟨e, hbad, hp⟩ | ⟨hu, hp⟩
    · have hg' := (good_congr hsf o).1 hg
      have hr : runs env a.config base (f :: files) = f :: runs env a.config base files := by
        unfold runs
        rw [List.takeWhile_cons_of_pos]
        simpa using good_formatted hg'
      have hall : exitOf env a.config base (f :: files) es.length = exitOf env a.config base files es.length := by
        have h1 : (runs env a.config base (f :: files) = f :: files) = (runs env a.config base files = files) := by simp [hr]
        have h2 : (es.length = 0 ∧ ∀ g ∈ f :: files, ¬ Bad env a.config base g) = (es.length = 0 ∧ ∀ g ∈ files, ¬ Bad env a.config base g) := by
          simp [good_not_bad hg']
        unfold exitOf
        by_cases h3 : runs env a.config base files = files
        · rw [if_pos h3, if_pos (h1.mpr h3)]
          by_cases h4 : es.length = 0 ∧ ∀ g ∈ files, ¬ Bad env a.config base g
          · rw [if_pos h4, if_pos (h2.mpr h4)]
          · rw [if_neg h4, if_neg (fun h => h4 (h2.mp h))]
        · rw [if_neg h3, if_neg (fun h => h3 (h1.mp h))]
      rw [hp]
      cases hw : a.writeFiles with
      | true =>
        simp only [if_true]
        have := ih hnt' (fs := (writeFile a fs o f.withSolExt).1) (fun p hp => by
          rw [writeFile_state, if_neg]
          · exact hb p hp
          · rintro ⟨rfl, _⟩
            exact hp (withSolExt_suffix f)) (out ++ []) (ns ++ (wn ++ (writeFile a fs o f.withSolExt).2)) es
        rw [this.1, this.2.1, this.2.2, hall]
        simp only [hw, if_true, List.append_nil, hr, effects, List.filterMap_cons, outOf_some.2 hg', Option.map_some, and_self,
          and_true]
        rfl
      | false =>
        simp only [Bool.false_eq_true, if_false]
        have := ih hnt' hb (out ++ [o]) (ns ++ wn) es
        rw [this.1, this.2.1, this.2.2, hall]
        simp only [hw, Bool.false_eq_true, if_false, hr, List.filterMap_cons, outOf_some.2 hg',
          List.append_assoc, List.cons_append, List.nil_append, and_self]
    · have hbad' : Bad env a.config base f := (bad_congr hsf).1 (bad_iff.2 ⟨e, hbad⟩)
      have hnone : outOf env a.config base f = none := by
        cases h : outOf env a.config base f with
        | none => rfl
        | some o => exact absurd hbad' (good_not_bad (outOf_some.1 h))
      have hr : runs env a.config base (f :: files) = f :: runs env a.config base files := by
        unfold runs
        rw [List.takeWhile_cons_of_pos]
        simpa using bad_formatted hbad'
      rw [hp]
      simp only
      have := ih hnt' hb out ns (es ++ [(f, e)])
      rw [this.1, this.2.1, this.2.2]
      have hall : exitOf env a.config base (f :: files) es.length = exitOf env a.config base files (es ++ [(f, e)]).length := by
        have h1 : (runs env a.config base (f :: files) = f :: files) = (runs env a.config base files = files) := by simp [hr]
        have h2 : (∀ g ∈ f :: files, ¬ Bad env a.config base g) = False := by
          simp [hbad']
        unfold exitOf
        simp only [h1, h2]
        simp
      rw [hall]
      simp only [hr, effects, List.filterMap_cons, hnone, Option.map_none, and_self]
    · have hu' := (unformatted_congr hsf).1 hu
      have hr : runs env a.config base (f :: files) = [] := by
        unfold runs
        rw [List.takeWhile_cons_of_neg]
        simpa using hu'
      rw [hp]
      simp [hr, effects, writeAll, exitOf]

theorem run_fs [LawfulUcd] {env : Env} {a : ScaffoldArgs} {fs : Fs} (h : NoTests a.files) :
    (scaffoldRun env a fs).fs = if a.writeFiles then writeAll a (effects env a.config fs a.files) fs else fs :=
  (loop_spec h (fun _ _ => rfl) [] [] []).1

theorem run_stdout [LawfulUcd] {env : Env} {a : ScaffoldArgs} {fs : Fs} (h : NoTests a.files) :
    (scaffoldRun env a fs).stdout = if a.writeFiles then [] else (runs env a.config fs a.files).filterMap (outOf env a.config fs) := by
  have := (loop_spec (env := env) (a := a) (base := fs) h (fs := fs) (fun _ _ => rfl) [] [] []).2.1
  simpa [scaffoldRun] using this

theorem run_exit [LawfulUcd] {env : Env} {a : ScaffoldArgs} {fs : Fs} (h : NoTests a.files) :
    (scaffoldRun env a fs).exit = exitOf env a.config fs a.files 0 :=
  (loop_spec h (fun _ _ => rfl) [] [] []).2.2

theorem runs_all {env : Env} {cfg : Config} {fs : Fs} {files : List FPath} (h : ∀ f ∈ files, ¬ Unformatted env cfg fs f) :
    runs env cfg fs files = files := by
  unfold runs
  induction files with
  | nil => rfl
  | cons f files ih =>
    rw [List.takeWhile_cons_of_pos (by simpa using h f (by simp)), ih (fun g hg => h g (by simp [hg]))]

theorem runs_eq {env : Env} {cfg : Config} {fs : Fs} {files : List FPath} (h : runs env cfg fs files = files) :
    ∀ f ∈ files, ¬ Unformatted env cfg fs f := by
  unfold runs at h
  intro f hf
  rw [← h] at hf
  have : ∀ l : List FPath, ∀ f ∈ l.takeWhile (fun f => open Classical in !decide (Unformatted env cfg fs f)), ¬ Unformatted env cfg fs f := by
    intro l
    induction l with
    | nil => simp
    | cons g l ih =>
      intro f hf
      by_cases hg : Unformatted env cfg fs g
      · rw [List.takeWhile_cons_of_neg (by simpa using hg)] at hf; cases hf
      · rw [List.takeWhile_cons_of_pos (by simpa using hg)] at hf
        rcases List.mem_cons.1 hf with rfl | hf
        · exact hg
        · exact ih f hf
  exact this _ f hf

end
end Bulloak
