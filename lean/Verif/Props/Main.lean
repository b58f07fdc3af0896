import Verif.Spec.Shape
import Verif.Lemmas.Args
import Verif.Props.Cli
import Verif.Props.CliCheck
/-!
# The command line: C86, C87
-/

namespace Bulloak
open Spec

/-- `p` is the path written as `s`: the name is what comes behind the last slash. -/
def PathOf (s : Str) (p : FPath) : Prop := p.str = s ∧ '/' ∉ p.name ∧ (p.dir = [] ∨ ∃ d, p.dir = d ++ c!"/")

theorem toPath_of (s : Str) : PathOf s (toPath s) := by
  refine ⟨?_, ?_, ?_⟩
  · show (s.reverse.dropWhile (· ≠ '/')).reverse ++ (s.reverse.takeWhile (· ≠ '/')).reverse = s
    rw [← List.reverse_append, List.takeWhile_append_dropWhile, List.reverse_reverse]
  · show '/' ∉ (s.reverse.takeWhile (· ≠ '/')).reverse
    rw [List.mem_reverse]
    intro h
    generalize s.reverse = l at h
    induction l with
    | nil => cases h
    | cons x l ih =>
      rw [List.takeWhile_cons] at h
      split at h
      · rename_i hx
        rcases List.mem_cons.1 h with h | h
        · subst h; simp at hx
        · exact ih h
      · cases h
  · show (s.reverse.dropWhile (· ≠ '/')).reverse = [] ∨ ∃ d, (s.reverse.dropWhile (· ≠ '/')).reverse = d ++ c!"/"
    generalize s.reverse = l
    induction l with
    | nil => exact .inl rfl
    | cons x l ih =>
      rw [List.dropWhile_cons]
      split
      · exact ih
      · rename_i hx
        have : x = '/' := by simpa using hx
        subst this
        exact .inr ⟨l.reverse, by simp⟩

theorem pathOf_unique {s : Str} {p q : FPath} (hp : PathOf s p) (hq : PathOf s q) : p = q := by
  have key : ∀ {p q : FPath}, p.str = q.str → '/' ∉ p.name → '/' ∉ q.name → (p.dir = [] ∨ ∃ d, p.dir = d ++ c!"/") →
      (q.dir = [] ∨ ∃ d, q.dir = d ++ c!"/") → q.dir.length ≤ p.dir.length → p = q := by
    rintro ⟨pd, pn⟩ ⟨qd, qn⟩ he h1 h2 h3 h4 hl
    simp only [FPath.str] at *
    obtain ⟨t, ht⟩ : ∃ t, pd = qd ++ t := by
      obtain ⟨t, ht⟩ := List.prefix_of_prefix_length_le (l₁ := qd) (l₂ := pd) (l₃ := pd ++ pn) ⟨qn, he.symm⟩ ⟨pn, rfl⟩ hl
      exact ⟨t, ht.symm⟩
    have hq' : qn = t ++ pn := by
      rw [ht, List.append_assoc] at he
      exact (List.append_cancel_left he).symm
    have htn : t = [] := by
      rcases List.eq_nil_or_concat t with h | ⟨t', c, hcc⟩
      · exact h
      · exfalso
        rw [List.concat_eq_append] at hcc
        subst hcc
        have hc : c = '/' := by
          rcases h3 with h3 | ⟨d, h3⟩
          · rw [h3] at ht; simp at ht
          · rw [h3, ← List.append_assoc] at ht
            exact (List.append_inj_right' ht rfl |> List.cons.inj).1.symm
        apply h2
        rw [hq', hc]
        simp
    subst htn
    simp at ht hq'
    rw [ht, hq']
  rcases Nat.le_total q.dir.length p.dir.length with h | h
  · exact key (hp.1.trans hq.1.symm) hp.2.1 hq.2.1 hp.2.2 hq.2.2 h
  · exact (key (hq.1.trans hp.1.symm) hq.2.1 hp.2.1 hq.2.2 hp.2.2 h).symm

theorem each_toPath (l : List Str) : Each PathOf l (l.map toPath) := by
  induction l with
  | nil => exact .nil
  | cons s l ih => exact .cons (toPath_of s) ih

theorem each_toPath_eq {l : List Str} {ps : List FPath} (h : Each PathOf l ps) : ps = l.map toPath := by
  induction h with
  | nil => rfl
  | cons h _ ih => rw [List.map_cons, ← ih, pathOf_unique h (toPath_of _)]

theorem options_mem (items : List Item) (o : Opt) (v : Str) : (o, v) ∈ Item.options items ↔ .opt o v ∈ items := by
  induction items with
  | nil => simp [Item.options]
  | cons i items ih => cases i <;> simp [Item.options, ih]

theorem said_iff (items : List Item) (o : Opt) : Said o items ↔ o ∈ (Item.options items).map Prod.fst := by
  unfold Said
  constructor
  · rintro ⟨v, h⟩
    exact List.mem_map.2 ⟨(o, v), (options_mem items o v).2 h, rfl⟩
  · intro h
    obtain ⟨⟨p, v⟩, h1, rfl⟩ := List.mem_map.1 h
    exact ⟨v, (options_mem items p v).1 h1⟩

/-- The options and files of a list of items. -/
def given (items : List Item) : Given := ⟨Item.options items, Item.files items⟩

theorem given_has (items : List Item) (o : Opt) : (given items).has o = true ↔ Said o items := by
  rw [has_iff, said_iff]; rfl

theorem given_get {items : List Item} (h : Once items) (o : Opt) (v : Str) : (given items).get o = some v ↔ .opt o v ∈ items := by
  unfold Given.get given
  rw [← options_mem]
  unfold Once at h
  generalize Item.options items = l at h
  simp only
  induction l with
  | nil => simp
  | cons p l ih =>
    rw [List.map_cons, List.nodup_cons] at h
    rw [List.find?_cons]
    by_cases hp : p.1 = o
    · subst hp
      simp only [decide_true, Option.map_some, Option.some.injEq, List.mem_cons]
      constructor
      · rintro rfl; exact .inl rfl
      · rintro (h' | h')
        · rw [← h']
        · exact absurd (List.mem_map.2 ⟨_, h', rfl⟩) h.1
    · simp only [hp, decide_false, ih h.2, List.mem_cons]
      constructor
      · exact .inr
      · rintro (h' | h')
        · exact absurd (by rw [← h']) hp
        · exact h'

theorem loop_iff {opts : List Opt} (ht : Table opts) (args : List Str) (g : Given) :
    argLoop opts ⟨[], []⟩ none args = .run g ↔ ∃ items, Spelled opts items args ∧ Once items ∧ g = given items := by
  constructor
  · intro h
    obtain ⟨is, h1, h2⟩ := (read_spelled args _ _).1 h
    rw [addItems_some (by simp)] at h2
    exact ⟨is, h1, by simpa [Once] using h2.1, by simpa [given] using h2.2⟩
  · rintro ⟨is, h1, h2, rfl⟩
    rw [spelled_read ht h1, (addItems_some (g' := given is) (by simp)).2 ⟨by simpa [Once] using h2, by simp [given]⟩]

/-- The arguments of `scaffold` say `a`. -/
structure SaysScaffold (items : List Item) (a : ScaffoldArgs) : Prop where
  files : Each PathOf (Item.files items) a.files
  write : a.writeFiles = true ↔ Said optWrite items
  force : a.forceWrite = true ↔ Said optForce items
  version : .opt optVersion a.solidityVersion ∈ items ∨ ¬ Said optVersion items ∧ a.solidityVersion = c!"0.8.0"
  vmSkip : a.withVmSkip = true ↔ Said optVmSkip items
  skip : a.skipModifiers = true ↔ Said optSkip items

/-- The arguments of `check` say `a`. -/
structure SaysCheck (items : List Item) (a : CheckArgs) : Prop where
  files : Each PathOf (Item.files items) a.files
  fix : a.fix = true ↔ Said optFix items
  stdout : a.stdout = true ↔ Said optStdout items
  skip : a.skipModifiers = true ↔ Said optSkip items

private theorem bool_ext {a b : Bool} {p : Prop} (h1 : a = true ↔ p) (h2 : b = true ↔ p) : a = b := by
  cases a <;> cases b <;> simp_all

private theorem says_scaffold {items : List Item} (h : Once items) (a : ScaffoldArgs) :
    SaysScaffold items a ↔ a = ⟨(given items).files.map toPath, (given items).has .write, (given items).has .force,
      ((given items).get .version).getD c!"0.8.0", (given items).has .vmSkip, (given items).has .skip⟩ := by
  constructor
  · rintro ⟨h1, h2, h3, h4, h5, h6⟩
    obtain ⟨f, w, fo, v, s, m⟩ := a
    simp only at *
    rw [each_toPath_eq h1, bool_ext h2 (given_has items .write), bool_ext h3 (given_has items .force), bool_ext h5 (given_has items .vmSkip),
      bool_ext h6 (given_has items .skip)]
    congr 1
    rcases h4 with h4 | ⟨h4, rfl⟩
    · rw [(given_get h .version _).2 h4]; rfl
    · cases hg : (given items).get .version with
      | none => rfl
      | some v => exact absurd ⟨v, (given_get h _ _).1 hg⟩ h4
  · rintro rfl
    refine ⟨each_toPath _, given_has _ _, given_has _ _, ?_, given_has _ _, given_has _ _⟩
    simp only
    cases hg : (given items).get .version with
    | none =>
      refine .inr ⟨?_, rfl⟩
      rintro ⟨v, hv⟩
      rw [(given_get h .version _).2 hv] at hg
      cases hg
    | some v => exact .inl ((given_get h _ _).1 hg)

private theorem says_check {items : List Item} (a : CheckArgs) :
    SaysCheck items a ↔ a = ⟨(given items).files.map toPath, (given items).has .fix, (given items).has .stdout, (given items).has .skip⟩ := by
  constructor
  · rintro ⟨h1, h2, h3, h4⟩
    obtain ⟨f, w, fo, m⟩ := a
    simp only at *
    rw [each_toPath_eq h1, bool_ext h2 (given_has items .fix), bool_ext h3 (given_has items .stdout), bool_ext h4 (given_has items .skip)]
    rfl
  · rintro rfl
    exact ⟨each_toPath _, given_has _ _, given_has _ _, given_has _ _⟩

private theorem scaffold_line (args : List Str) :
    cliParse (c!"scaffold" :: args) = (argLoop scaffoldOpts ⟨[], []⟩ none args).andThen scaffoldCommand := by
  rw [cliParse, if_pos rfl]

private theorem check_line (args : List Str) :
    cliParse (c!"check" :: args) = (argLoop checkOpts ⟨[], []⟩ none args).andThen checkCommand := by
  rw [cliParse, if_neg (by decide), if_pos rfl]

private theorem needs {items : List Item} (o p : Opt) :
    ((given items).has o && !(given items).has p) = true ↔ Said o items ∧ ¬ Said p items := by
  rw [Bool.and_eq_true, Bool.not_eq_true', ← given_has, ← given_has, Bool.not_eq_true]

/-- **C86.** `bulloak scaffold` is run with `a` exactly if its arguments are a way to write options of `scaffold`, each at most once and
`-f` only together with `-w`, and files, in any order, and `a` is what they say. -/
theorem C86_scaffold (args : List Str) (a : ScaffoldArgs) :
    cliParse (c!"scaffold" :: args) = .run (.scaffold a) ↔ ∃ items, Spelled scaffoldTable items args ∧ Once items ∧
      (Said optForce items → Said optWrite items) ∧ SaysScaffold items a := by
  rw [scaffold_line]
  constructor
  · intro h
    cases hl : argLoop scaffoldOpts ⟨[], []⟩ none args with
    | help => rw [hl] at h; cases h
    | usage => rw [hl] at h; cases h
    | run g =>
      rw [hl] at h
      obtain ⟨items, h1, h2, rfl⟩ := (loop_iff scaffold_table _ _).1 hl
      refine ⟨items, h1, h2, ?_⟩
      rw [says_scaffold h2]
      have h' : scaffoldCommand (given items) = .run (.scaffold a) := h
      unfold scaffoldCommand at h'
      split at h'
      · cases h'
      · rename_i hn
        rw [needs] at hn
        refine ⟨fun hf => Classical.byContradiction fun hw => hn ⟨hf, hw⟩, ?_⟩
        cases h'
        rfl
  · rintro ⟨items, h1, h2, h3, h4⟩
    rw [(loop_iff scaffold_table _ _).2 ⟨items, h1, h2, rfl⟩]
    rw [says_scaffold h2] at h4
    show scaffoldCommand (given items) = _
    unfold scaffoldCommand
    rw [if_neg, h4]
    rw [needs]
    exact fun h => h.2 (h3 h.1)

/-- **C86.** `bulloak check` is run with `a` exactly if its arguments are a way to write options of `check`, each at most once and
`--stdout` only together with `--fix`, and files, in any order, and `a` is what they say. -/
theorem C86_check (args : List Str) (a : CheckArgs) :
    cliParse (c!"check" :: args) = .run (.check a) ↔ ∃ items, Spelled checkTable items args ∧ Once items ∧
      (Said optStdout items → Said optFix items) ∧ SaysCheck items a := by
  rw [check_line]
  constructor
  · intro h
    cases hl : argLoop checkOpts ⟨[], []⟩ none args with
    | help => rw [hl] at h; cases h
    | usage => rw [hl] at h; cases h
    | run g =>
      rw [hl] at h
      obtain ⟨items, h1, h2, rfl⟩ := (loop_iff check_table _ _).1 hl
      refine ⟨items, h1, h2, ?_⟩
      rw [says_check]
      have h' : checkCommand (given items) = .run (.check a) := h
      unfold checkCommand at h'
      split at h'
      · cases h'
      · rename_i hn
        rw [needs] at hn
        refine ⟨fun hf => Classical.byContradiction fun hw => hn ⟨hf, hw⟩, ?_⟩
        cases h'
        rfl
  · rintro ⟨items, h1, h2, h3, h4⟩
    rw [(loop_iff check_table _ _).2 ⟨items, h1, h2, rfl⟩]
    rw [says_check] at h4
    show checkCommand (given items) = _
    unfold checkCommand
    rw [if_neg, h4]
    rw [needs]
    exact fun h => h.2 (h3 h.1)

/-- **C86.** An option said twice, `-f` without `-w` and `--stdout` without `--fix` are refused: nothing is run. -/
theorem C86_refused {items : List Item} {args : List Str} :
    (Spelled scaffoldTable items args → (¬ Once items ∨ Said optForce items ∧ ¬ Said optWrite items) → cliParse (c!"scaffold" :: args) = .usage) ∧
    (Spelled checkTable items args → (¬ Once items ∨ Said optStdout items ∧ ¬ Said optFix items) → cliParse (c!"check" :: args) = .usage) := by
  have key : ∀ {opts : List Opt}, Table opts → Spelled opts items args →
      argLoop opts ⟨[], []⟩ none args = .usage ∨ Once items ∧ argLoop opts ⟨[], []⟩ none args = .run (given items) := by
    intro opts ht h
    by_cases ho : Once items
    · exact .inr ⟨ho, (loop_iff ht _ _).2 ⟨items, h, ho, rfl⟩⟩
    · refine .inl ?_
      rw [spelled_read ht h]
      cases ha : addItems ⟨[], []⟩ items with
      | none => rfl
      | some g => exact absurd (by simpa [Once] using ((addItems_some (by simp)).1 ha).1) ho
  refine ⟨fun h hb => ?_, fun h hb => ?_⟩
  · rw [scaffold_line]
    rcases key scaffold_table h with h | ⟨ho, h⟩ <;> rw [h]
    · rfl
    · show scaffoldCommand (given items) = _
      unfold scaffoldCommand
      rw [if_pos]
      exact (needs _ _).2 (hb.resolve_left fun h => h ho)
  · rw [check_line]
    rcases key check_table h with h | ⟨ho, h⟩ <;> rw [h]
    · rfl
    · show checkCommand (given items) = _
      unfold checkCommand
      rw [if_pos]
      exact (needs _ _).2 (hb.resolve_left fun h => h ho)

/-! ## What a command line can change -/

/-- An argument that asks for writing with `scaffold`: `--write-files`, or letters with a `w`. -/
def AsksWrite (a : Str) : Prop := a = c!"--write-files" ∨ ∃ cs, a = '-' :: cs ∧ 'w' ∈ cs

private theorem letters_mem {opts : List Opt} {os : List Opt} {cs : Str} (h : Letters opts os cs) {o : Opt} (ho : o ∈ os) {c : Char}
    (hc : o.short = some c) : c ∈ cs := by
  induction h with
  | nil => cases ho
  | cons _ _ hs _ ih =>
    rcases List.mem_cons.1 ho with rfl | ho
    · rw [hs] at hc
      cases hc
      exact List.mem_cons_self
    · exact List.mem_cons_of_mem _ (ih ho)

private theorem letters_none {opts : List Opt} {os : List Opt} {cs : Str} (h : Letters opts os cs) {o : Opt} (ho : o ∈ os) :
    ∃ c, o.short = some c := by
  induction h with
  | nil => cases ho
  | cons _ _ hs _ ih =>
    rcases List.mem_cons.1 ho with rfl | ho
    · exact ⟨_, hs⟩
    · exact ih ho

private theorem opt_of_map {os : List Opt} {o : Opt} {v : Str} (h : Item.opt o v ∈ os.map (Item.opt · [])) : o ∈ os := by
  obtain ⟨p, hp, he⟩ := List.mem_map.1 h
  cases he
  exact hp

/-- A flag that is said is written out or one of its letters is. -/
theorem said_written {opts : List Opt} {items : List Item} {args : List Str} (h : Spelled opts items args) {o : Opt} (hv : o.valued = false)
    (hs : Said o items) : c!"--" ++ o.long ∈ args ∨ ∃ c cs, o.short = some c ∧ '-' :: cs ∈ args ∧ c ∈ cs := by
  obtain ⟨v, hs⟩ := hs
  have tail : ∀ {as bs : List Str}, (∀ x ∈ as, x ∈ bs) → (c!"--" ++ o.long ∈ as ∨ ∃ c cs, o.short = some c ∧ '-' :: cs ∈ as ∧ c ∈ cs) →
      (c!"--" ++ o.long ∈ bs ∨ ∃ c cs, o.short = some c ∧ '-' :: cs ∈ bs ∧ c ∈ cs) := by
    rintro as bs hsub (h | ⟨c, cs, h1, h2, h3⟩)
    · exact .inl (hsub _ h)
    · exact .inr ⟨c, cs, h1, hsub _ h2, h3⟩
  induction h with
  | nil => cases hs
  | file _ _ _ ih =>
    rcases List.mem_cons.1 hs with h | h
    · cases h
    · exact tail (fun _ => List.mem_cons_of_mem _) (ih h)
  | flag _ _ _ ih =>
    rcases List.mem_cons.1 hs with h | h
    · cases h
      exact .inl List.mem_cons_self
    · exact tail (fun _ => List.mem_cons_of_mem _) (ih h)
  | valueEq _ hv' _ ih =>
    rcases List.mem_cons.1 hs with h | h
    · cases h
      rw [hv] at hv'; cases hv'
    · exact tail (fun _ => List.mem_cons_of_mem _) (ih h)
  | valueNext _ hv' _ _ ih =>
    rcases List.mem_cons.1 hs with h | h
    · cases h
      rw [hv] at hv'; cases hv'
    · exact tail (fun _ h => List.mem_cons_of_mem _ (List.mem_cons_of_mem _ h)) (ih h)
  | letters _ hl _ ih =>
    rcases List.mem_append.1 hs with h | h
    · obtain ⟨c, hc⟩ := letters_none hl (opt_of_map h)
      exact .inr ⟨c, _, hc, List.mem_cons_self, letters_mem hl (opt_of_map h) hc⟩
    · exact tail (fun _ => List.mem_cons_of_mem _) (ih h)
  | lettersValue hl _ hv' _ _ _ ih =>
    rcases List.mem_append.1 hs with h | h
    · obtain ⟨c, hc⟩ := letters_none hl (opt_of_map h)
      exact .inr ⟨c, _, hc, List.mem_cons_self, List.mem_append_left _ (letters_mem hl (opt_of_map h) hc)⟩
    · rcases List.mem_cons.1 h with h | h
      · cases h
        rw [hv] at hv'; cases hv'
      · exact tail (fun _ => List.mem_cons_of_mem _) (ih h)
  | lettersEq hl _ hv' _ _ ih =>
    rcases List.mem_append.1 hs with h | h
    · obtain ⟨c, hc⟩ := letters_none hl (opt_of_map h)
      exact .inr ⟨c, _, hc, List.mem_cons_self, List.mem_append_left _ (letters_mem hl (opt_of_map h) hc)⟩
    · rcases List.mem_cons.1 h with h | h
      · cases h
        rw [hv] at hv'; cases hv'
      · exact tail (fun _ => List.mem_cons_of_mem _) (ih h)
  | lettersNext hl _ hv' _ _ _ ih =>
    rcases List.mem_append.1 hs with h | h
    · obtain ⟨c, hc⟩ := letters_none hl (opt_of_map h)
      exact .inr ⟨c, _, hc, List.mem_cons_self, List.mem_append_left _ (letters_mem hl (opt_of_map h) hc)⟩
    · rcases List.mem_cons.1 h with h | h
      · cases h
        rw [hv] at hv'; cases hv'
      · exact tail (fun _ h => List.mem_cons_of_mem _ (List.mem_cons_of_mem _ h)) (ih h)
  | rest _ =>
    obtain ⟨f, _, he⟩ := List.mem_map.1 hs
    cases he

theorem files_written {opts : List Opt} {items : List Item} {args : List Str} (h : Spelled opts items args) {f : Str}
    (hf : f ∈ Item.files items) : f ∈ args := by
  have hlet : ∀ (os : List Opt) (is : List Item), Item.files (os.map (Item.opt · []) ++ is) = Item.files is := by
    intro os is
    induction os with
    | nil => rfl
    | cons o os ih => exact ih
  induction h with
  | nil => cases hf
  | file _ _ _ ih =>
    rcases List.mem_cons.1 hf with rfl | h
    · exact List.mem_cons_self
    · exact List.mem_cons_of_mem _ (ih h)
  | flag _ _ _ ih => exact List.mem_cons_of_mem _ (ih hf)
  | valueEq _ _ _ ih => exact List.mem_cons_of_mem _ (ih hf)
  | valueNext _ _ _ _ ih => exact List.mem_cons_of_mem _ (List.mem_cons_of_mem _ (ih hf))
  | letters _ _ _ ih => rw [hlet] at hf; exact List.mem_cons_of_mem _ (ih hf)
  | lettersValue _ _ _ _ _ _ ih => rw [hlet] at hf; exact List.mem_cons_of_mem _ (ih hf)
  | lettersEq _ _ _ _ _ ih => rw [hlet] at hf; exact List.mem_cons_of_mem _ (ih hf)
  | lettersNext _ _ _ _ _ _ ih => rw [hlet] at hf; exact List.mem_cons_of_mem _ (List.mem_cons_of_mem _ (ih hf))
  | @rest fs _ =>
    have : ∀ fs : List Str, Item.files (fs.map Item.file) = fs := by
      intro fs
      induction fs with
      | nil => rfl
      | cons f fs ih => rw [List.map_cons, Item.files, ih]
    rw [this] at hf
    exact List.mem_cons_of_mem _ hf

/-- **C87.** Whatever a command line changes is the Solidity file next to one of the files named in it, and it says so: the command is
`scaffold` with `-w` or `--write-files`, or `check` with `--fix`. -/
theorem C87_changes [Ucd] [LawfulUcd] {env : Env} {args : List Str} {fs : Fs} {p : FPath}
    (h : ((program env args fs).fs fs).state p ≠ fs.state p) :
    ∃ cmd rest f t, args = cmd :: rest ∧ f ∈ rest ∧ PathOf f t ∧ SolOf t p ∧
      (cmd = c!"scaffold" ∧ (∃ a ∈ rest, AsksWrite a) ∨ cmd = c!"check" ∧ c!"--fix" ∈ rest) := by
  have hex : ∀ {l : List Str} {ps : List FPath} {t : FPath}, Each PathOf l ps → t ∈ ps → ∃ f ∈ l, PathOf f t := by
    intro l ps t he ht
    induction he with
    | nil => cases ht
    | cons h _ ih =>
      rcases List.mem_cons.1 ht with rfl | ht
      · exact ⟨_, List.mem_cons_self, h⟩
      · obtain ⟨f, hf, h⟩ := ih ht
        exact ⟨f, List.mem_cons_of_mem _ hf, h⟩
  unfold program at h
  have hcmd : ∀ c, cliParse args = .run c → ∃ rest, (∃ a, c = .scaffold a ∧ args = c!"scaffold" :: rest) ∨ (∃ a, c = .check a ∧ args = c!"check" :: rest) := by
    intro c hc
    cases args with
    | nil => cases hc
    | cons a as =>
      refine ⟨as, ?_⟩
      rw [cliParse] at hc
      by_cases h1 : a = c!"scaffold"
      · rw [if_pos h1] at hc
        subst h1
        cases hl : argLoop scaffoldOpts ⟨[], []⟩ none as with
        | help => rw [hl] at hc; cases hc
        | usage => rw [hl] at hc; cases hc
        | run g =>
          rw [hl] at hc
          have hc' : scaffoldCommand g = .run c := hc
          unfold scaffoldCommand at hc'
          split at hc'
          · cases hc'
          · cases hc'
            exact .inl ⟨_, rfl, rfl⟩
      · rw [if_neg h1] at hc
        by_cases h2 : a = c!"check"
        · rw [if_pos h2] at hc
          subst h2
          cases hl : argLoop checkOpts ⟨[], []⟩ none as with
          | help => rw [hl] at hc; cases hc
          | usage => rw [hl] at hc; cases hc
          | run g =>
            rw [hl] at hc
            have hc' : checkCommand g = .run c := hc
            unfold checkCommand at hc'
            split at hc'
            · cases hc'
            · cases hc'
              exact .inr ⟨_, rfl, rfl⟩
        · rw [if_neg h2] at hc
          exfalso
          unfold helpCommand topOption at hc
          split at hc <;> split at hc <;> cases hc
  cases hp : cliParse args with
  | help => rw [hp] at h; exact absurd rfl h
  | usage => rw [hp] at h; exact absurd rfl h
  | run c =>
    rw [hp] at h
    obtain ⟨rest, ⟨a, rfl, rfl⟩ | ⟨a, rfl, rfl⟩⟩ := hcmd c hp
    · obtain ⟨items, h1, _, _, h4⟩ := (C86_scaffold rest a).1 hp
      obtain ⟨hw, _, t, ht, hsol, _⟩ := C48_only_sol env a fs h
      obtain ⟨f, hf, hft⟩ := hex h4.files ht
      refine ⟨_, _, f, t, rfl, files_written h1 hf, hft, hsol, .inl ⟨rfl, ?_⟩⟩
      rcases said_written h1 (o := .write) rfl (h4.write.1 hw) with h | ⟨c, cs, hc, h5, h6⟩
      · exact ⟨_, h, .inl rfl⟩
      · cases hc
        exact ⟨_, h5, .inr ⟨cs, rfl, h6⟩⟩
    · obtain ⟨items, h1, _, _, h4⟩ := (C86_check rest a).1 hp
      obtain ⟨hw, _, _, t, ht, hsol, _⟩ := C50_only_sol h
      obtain ⟨f, hf, hft⟩ := hex h4.files ht
      refine ⟨_, _, f, t, rfl, files_written h1 hf, hft, hsol, .inr ⟨rfl, ?_⟩⟩
      rcases said_written h1 (o := .fix) rfl (h4.fix.1 hw) with h | ⟨c, cs, hc, h5, h6⟩
      · exact h
      · cases hc

theorem scaffold_exits [Ucd] (env : Env) (a : ScaffoldArgs) (fs : Fs) : (scaffoldRun env a fs).exit ≠ .code 2 := by
  unfold scaffoldRun
  generalize a.files = files, ([] : List Str) = out, ([] : List Note) = notes, ([] : List (FPath × FileError)) = errs
  induction files generalizing fs out notes errs with
  | nil =>
    rw [scaffoldLoop]
    split <;> simp
  | cons f files ih =>
    rw [scaffoldLoop]
    split
    · exact ih _ _ _ _
    · exact ih _ _ _ _
    · simp

/-- **C87.** The exit code is 2 exactly if the command line was refused; then nothing was read or written. -/
theorem C87_exit [Ucd] [LawfulUcd] (env : Env) (args : List Str) (fs : Fs) :
    ((program env args fs).exit = .code 2 ↔ cliParse args = .usage) ∧
    ((program env args fs).exit = .code 2 → (program env args fs).fs fs = fs) := by
  unfold program
  cases hp : cliParse args with
  | help => simp [Outcome.exit]
  | usage => simp [Outcome.exit, Outcome.fs]
  | run c =>
    have : ∀ r : Run, r.exit ≠ .code 2 → (((Outcome.ran r).exit = .code 2 ↔ Parsed.run c = .usage) ∧
        ((Outcome.ran r).exit = .code 2 → (Outcome.ran r).fs fs = fs)) := by
      intro r hr
      refine ⟨⟨fun h => absurd h hr, fun h => (nomatch h)⟩, fun h => absurd h hr⟩
    cases c with
    | scaffold a => exact this _ (scaffold_exits env a fs)
    | check a =>
      refine this _ ?_
      cases hf : a.fix with
      | false =>
        rcases C51_exit (env := env) (fs := fs) hf with ⟨h, _⟩ | ⟨h, _⟩ | ⟨h, _⟩ <;> rw [h] <;> simp
      | true =>
        rcases C51_exit_fix (env := env) (fs := fs) hf with ⟨h, _⟩ | ⟨h, _⟩ <;> rw [h] <;> simp

theorem ofAdd_help {o : Option Given} (h : Scanned.ofAdd o = .help) : False := by
  cases o <;> cases h

theorem short_help {opts : List Opt} {s : Str} {g : Given} (h : shortArgs opts g s = .help) : 'h' ∈ s := by
  induction s generalizing g with
  | nil => cases h
  | cons c cs ih =>
    rw [shortArgs] at h
    split at h
    · split at h
      · split at h
        · cases h
        · split at h <;> exact (ofAdd_help h).elim
      · split at h
        · exact List.mem_cons_of_mem _ (ih h)
        · cases h
    · split at h
      · rename_i hc; rw [hc]; exact List.mem_cons_self
      · cases h

theorem scan_help {opts : List Opt} {g : Given} {a : Str} (ho : isOperand a = false) (h : scanArg opts g a = .help) : AsksHelp a := by
  unfold isOperand at ho
  split at ho
  · rename_i c s
    rw [scanArg] at h
    split at h
    · rename_i hc
      obtain rfl : c = '-' := Option.some.inj hc
      simp only [List.tail_cons] at h
      unfold longArg at h
      split at h
      · split at h
        · split at h
          · cases h
          · exact (ofAdd_help h).elim
        · split at h
          · exact (ofAdd_help h).elim
          · cases h
      · split at h
        · rename_i hs; exact .inr (.inl (by rw [hs]))
        · cases h
    · rename_i hc
      exact .inr (.inr (.inr ⟨c :: s, rfl, hc, .inl (short_help h)⟩))
  · cases ho

theorem loop_help {opts : List Opt} {as : List Str} {g : Given} {pending : Option Opt} (h : argLoop opts g pending as = .help) :
    ∃ a ∈ as, AsksHelp a := by
  induction as generalizing g pending with
  | nil => rw [argLoop] at h; split at h <;> cases h
  | cons a as ih =>
    have up : (∃ b ∈ as, AsksHelp b) → ∃ b ∈ a :: as, AsksHelp b := fun ⟨b, hb, hh⟩ => ⟨b, List.mem_cons_of_mem _ hb, hh⟩
    rw [argLoop.eq_def] at h
    simp only at h
    split at h
    · split at h
      · split at h
        · exact up (ih h)
        · cases h
      · cases h
    · split at h
      · split at h <;> cases h
      · split at h
        · split at h
          · cases h
          · exact up (ih h)
        · rename_i ho
          split at h
          · exact up (ih h)
          · exact up (ih h)
          · rename_i hs
            exact ⟨a, List.mem_cons_self, scan_help (by simpa using ho) hs⟩
          · cases h

/-- **C87.** Without any argument bulloak is refused; if it neither refuses its arguments nor runs a command, one of them asks for help or
the version. -/
theorem C87_help [Ucd] (env : Env) (fs : Fs) : (program env [] fs).exit = .code 2 ∧
    ∀ args, (∀ r, program env args fs ≠ .ran r) → (program env args fs).exit ≠ .code 2 → ∃ a ∈ args, AsksHelp a := by
  refine ⟨rfl, fun args hr he => ?_⟩
  unfold program at hr he
  cases hp : cliParse args with
  | usage => rw [hp] at he; exact absurd rfl he
  | run c =>
    rw [hp] at hr
    cases c with
    | scaffold a => exact absurd rfl (hr _)
    | check a => exact absurd rfl (hr _)
  | help =>
    cases args with
    | nil => cases hp
    | cons a as =>
      have up : (∃ b ∈ as, AsksHelp b) → ∃ b ∈ a :: as, AsksHelp b := fun ⟨b, hb, hh⟩ => ⟨b, List.mem_cons_of_mem _ hb, hh⟩
      rw [cliParse] at hp
      split at hp
      · cases hl : argLoop scaffoldOpts ⟨[], []⟩ none as with
        | help => exact up (loop_help hl)
        | usage => rw [hl] at hp; cases hp
        | run g =>
          rw [hl] at hp
          simp only [Parsed.andThen, scaffoldCommand] at hp
          split at hp <;> cases hp
      · split at hp
        · cases hl : argLoop checkOpts ⟨[], []⟩ none as with
          | help => exact up (loop_help hl)
          | usage => rw [hl] at hp; cases hp
          | run g =>
            rw [hl] at hp
            simp only [Parsed.andThen, checkCommand] at hp
            split at hp <;> cases hp
        · split at hp
          · rename_i ha; exact ⟨a, List.mem_cons_self, .inl ha⟩
          · refine ⟨a, List.mem_cons_self, ?_⟩
            unfold topOption at hp
            split at hp
            · rename_i ha
              rcases ha with h | h | ⟨t, rfl⟩ | ⟨t, rfl⟩
              · exact .inr (.inl h)
              · exact .inr (.inr (.inl h))
              · exact .inr (.inr (.inr ⟨'h' :: t, rfl, by simp, by simp⟩))
              · exact .inr (.inr (.inr ⟨'V' :: t, rfl, by simp, by simp⟩))
            · cases hp

/-! ## Cases -/

/-- C87: `bulloak scaffold -wh` runs nothing; `-wh` asks for help. -/
example (env : Env) (fs : Fs) : ∃ a ∈ [c!"scaffold", c!"-wh"], AsksHelp a := by
  letI := asciiUcd
  have e : cliParse [c!"scaffold", c!"-wh"] = .help := by cbv
  refine (C87_help env fs).2 _ ?_ ?_ <;> simp [program, e, Outcome.exit]

/-- `bulloak scaffold x/a.tree -wfs 0.8.19 b.tree --vm-skip`. -/
example : cliParse [c!"scaffold", c!"x/a.tree", c!"-wfs", c!"0.8.19", c!"b.tree", c!"--vm-skip"] =
    .run (.scaffold ⟨[⟨c!"x/", c!"a.tree"⟩, ⟨[], c!"b.tree"⟩], true, true, c!"0.8.19", true, false⟩) := by cbv

/-- `bulloak check --fix -m -- -a.tree`. -/
example : cliParse [c!"check", c!"--fix", c!"-m", c!"--", c!"-a.tree"] = .run (.check ⟨[⟨[], c!"-a.tree"⟩], true, false, true⟩) := by cbv

/-- What these arguments say. -/
theorem sample_spelled : Spelled scaffoldOpts [.file c!"x/a.tree", .opt .write [], .opt .force [], .opt .version c!"0.8.19", .file c!"b.tree",
    .opt .vmSkip []] [c!"x/a.tree", c!"-wfs", c!"0.8.19", c!"b.tree", c!"--vm-skip"] :=
  .file (by simp) (.inr (by simp)) (.lettersNext (os := [.write, .force]) (cs := c!"wf") (c := 's')
    (.cons (by decide) rfl rfl (.cons (by decide) rfl rfl .nil)) (by decide) rfl rfl (.inr (by simp))
    (.file (by simp) (.inr (by simp)) (.flag (o := .vmSkip) (by decide) rfl .nil)))

/-- `-f` without `-w`, and `-w` twice. -/
example : cliParse [c!"scaffold", c!"-f", c!"a.tree"] = .usage :=
  (C86_refused (items := [.opt .force [], .file c!"a.tree"])).1 (.letters (os := [.force]) (by simp) (.cons (by decide) rfl rfl .nil) (.file (by simp) (.inr (by simp)) .nil))
    (.inr ⟨⟨_, List.mem_cons_self⟩, by rintro ⟨v, h⟩; simp [optWrite, Opt.force] at h⟩)
example : cliParse [c!"scaffold", c!"-ww", c!"a.tree"] = .usage := by cbv

/-- `--stdout` without `--fix`, an unknown option, a value that looks like an option, help. -/
example : cliParse [c!"check", c!"--stdout", c!"a.tree"] = .usage := by cbv
example : cliParse [c!"check", c!"-w", c!"a.tree"] = .usage := by cbv
example : cliParse [c!"scaffold", c!"-s", c!"-w", c!"a.tree"] = .usage := by cbv
example : cliParse [c!"scaffold", c!"-wh"] = .help := by cbv

end Bulloak
