import Verif.Props.Main
/-!
# Which command lines print help: C112
-/

namespace Bulloak
open Spec

theorem loop_append {opts : List Opt} {pre : List Str} : ∀ {g g' : Given} {p : Option Opt}, c!"--" ∉ pre → argLoop opts g p pre = .run g' →
    ∀ rest, argLoop opts g p (pre ++ rest) = argLoop opts g' none rest := by
  induction pre with
  | nil =>
    intro g g' p _ h rest
    cases p with
    | none => cases h; rfl
    | some o => cases h
  | cons a pre ih =>
    intro g g' p hd h rest
    have hdp : c!"--" ∉ pre := fun k => hd (List.mem_cons_of_mem _ k)
    have ha : a ≠ c!"--" := fun k => hd (k ▸ List.mem_cons_self)
    rw [List.cons_append]
    cases p with
    | some o =>
      rw [argLoop] at h ⊢
      by_cases hop : isOperand a = true
      · rw [if_pos hop] at h ⊢
        cases hg : g.add o a with
        | none => rw [hg] at h; cases h
        | some g1 => rw [hg] at h; exact ih hdp h rest
      · rw [if_neg hop] at h; cases h
    | none =>
      rw [argLoop, if_neg ha] at h ⊢
      by_cases hop : isOperand a = true
      · rw [if_pos hop] at h ⊢
        by_cases he : a = []
        · rw [if_pos he] at h; cases h
        · rw [if_neg he] at h ⊢; exact ih hdp h rest
      · rw [if_neg hop] at h ⊢
        cases hs : scanArg opts g a with
        | more g1 => rw [hs] at h; exact ih hdp h rest
        | pending g1 o => rw [hs] at h; exact ih hdp h rest
        | help => rw [hs] at h; cases h
        | usage => rw [hs] at h; cases h

theorem loop_help_split {opts : List Opt} {as : List Str} : ∀ {g : Given} {p : Option Opt}, argLoop opts g p as = .help →
    ∃ pre a post g', as = pre ++ a :: post ∧ c!"--" ∉ pre ∧ argLoop opts g p pre = .run g' ∧ a ≠ c!"--" ∧ isOperand a = false ∧ scanArg opts g' a = .help := by
  induction as with
  | nil => intro g p h; rw [argLoop] at h; split at h <;> cases h
  | cons a as ih =>
    intro g p h
    cases p with
    | some o =>
      rw [argLoop] at h
      by_cases hop : isOperand a = true
      · rw [if_pos hop] at h
        cases hg : g.add o a with
        | none => rw [hg] at h; cases h
        | some g1 =>
          rw [hg] at h
          obtain ⟨pre, b, post, g', rfl, h1, h2, h3⟩ := ih h
          refine ⟨a :: pre, b, post, g', rfl, ?_, ?_, h3⟩
          · intro hm
            rcases List.mem_cons.1 hm with rfl | hm
            · cases hop
            · exact h1 hm
          · rw [argLoop, if_pos hop, hg]; exact h2
      · rw [if_neg hop] at h; cases h
    | none =>
      rw [argLoop] at h
      by_cases ha : a = c!"--"
      · rw [if_pos ha] at h; split at h <;> cases h
      · rw [if_neg ha] at h
        have mem : ∀ {pre : List Str}, c!"--" ∉ pre → c!"--" ∉ a :: pre := by
          intro pre h hm
          rcases List.mem_cons.1 hm with hm | hm
          · exact ha hm.symm
          · exact h hm
        by_cases hop : isOperand a = true
        · rw [if_pos hop] at h
          by_cases he : a = []
          · rw [if_pos he] at h; cases h
          · rw [if_neg he] at h
            obtain ⟨pre, b, post, g', rfl, h1, h2, h3⟩ := ih h
            exact ⟨a :: pre, b, post, g', rfl, mem h1, by rw [argLoop, if_neg ha, if_pos hop, if_neg he]; exact h2, h3⟩
        · rw [if_neg hop] at h
          cases hs : scanArg opts g a with
          | more g1 =>
            rw [hs] at h
            obtain ⟨pre, b, post, g', rfl, h1, h2, h3⟩ := ih h
            exact ⟨a :: pre, b, post, g', rfl, mem h1, by rw [argLoop, if_neg ha, if_neg hop, hs]; exact h2, h3⟩
          | pending g1 o =>
            rw [hs] at h
            obtain ⟨pre, b, post, g', rfl, h1, h2, h3⟩ := ih h
            exact ⟨a :: pre, b, post, g', rfl, mem h1, by rw [argLoop, if_neg ha, if_neg hop, hs]; exact h2, h3⟩
          | help => exact ⟨[], a, as, g, rfl, by simp, rfl, ha, by simpa using hop, hs⟩
          | usage => rw [hs] at h; cases h

/-- No option is called help. -/
def HelpFree (opts : List Opt) : Prop := ∀ o ∈ opts, o.long ≠ c!"help" ∧ o.short ≠ some 'h'

theorem shortArgs_help {opts : List Opt} (ht : Table opts) (hf : HelpFree opts) {s : Str} : ∀ {g : Given}, shortArgs opts g s = .help ↔
    ∃ os cs r g', s = cs ++ 'h' :: r ∧ Letters opts os cs ∧ addItems g (os.map (.opt · [])) = some g' := by
  intro g
  constructor
  · intro h
    induction s generalizing g with
    | nil => cases h
    | cons c cs ih =>
      rw [shortArgs] at h
      cases ho : opts.find? (fun o => o.short = some c) with
      | none =>
        rw [ho] at h
        by_cases hc : c = 'h'
        · exact ⟨[], [], cs, g, by rw [hc]; rfl, .nil, rfl⟩
        · simp [hc] at h
      | some o =>
        rw [ho] at h
        obtain ⟨k1, k2⟩ := found_short ho
        cases hv : o.valued with
        | true =>
          simp only [hv, if_true] at h
          split at h
          · cases h
          · split at h <;> exact (ofAdd_help h).elim
        | false =>
          simp only [hv, Bool.false_eq_true, if_false] at h
          cases hg : g.add o [] with
          | none => rw [hg] at h; cases h
          | some g1 =>
            rw [hg] at h
            obtain ⟨os, ds, r, g', rfl, h1, h2⟩ := ih h
            exact ⟨o :: os, c :: ds, r, g', rfl, .cons k1 hv k2 h1, by rw [List.map_cons, addItems, hg]; exact h2⟩
  · rintro ⟨os, cs, r, g', rfl, h1, h2⟩
    rw [shortArgs_letters ht h1, h2]
    simp only
    rw [shortArgs]
    have : opts.find? (fun o => o.short = some 'h') = none := by
      rw [List.find?_eq_none]
      intro o ho
      simp [(hf o ho).2]
    rw [this]
    rfl

theorem longArg_help {opts : List Opt} (hf : HelpFree opts) {s : Str} {g : Given} : longArg opts g s = .help ↔ s = c!"help" := by
  constructor
  · intro h
    unfold longArg at h
    split at h
    · split at h
      · split at h
        · cases h
        · exact (ofAdd_help h).elim
      · split at h
        · exact (ofAdd_help h).elim
        · cases h
    · split at h
      · assumption
      · cases h
  · rintro rfl
    unfold longArg
    have : opts.find? (fun o => o.long = (c!"help").takeWhile (· ≠ '=')) = none := by
      rw [List.find?_eq_none]
      intro o ho
      have e : (c!"help").takeWhile (· ≠ '=') = c!"help" := by decide
      rw [e]
      simp only [decide_eq_true_eq]
      exact (hf o ho).1
    rw [this]
    rfl

theorem letters_dash {opts : List Opt} (ht : Table opts) {os : List Opt} {cs r : Str} (h : Letters opts os cs) : ∃ d s, cs ++ 'h' :: r = d :: s ∧ d ≠ '-' := by
  cases h with
  | nil => exact ⟨'h', r, rfl, by decide⟩
  | cons ho hv hs _ => exact ⟨_, _, rfl, fun h => ht.noDash _ ho (h ▸ hs)⟩

theorem loop_help_iff {opts : List Opt} (ht : Table opts) (hf : HelpFree opts) (as : List Str) : argLoop opts ⟨[], []⟩ none as = .help ↔ HelpLine opts as := by
  have once : ∀ {items : List Item} {os : List Opt}, Once items → (Once (items ++ os.map (.opt · [])) ↔ ∃ g', addItems (given items) (os.map (.opt · [])) = some g') := by
    intro items os hi
    have : Once (items ++ os.map (.opt · [])) ↔ ∃ g', addItems ⟨[], []⟩ (items ++ os.map (.opt · [])) = some g' := by
      constructor
      · intro h
        exact ⟨_, (addItems_some (by simp)).2 ⟨by simpa [Once] using h, rfl⟩⟩
      · rintro ⟨g', h⟩
        simpa [Once] using ((addItems_some (by simp)).1 h).1
    rw [this, addItems_append, (addItems_some (g' := given items) (by simp)).2 ⟨by simpa [Once] using hi, by simp [given]⟩]
    rfl
  constructor
  · intro h
    obtain ⟨pre, a, post, g', rfl, h1, h2, h3, h4, h5⟩ := loop_help_split h
    obtain ⟨items, k1, k2, rfl⟩ := (loop_iff ht _ _).1 h2
    have hc : ∃ d r, a = '-' :: d :: r := by
      match a, h4 with
      | [], h4 => simp [isOperand] at h4
      | [c], h4 => simp [isOperand] at h4
      | c :: d :: r, h4 =>
        by_cases hc : c = '-'
        · exact ⟨d, r, by rw [hc]⟩
        · simp [isOperand, hc] at h4
    obtain ⟨d, r, rfl⟩ := hc
    rw [scanArg] at h5
    by_cases hd : d = '-'
    · subst hd
      simp only [List.head?_cons, if_true, List.tail_cons] at h5
      have := (longArg_help hf).1 h5
      refine ⟨pre, _, post, items, [], rfl, h1, k1, .inl ⟨by rw [this], rfl⟩, by simpa using k2⟩
    · rw [if_neg (by simpa using hd)] at h5
      obtain ⟨os, cs, r', g', e, l1, l2⟩ := (shortArgs_help ht hf).1 h5
      exact ⟨pre, _, post, items, os, rfl, h1, k1, .inr ⟨cs, r', by rw [e]; rfl, l1⟩, (once k2).2 ⟨g', l2⟩⟩
  · rintro ⟨pre, a, post, items, os, rfl, h1, k1, ha, ho⟩
    have hi : Once items := by
      unfold Once at ho ⊢
      have hap : ∀ l m : List Item, Item.options (l ++ m) = Item.options l ++ Item.options m := by
        intro l m
        induction l with
        | nil => rfl
        | cons i l ih => cases i <;> simp [Item.options, ih]
      rw [hap, List.map_append] at ho
      exact (List.nodup_append.1 ho).1
    rw [loop_append h1 ((loop_iff ht _ _).2 ⟨items, k1, hi, rfl⟩)]
    obtain ⟨g', hg⟩ := (once hi).1 ho
    rcases ha with ⟨rfl, rfl⟩ | ⟨cs, r, rfl, hl⟩
    · rw [show c!"--help" = '-' :: '-' :: c!"help" from rfl, loop_long _ _ (by decide), (longArg_help hf).2 rfl]
    · obtain ⟨d, s, e, hd⟩ := letters_dash ht (r := r) hl
      rw [List.cons_append, e, loop_short _ _ hd, ← e, (shortArgs_help ht hf).2 ⟨os, cs, r, g', rfl, hl, hg⟩]

theorem scaffold_helpFree : HelpFree scaffoldOpts := by
  unfold HelpFree; simp [scaffoldOpts, Opt.write, Opt.force, Opt.version, Opt.vmSkip, Opt.skip]

theorem check_helpFree : HelpFree checkOpts := by
  unfold HelpFree; simp [checkOpts, Opt.fix, Opt.stdout, Opt.skip]

/-- **C112.** Help or the version is printed, and nothing else happens, exactly for the command lines `HelpAsked` lists. -/
theorem C112_help [Ucd] (env : Env) (args : List Str) (fs : Fs) : program env args fs = .help ↔ HelpAsked args := by
  have hprog : program env args fs = .help ↔ cliParse args = .help := by
    unfold program
    cases cliParse args with
    | help => simp
    | usage => simp
    | run c => cases c <;> simp
  have hs : ∀ p : Parsed Given, p.andThen scaffoldCommand = .help ↔ p = .help := by
    intro p
    cases p with
    | help => simp [Parsed.andThen]
    | usage => simp [Parsed.andThen]
    | run g =>
      simp only [Parsed.andThen, scaffoldCommand, reduceCtorEq, iff_false]
      split <;> simp
  have hc : ∀ p : Parsed Given, p.andThen checkCommand = .help ↔ p = .help := by
    intro p
    cases p with
    | help => simp [Parsed.andThen]
    | usage => simp [Parsed.andThen]
    | run g =>
      simp only [Parsed.andThen, checkCommand, reduceCtorEq, iff_false]
      split <;> simp
  rw [hprog]
  cases args with
  | nil => exact ⟨fun h => (nomatch h), fun h => (nomatch h)⟩
  | cons a as =>
    rw [cliParse]
    by_cases h1 : a = c!"scaffold"
    · subst h1
      rw [if_pos rfl, hs, loop_help_iff scaffold_table scaffold_helpFree]
      refine ⟨.scaffold, fun h => ?_⟩
      cases h with
      | long h => rcases h with h | h <;> cases h
      | scaffold h => exact h
    · rw [if_neg h1]
      by_cases h2 : a = c!"check"
      · subst h2
        rw [if_pos rfl, hc, loop_help_iff check_table check_helpFree]
        refine ⟨.check, fun h => ?_⟩
        cases h with
        | long h => rcases h with h | h <;> cases h
        | check h => exact h
      · rw [if_neg h2]
        by_cases h3 : a = c!"help"
        · subst h3
          rw [if_pos rfl]
          unfold helpCommand
          constructor
          · intro h
            split at h
            · rename_i hk
              match as, hk with
              | [], _ => exact .help
              | [c], hk => exact .helpOn (by simpa using hk.2 c (List.mem_singleton_self _))
              | _ :: _ :: _, hk => simp at hk
            · cases h
          · intro h
            cases h with
            | help => rfl
            | helpOn h => rw [if_pos]; exact ⟨by simp, by simpa using h⟩
            | long h => rcases h with h | h <;> cases h
        · rw [if_neg h3]
          unfold topOption
          constructor
          · intro h
            split at h
            · rename_i hk
              rcases hk with hk | hk | ⟨t, rfl⟩ | ⟨t, rfl⟩
              · exact .long (.inl hk)
              · exact .long (.inr hk)
              · exact .letter (c := 'h') (.inl rfl)
              · exact .letter (c := 'V') (.inr rfl)
            · cases h
          · intro h
            rw [if_pos]
            cases h with
            | help => exact absurd rfl h3
            | helpOn => exact absurd rfl h3
            | long h => rcases h with h | h <;> simp [h]
            | letter h =>
              rcases h with rfl | rfl
              · exact .inr (.inr (.inl ⟨_, rfl⟩))
              · exact .inr (.inr (.inr ⟨_, rfl⟩))
            | scaffold => exact absurd rfl h1
            | check => exact absurd rfl h2

theorem ran_line {args : List Str} {c : Command} (h : cliParse args = .run c) :
    (∃ rest a, args = c!"scaffold" :: rest ∧ c = .scaffold a) ∨ ∃ rest a, args = c!"check" :: rest ∧ c = .check a := by
  cases args with
  | nil => cases h
  | cons a as =>
    rw [cliParse] at h
    by_cases h1 : a = c!"scaffold"
    · rw [if_pos h1] at h
      subst h1
      cases hl : argLoop scaffoldOpts ⟨[], []⟩ none as with
      | help => rw [hl] at h; cases h
      | usage => rw [hl] at h; cases h
      | run g =>
        rw [hl] at h
        have h : scaffoldCommand g = .run c := h
        unfold scaffoldCommand at h
        split at h
        · cases h
        · cases h; exact .inl ⟨as, _, rfl, rfl⟩
    · rw [if_neg h1] at h
      by_cases h2 : a = c!"check"
      · rw [if_pos h2] at h
        subst h2
        cases hl : argLoop checkOpts ⟨[], []⟩ none as with
        | help => rw [hl] at h; cases h
        | usage => rw [hl] at h; cases h
        | run g =>
          rw [hl] at h
          have h : checkCommand g = .run c := h
          unfold checkCommand at h
          split at h
          · cases h
          · cases h; exact .inr ⟨as, _, rfl, rfl⟩
      · rw [if_neg h2] at h
        unfold helpCommand topOption at h
        split at h <;> split at h <;> cases h

/-- **C112, refused.** The exit code is 2 exactly if help is not asked for, and the arguments are neither a proper way to write what `scaffold` takes nor a proper way to write what
`check` takes. -/
theorem C112_refused [Ucd] [LawfulUcd] (env : Env) (args : List Str) (fs : Fs) : (program env args fs).exit = .code 2 ↔ ¬ HelpAsked args ∧
    (¬ ∃ rest items, args = c!"scaffold" :: rest ∧ Spelled scaffoldTable items rest ∧ Once items ∧ (Said optForce items → Said optWrite items)) ∧
    ¬ ∃ rest items, args = c!"check" :: rest ∧ Spelled checkTable items rest ∧ Once items ∧ (Said optStdout items → Said optFix items) := by
  rw [(C87_exit env args fs).1, ← C112_help env args fs]
  have need : ∀ {items : List Item} {o p : Opt}, (Said o items → Said p items) → ¬ ((given items).has o && !(given items).has p) = true := by
    intro items o p h hb
    rw [Bool.and_eq_true, Bool.not_eq_true'] at hb
    have := (given_has items p).2 (h ((given_has items o).1 hb.1))
    rw [hb.2] at this
    cases this
  constructor
  · intro h
    refine ⟨by unfold program; rw [h]; simp, ?_, ?_⟩
    · rintro ⟨rest, items, rfl, h1, h2, h3⟩
      rw [cliParse, if_pos rfl, (loop_iff scaffold_table _ _).2 ⟨items, h1, h2, rfl⟩] at h
      have h : scaffoldCommand (given items) = .usage := h
      unfold scaffoldCommand at h
      rw [if_neg (need (o := .force) (p := .write) h3)] at h
      cases h
    · rintro ⟨rest, items, rfl, h1, h2, h3⟩
      rw [cliParse, if_neg (by decide), if_pos rfl, (loop_iff check_table _ _).2 ⟨items, h1, h2, rfl⟩] at h
      have h : checkCommand (given items) = .usage := h
      unfold checkCommand at h
      rw [if_neg (need (o := .stdout) (p := .fix) h3)] at h
      cases h
  · rintro ⟨h1, h2, h3⟩
    cases hp : cliParse args with
    | usage => rfl
    | help => unfold program at h1; rw [hp] at h1; exact absurd rfl h1
    | run c =>
      rcases ran_line hp with ⟨rest, a, rfl, rfl⟩ | ⟨rest, a, rfl, rfl⟩
      · obtain ⟨items, k1, k2, k3, _⟩ := (C86_scaffold _ _).1 hp
        exact absurd ⟨rest, items, rfl, k1, k2, k3⟩ h2
      · obtain ⟨items, k1, k2, k3, _⟩ := (C86_check _ _).1 hp
        exact absurd ⟨rest, items, rfl, k1, k2, k3⟩ h3

/-- C112: `bulloak check a.tree --fix -mh --bad` prints help: what comes behind does not matter. -/
example [Ucd] (env : Env) (fs : Fs) : program env [c!"check", c!"a.tree", c!"--fix", c!"-mh", c!"--bad"] fs = .help := by
  refine (C112_help env _ fs).2 (.check ⟨[c!"a.tree", c!"--fix"], c!"-mh", [c!"--bad"], [.file c!"a.tree", .opt optFix []], [optSkip], rfl, by decide, ?_, .inr ⟨c!"m", [], rfl, ?_⟩, ?_⟩)
  · exact .file (by simp) (.inr (by simp)) (.flag (o := optFix) (by decide) rfl .nil)
  · exact .cons (by decide) rfl rfl .nil
  · unfold Once; decide

/-- C112: `bulloak help check scaffold` does not. -/
example [Ucd] (env : Env) (fs : Fs) : program env [c!"help", c!"check", c!"scaffold"] fs ≠ .help := by
  rw [Ne, C112_help]
  intro h
  cases h with
  | long h => rcases h with h | h <;> cases h

/-- C112: it is refused. -/
example (env : Env) (fs : Fs) : (letI := asciiUcd; (program env [c!"help", c!"check", c!"scaffold"] fs).exit) = .code 2 := by
  letI := asciiUcd
  haveI := lawful_ascii
  refine (C112_refused env _ fs).2 ⟨fun h => ?_, ?_, ?_⟩
  · cases h with
    | long h => rcases h with h | h <;> cases h
  · rintro ⟨rest, items, h, _⟩; cases h
  · rintro ⟨rest, items, h, _⟩; cases h

end Bulloak
