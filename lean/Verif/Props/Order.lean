import Verif.Spec.Messages
import Verif.Props.CliCheck
import Verif.Model.Ascii
/-!
# C67: results do not depend on the iteration order of hash maps
-/

namespace Bulloak
open Spec
set_option linter.unusedSectionVars false

/-- Two outcomes that are equal up to the relation `R` on errors. -/
inductive SameRes {ε α : Type} (R : ε → ε → Prop) : Res ε α → Res ε α → Prop where
  | ok {a} : SameRes R (.ok a) (.ok a)
  | err {e e'} : R e e' → SameRes R (.err e) (.err e')
  | panic : SameRes R .panic .panic

theorem SameRes.refl {ε α : Type} {R : ε → ε → Prop} (hR : ∀ e, R e e) (r : Res ε α) : SameRes R r r := by
  cases r with
  | ok => exact .ok
  | err e => exact .err (hR e)
  | panic => exact .panic

theorem SameRes.bind {ε α β : Type} {R : ε → ε → Prop} {x y : Res ε α} {f g : α → Res ε β} (h : SameRes R x y)
    (hf : ∀ a, SameRes R (f a) (g a)) : SameRes R (x >>= f) (y >>= g) := by
  cases h with
  | ok => exact hf _
  | err h => exact .err h
  | panic => exact .panic

theorem SameRes.mapErr {ε ε' α : Type} {R : ε → ε → Prop} {S : ε' → ε' → Prop} {x y : Res ε α} {f g : ε → ε'} (h : SameRes R x y)
    (hf : ∀ e e', R e e' → S (f e) (g e')) : SameRes S (x.mapErr f) (y.mapErr g) := by
  cases h with
  | ok => exact .ok
  | err h => exact .err (hf _ _ h)
  | panic => exact .panic

section
variable [U : Ucd]

/-- The same syntax error up to the order of semantic errors. -/
def SameSyntax (e e' : SyntaxError) : Prop := SameError (.syntax e) (.syntax e')

theorem parseOne_order {order order' : HashOrder} (ho : ∀ l, (order l).Perm l) (ho' : ∀ l, (order' l).Perm l) (b : Str) :
    SameRes SameSyntax (parseOne order b) (parseOne order' b) := by
  unfold parseOne
  refine .bind (SameRes.refl (fun e => .refl) _) fun toks => ?_
  refine .bind (SameRes.refl (fun e => .refl) _) fun ast => ?_
  have h : (analyze order ast).Perm (analyze order' ast) := by
    unfold analyze dupErrors
    exact List.Perm.append_left _ (((ho _).trans (ho' _).symm).filterMap _)
  cases h1 : analyze order ast with
  | nil =>
    rw [h1] at h
    rw [List.nil_perm.1 h]
    exact .ok
  | cons e es =>
    cases h2 : analyze order' ast with
    | nil => rw [h1, h2] at h; exact absurd h.length_eq (by simp)
    | cons e' es' =>
      rw [h1, h2] at h
      exact .err (.errors h)

theorem parse_order {order order' : HashOrder} (ho : ∀ l, (order l).Perm l) (ho' : ∀ l, (order' l).Perm l) (text : Str) :
    SameRes SameSyntax (parse order text) (parse order' text) := by
  unfold parse
  induction splitTrees text with
  | nil => exact .ok
  | cons b bs ih =>
    rw [collectRes, collectRes]
    exact .bind (parseOne_order ho ho' b) fun a => .bind ih fun as => .ok

/-- **C67**, translation: the result of a tree file does not depend on the iteration order of hash maps, except for the order of
several semantic errors. -/
theorem C67_translate {order order' : HashOrder} (ho : ∀ l, (order l).Perm l) (ho' : ∀ l, (order' l).Perm l) (cfg : Config) (text : Str) :
    (∃ r, translate order cfg text = .ok r ∧ translate order' cfg text = .ok r) ∨
    (∃ e e', translate order cfg text = .err e ∧ translate order' cfg text = .err e' ∧ SameError e e') ∨
    (translate order cfg text = .panic ∧ translate order' cfg text = .panic) := by
  have h : SameRes SameError (translate order cfg text) (translate order' cfg text) := by
    unfold translate
    refine .bind ((parse_order ho ho' text).mapErr fun _ _ h => h) fun asts => ?_
    exact SameRes.refl (fun e => .refl) _
  generalize translate order cfg text = x at h ⊢
  generalize translate order' cfg text = y at h ⊢
  cases h with
  | ok => exact .inl ⟨_, rfl, rfl⟩
  | err h => exact .inr (.inl ⟨_, _, rfl, rfl, h⟩)
  | panic => exact .inr (.inr ⟨rfl, rfl⟩)

theorem translate_order {order order' : HashOrder} (ho : ∀ l, (order l).Perm l) (ho' : ∀ l, (order' l).Perm l) (cfg : Config) (text : Str) :
    SameRes SameError (translate order cfg text) (translate order' cfg text) := by
  rcases C67_translate ho ho' cfg text with ⟨r, h1, h2⟩ | ⟨e, e', h1, h2, h3⟩ | ⟨h1, h2⟩ <;> rw [h1, h2]
  · exact .ok
  · exact .err h3
  · exact .panic

/-! ## Commands -/

/-- The same error of a file up to the order of semantic errors. -/
inductive SameFileError : FileError → FileError → Prop where
  | io : SameFileError .io .io
  | tree {e e'} : SameError e e' → SameFileError (.tree e) (.tree e')

theorem sameFile_note {f : FPath} {e e' : FileError} (h : SameFileError e e') : SameNote (.failed f e) (.failed f e') := by
  cases h with
  | io => exact .refl
  | tree h => exact .errors h

theorem each_refl' {α : Type} {R : α → α → Prop} (hR : ∀ a, R a a) (l : List α) : Each R l l := by
  induction l with
  | nil => exact .nil
  | cons a l ih => exact .cons (hR a) ih

theorem each_append' {α β : Type} {R : α → β → Prop} {as : List α} {bs : List β} {cs : List α} {ds : List β} (h : Each R as bs) (h' : Each R cs ds) :
    Each R (as ++ cs) (bs ++ ds) := by
  induction h with
  | nil => exact h'
  | cons h _ ih => exact .cons h ih

theorem processFile_order {env : Env} {order' : HashOrder} (ho : ∀ l, (env.order l).Perm l) (ho' : ∀ l, (order' l).Perm l)
    (a : ScaffoldArgs) (fs : Fs) (f : FPath) :
    SameRes SameFileError (processFile env a fs f) (processFile { env with order := order' } a fs f) := by
  have hr : ∀ e : FileError, SameFileError e e := fun e => by
    cases e with
    | io => exact .io
    | tree e => exact .tree .refl
  unfold processFile
  refine .bind (SameRes.refl hr _) fun text => ?_
  refine .bind ?_ fun src => SameRes.refl hr _
  refine SameRes.mapErr (R := SameError) ?_ fun e e' h => .tree h
  unfold scaffold scaffoldSource
  refine .bind (.bind (translate_order ho ho' _ _) fun r => .ok) fun src => ?_
  exact SameRes.refl (fun e => .refl) _

theorem scaffoldLoop_order {env : Env} {order' : HashOrder} (ho : ∀ l, (env.order l).Perm l) (ho' : ∀ l, (order' l).Perm l)
    (a : ScaffoldArgs) : ∀ (files : List FPath) (fs : Fs) (out : List Str) (ns : List Note) (es es' : List (FPath × FileError)),
    Each (fun x y => x.1 = y.1 ∧ SameFileError x.2 y.2) es es' →
    (scaffoldLoop env a files fs out ns es).fs = (scaffoldLoop { env with order := order' } a files fs out ns es').fs ∧
    (scaffoldLoop env a files fs out ns es).stdout = (scaffoldLoop { env with order := order' } a files fs out ns es').stdout ∧
    (scaffoldLoop env a files fs out ns es).exit = (scaffoldLoop { env with order := order' } a files fs out ns es').exit ∧
    Each SameNote (scaffoldLoop env a files fs out ns es).stderr (scaffoldLoop { env with order := order' } a files fs out ns es').stderr := by
  intro files
  induction files with
  | nil =>
    intro fs out ns es es' h
    unfold scaffoldLoop
    have hn : ∀ l : List Note, Each SameNote l l := each_refl' (fun _ => .refl)
    cases h with
    | nil => exact ⟨rfl, rfl, rfl, hn _⟩
    | @cons e e' es es' h1 h2 =>
      refine ⟨rfl, rfl, rfl, ?_⟩
      simp only [List.isEmpty_cons, Bool.false_eq_true, if_false, reportErrors]
      have hm : ∀ {l l' : List (FPath × FileError)}, Each (fun x y => x.1 = y.1 ∧ SameFileError x.2 y.2) l l' →
          Each SameNote (l.map (fun e => .failed e.1 e.2)) (l'.map (fun e => .failed e.1 e.2)) ∧ l.length = l'.length := by
        intro l l' h
        induction h with
        | nil => exact ⟨.nil, rfl⟩
        | @cons x y l l' h _ ih =>
          refine ⟨.cons ?_ ih.1, by simp [ih.2]⟩
          obtain ⟨p, e⟩ := x
          obtain ⟨p', e'⟩ := y
          obtain ⟨rfl, h⟩ := h
          exact sameFile_note h
      have := hm (.cons h1 h2)
      refine each_append' (hn _) (each_append' this.1 ?_)
      rw [this.2]
      exact hn _
  | cons f files ih =>
    intro fs out ns es es' h
    rw [scaffoldLoop, scaffoldLoop]
    have hp := processFile_order ho ho' a fs f
    generalize processFile env a fs f = x at hp ⊢
    generalize processFile { env with order := order' } a fs f = y at hp ⊢
    cases hp with
    | @ok r => obtain ⟨fs1, o, n⟩ := r; exact ih _ _ _ _ _ h
    | err he => exact ih _ _ _ _ _ (each_append' h (.cons ⟨rfl, he⟩ .nil))
    | panic => exact ⟨rfl, rfl, rfl, each_refl' (fun _ => .refl) _⟩

/-- **C67**, scaffold: files, standard output and exit code do not depend on the iteration order of hash maps; nor does standard error,
except for the order of several semantic errors of one tree. -/
theorem C67_scaffold {env : Env} {order' : HashOrder} (ho : ∀ l, (env.order l).Perm l) (ho' : ∀ l, (order' l).Perm l)
    (a : ScaffoldArgs) (fs : Fs) :
    (scaffoldRun env a fs).fs = (scaffoldRun { env with order := order' } a fs).fs ∧
    (scaffoldRun env a fs).stdout = (scaffoldRun { env with order := order' } a fs).stdout ∧
    (scaffoldRun env a fs).exit = (scaffoldRun { env with order := order' } a fs).exit ∧
    Each SameNote (scaffoldRun env a fs).stderr (scaffoldRun { env with order := order' } a fs).stderr :=
  scaffoldLoop_order ho ho' a a.files fs [] [] [] [] .nil

/-- The same violation up to the order of semantic errors, which is not shown. -/
inductive SameViolation : Violation → Violation → Prop where
  | refl {v} : SameViolation v v
  | errors {e e' f} : SameError e e' → SameViolation ⟨.parsingFailed (.tree e), f⟩ ⟨.parsingFailed (.tree e'), f⟩

theorem sameViolation_show {v v' : Violation} (h : SameViolation v v') : v.show = v'.show ∧ v.kind.isFixable = v'.kind.isFixable := by
  cases h with
  | refl => exact ⟨rfl, rfl⟩
  | errors h => cases h <;> exact ⟨rfl, rfl⟩

theorem contextNew_order {env : Env} {order' : HashOrder} (ho : ∀ l, (env.order l).Perm l) (ho' : ∀ l, (order' l).Perm l)
    (skip : Bool) (fs : Fs) (t : FPath) :
    SameRes SameViolation (contextNew env skip fs t) (contextNew { env with order := order' } skip fs t) := by
  unfold contextNew
  refine .bind (SameRes.refl (fun e => .refl) _) fun text => ?_
  refine .bind ((translate_order ho ho' _ _).mapErr fun e e' h => .errors h) fun r => ?_
  exact SameRes.refl (fun e => .refl) _

theorem contexts_order {env : Env} {order' : HashOrder} (ho : ∀ l, (env.order l).Perm l) (ho' : ∀ l, (order' l).Perm l)
    (skip : Bool) (fs : Fs) : ∀ files : List FPath,
    (contexts env skip fs files = .panic ∧ contexts { env with order := order' } skip fs files = .panic) ∨
    ∃ cs vs vs', contexts env skip fs files = .ok (cs, vs) ∧ contexts { env with order := order' } skip fs files = .ok (cs, vs') ∧
      Each SameViolation vs vs' := by
  intro files
  induction files with
  | nil => exact .inr ⟨[], [], [], rfl, rfl, .nil⟩
  | cons t ts ih =>
    rw [contexts, contexts]
    have hc := contextNew_order ho ho' skip fs t
    generalize contextNew env skip fs t = x at hc ⊢
    generalize contextNew { env with order := order' } skip fs t = y at hc ⊢
    cases hc with
    | panic => exact .inl ⟨rfl, rfl⟩
    | ok =>
      rcases ih with ⟨h1, h2⟩ | ⟨cs, vs, vs', h1, h2, h3⟩
      · simp only [h1, h2]; exact .inl ⟨rfl, rfl⟩
      · simp only [h1, h2, Res.bind_ok]; exact .inr ⟨_, _, _, rfl, rfl, h3⟩
    | err he =>
      rcases ih with ⟨h1, h2⟩ | ⟨cs, vs, vs', h1, h2, h3⟩
      · simp only [h1, h2]; exact .inl ⟨rfl, rfl⟩
      · simp only [h1, h2, Res.bind_ok]; exact .inr ⟨_, _, _, rfl, rfl, .cons he h3⟩

theorem fixLoop_order {env : Env} {order' : HashOrder} (a : CheckArgs) : ∀ (cs : List (Context × FPath)) (fs : Fs) (out : List Str)
    (ns : List Note) (k : Nat), fixLoop env a cs fs out ns k = fixLoop { env with order := order' } a cs fs out ns k := by
  intro cs
  induction cs with
  | nil => intros; rfl
  | cons c cs ih =>
    intro fs out ns k
    obtain ⟨ctx, sol⟩ := c
    rw [fixLoop, fixLoop]
    simp only
    cases fixContext env.solParse ctx with
    | panic => rfl
    | err e => cases e
    | ok r =>
      simp only
      cases env.ctxFmt r.1 with
      | none => rfl
      | some s => exact ih _ _ _ _

/-- **C67**, check: files, standard output, exit code and the text printed to standard error do not depend on the iteration order of
hash maps. -/
theorem C67_check {env : Env} {order' : HashOrder} (ho : ∀ l, (env.order l).Perm l) (ho' : ∀ l, (order' l).Perm l)
    (a : CheckArgs) (fs : Fs) (os : Str) (quoted : FPath → Str) :
    (checkRun env a fs).fs = (checkRun { env with order := order' } a fs).fs ∧
    (checkRun env a fs).stdout = (checkRun { env with order := order' } a fs).stdout ∧
    (checkRun env a fs).exit = (checkRun { env with order := order' } a fs).exit ∧
    (checkRun env a fs).stderr.map (Note.show os quoted) = (checkRun { env with order := order' } a fs).stderr.map (Note.show os quoted) := by
  unfold checkRun
  rcases contexts_order ho ho' a.skipModifiers fs a.files with ⟨h1, h2⟩ | ⟨cs, vs, vs', h1, h2, h3⟩
  · rw [h1, h2]; exact ⟨rfl, rfl, rfl, rfl⟩
  · rw [h1, h2]
    simp only
    by_cases hf : a.fix = true
    · rw [if_pos hf, if_pos hf, ← fixLoop_order (order' := order')]; exact ⟨rfl, rfl, rfl, rfl⟩
    · rw [if_neg hf, if_neg hf]
      cases checkAll cs with
      | panic => exact ⟨rfl, rfl, rfl, rfl⟩
      | err e => cases e
      | ok ws =>
        simp only
        have hall := each_append' h3 (each_refl' (fun _ => SameViolation.refl) ws)
        have key : ∀ {l l' : List Violation}, Each SameViolation l l' →
            l.map (fun v => Note.show os quoted (.violation v)) = l'.map (fun v => Note.show os quoted (.violation v)) ∧
            l.length = l'.length ∧ (l.filter (fun v => v.kind.isFixable)).length = (l'.filter (fun v => v.kind.isFixable)).length := by
          intro l l' h
          induction h with
          | nil => exact ⟨rfl, rfl, rfl⟩
          | @cons v v' l l' h _ ih =>
            obtain ⟨s1, s2⟩ := sameViolation_show h
            refine ⟨?_, by simp [ih.2.1], ?_⟩
            · rw [List.map_cons, List.map_cons, ih.1, Note.show, Note.show, s1]
            rw [List.filter_cons, List.filter_cons, s2]
            split <;> simp [ih.2.2]
        obtain ⟨k1, k2, k3⟩ := key hall
        generalize vs ++ ws = l at *
        generalize vs' ++ ws = l' at *
        unfold checkExit
        cases hall with
        | nil => exact ⟨rfl, rfl, rfl, rfl⟩
        | cons h h' =>
          refine ⟨rfl, rfl, rfl, ?_⟩
          simp only [List.isEmpty_cons, Bool.false_eq_true, if_false, List.map_append, List.map_map]
          rw [k3, k2]
          exact congrArg (· ++ _) k1

end
end Bulloak

/-! ## Witness and examples -/

namespace Bulloak
open Spec

section
attribute [local instance] asciiUcd

/-- A tree with two conditions that occur twice each. -/
def twiceTwice : Str := c!"A\n├── when b\n│   └── it c\n├── when b\n│   └── it d\n├── when e\n│   └── it f\n└── when e\n    └── it g"

/-- The lines of the duplicates reported for a tree. -/
def reportedLines (order : HashOrder) (text : Str) : List (List Nat) :=
  match translate order .default text with
  | .err (.syntax (.semantics _ es)) => es.map fun e => match e.kind with
    | .identifierDuplicated ss => ss.map (·.start.line)
    | _ => []
  | _ => []

set_option maxRecDepth 16000 in
theorem twice_id : reportedLines id twiceTwice = [[2, 4], [6, 8]] := by cbv

set_option maxRecDepth 16000 in
theorem twice_reverse : reportedLines List.reverse twiceTwice = [[6, 8], [2, 4]] := by cbv

/-- Standard error of scaffold does depend on the iteration order of hash maps: the order of the errors of one tree does. -/
theorem C67_false : ∃ (U : Ucd) (_ : @LawfulUcd U), ¬ ∀ (order order' : HashOrder) (cfg : Config) (text : Str),
    (∀ l, (order l).Perm l) → (∀ l, (order' l).Perm l) → @translate U order cfg text = @translate U order' cfg text := by
  refine ⟨asciiUcd, lawful_ascii, fun h => ?_⟩
  have h1 := h id List.reverse .default twiceTwice (fun l => .refl l) (fun l => List.reverse_perm l)
  have h2 := twice_id
  unfold reportedLines at h2
  rw [h1] at h2
  have h3 := twice_reverse
  unfold reportedLines at h3
  rw [h3] at h2
  exact absurd h2 (by decide)

/-- Non-trivial case of C67: the two orders give the same errors in another order. -/
example : ∃ e e', translate id .default twiceTwice = .err e ∧ translate List.reverse .default twiceTwice = .err e' ∧ SameError e e' ∧ e ≠ e' := by
  have h2 := twice_id
  have h3 := twice_reverse
  unfold reportedLines at h2 h3
  rcases C67_translate (order := id) (order' := List.reverse) (fun l => .refl l) (fun l => List.reverse_perm l) .default twiceTwice with
    ⟨r, h4, _⟩ | ⟨e, e', h4, h5, h6⟩ | ⟨h4, _⟩
  · rw [h4] at h2; cases h2
  · refine ⟨e, e', h4, h5, h6, fun h => ?_⟩
    rw [h4] at h2
    rw [h5, ← h, h2] at h3
    exact absurd h3 (by decide)
  · rw [h4] at h2; cases h2

end
end Bulloak
