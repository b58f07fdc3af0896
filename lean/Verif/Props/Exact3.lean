import Verif.Props.FixCases
import Verif.Props.ReportCases
import Verif.Props.Lines
import Verif.Props.Messages
import Verif.Props.Sol
/-!
# What renaming, hints and lines are exactly (C81 to C84)
-/

namespace Bulloak.Spec
open Bulloak

/-- The pieces between the occurrences of `pat` found from left to right: in each piece followed by `pat`, that is the first occurrence, and
there is none in the last piece. -/
inductive Pieces (pat : Str) : List Str → Prop where
  | last {x} : ¬ pat <:+: x → Pieces pat [x]
  | cons {x y r} : Once x pat [] → Pieces pat (y :: r) → Pieces pat (x :: y :: r)

/-- Lines, each ended by a line feed. -/
def unlines (l : List Str) : Str := l.flatMap (· ++ c!"\n")

/-- The lines of a line of code or comment of a function. -/
def bodyLine : BodyItem → Str
  | .comment t => c!"    // " ++ t
  | .vmSkip => c!"    vm.skip(true);"

/-- The lines of a function. -/
def fnText (f : HFn) : List Str :=
  match f.ty, f.modifiers with
  | .modifier, _ => [c!"  modifier " ++ f.identifier ++ c!"() {", c!"    _;", c!"  }"]
  | .function, none => (c!"  function " ++ f.identifier ++ c!"() external {") :: (f.children.getD []).map bodyLine ++ [c!"  }"]
  | .function, some ms => (c!"  function " ++ f.identifier ++ c!"()") :: c!"    external" :: ms.map (c!"    " ++ ·) ++
      c!"  {" :: (f.children.getD []).map bodyLine ++ [c!"  }"]

end Bulloak.Spec

namespace Bulloak
open Spec
set_option linter.unusedSectionVars false

/-! ## Replacing text -/

private theorem replace_first {x pat y : Str} (to : Str) (hne : pat ≠ []) (h : Once x pat []) :
    replaceAll pat to (x ++ (pat ++ y)) = x ++ (to ++ replaceAll pat to y) := by
  induction x with
  | nil =>
    obtain ⟨c, p, rfl⟩ := List.exists_cons_of_ne_nil hne
    rw [List.nil_append]
    unfold replaceAll
    rw [List.cons_append, replaceAux, if_pos ((stripPrefix_isSome (c :: p) (c :: (p ++ y))).2 ⟨y, rfl⟩), replaceAux_skip]
    simp
  | cons c x ih =>
    have hx : Once x pat [] := by
      intro a b e
      have := h (c :: a) b (by rw [List.cons_append, e]; rfl)
      exact (List.cons.inj this).2
    have := ih hx
    unfold replaceAll at this ⊢
    rw [List.cons_append, replaceAux, if_neg, this]
    · rfl
    · intro hs
      obtain ⟨r, hr⟩ := (stripPrefix_isSome _ _).1 hs
      have hl : pat <+: c :: x ++ pat := by
        have h1 : pat <+: (c :: x ++ pat) ++ y := ⟨r, by rw [← hr]; simp⟩
        exact List.prefix_of_prefix_length_le h1 (List.prefix_append _ _) (by simp; omega)
      obtain ⟨b, hb⟩ := hl
      have := h [] b (by simpa using hb.symm)
      cases this

theorem replaceAll_pieces {pat to : Str} {ps : List Str} (hne : pat ≠ []) (h : Pieces pat ps) :
    replaceAll pat to (joinSep pat ps) = joinSep to ps := by
  induction h with
  | last h =>
    refine replaceAll_none _ (fun a b e => h ⟨a, b, ?_⟩)
    simpa [joinSep] using e.symm
  | cons ho _ ih =>
    simp only [joinSep, List.append_assoc]
    rw [replace_first to hne ho, ih]

private theorem infix_first {pat s : Str} (h : pat <:+: s) : ∃ x y, s = x ++ (pat ++ y) ∧ Once x pat [] := by
  obtain ⟨a, b, rfl⟩ := h
  induction hn : a.length using Nat.strongRecOn generalizing a b with
  | _ n ih =>
    by_cases ho : Once a pat []
    · exact ⟨a, b, by simp, ho⟩
    · simp only [Once, Classical.not_forall] at ho
      obtain ⟨a', b', e, hne⟩ := ho
      have hlt : a'.length < a.length := by
        have h1 := congrArg List.length e
        simp at h1
        rcases Nat.lt_or_ge a'.length a.length with h | h
        · exact h
        · exfalso
          have : a' = a := by
            have h2 : a'.length = a.length := by omega
            have := congrArg (List.take a.length) e
            rw [List.take_left' rfl, List.take_left' h2] at this
            exact this.symm
          exact hne this
      obtain ⟨x, y, h1, h2⟩ := ih _ (hn ▸ hlt) a' (b' ++ b) rfl
      refine ⟨x, y, ?_, h2⟩
      rw [← h1]
      have := congrArg (· ++ b) e
      simpa using this

/-- Every text has pieces. -/
theorem pieces_exist {pat : Str} (hne : pat ≠ []) (s : Str) : ∃ ps, Pieces pat ps ∧ s = joinSep pat ps := by
  induction hn : s.length using Nat.strongRecOn generalizing s with
  | _ n ih =>
    by_cases hi : pat <:+: s
    · obtain ⟨x, y, rfl, ho⟩ := infix_first hi
      have : 0 < pat.length := List.length_pos_iff.2 hne
      obtain ⟨ps, h1, h2⟩ := ih y.length (by rw [← hn]; simp; omega) y rfl
      cases h1 with
      | last h => exact ⟨[x, _], .cons ho (.last h), by simp [joinSep, h2]⟩
      | cons h h' => exact ⟨_, .cons ho (.cons h h'), by rw [h2]; simp [joinSep]⟩
    · exact ⟨[s], .last hi, rfl⟩

section
variable [U : Ucd]

/-- **C81.** Fixing the name of the contract replaces every occurrence of `contract <old name>` found from left to right, wherever it is and
whatever follows it, and nothing else. -/
theorem C81_rename (P : SolParser) (ctx : Context) (old new : Str) :
    ∃ ps, Pieces (c!"contract " ++ old) ps ∧ ctx.src = joinSep (c!"contract " ++ old) ps ∧
      (P (joinSep (c!"contract " ++ new) ps) = none → fixViolation P (.contractNameNotMatches new old) ctx = .panic) ∧
      ∀ u, P (joinSep (c!"contract " ++ new) ps) = some u → fixViolation P (.contractNameNotMatches new old) ctx =
        .ok { ctx with src := joinSep (c!"contract " ++ new) ps, pt := u } := by
  obtain ⟨ps, h1, h2⟩ := pieces_exist (pat := c!"contract " ++ old) (by simp) ctx.src
  have h3 := replaceAll_pieces (to := c!"contract " ++ new) (by simp) h1
  rw [← h2] at h3
  refine ⟨ps, h1, h2, ?_, ?_⟩
  · intro h; simp only [fixViolation, h3, reparse, h]
  · intro u h; simp only [fixViolation, h3, reparse, h]

end

/-! ## The whole text of a contract -/

theorem emitFunction_text (f : HFn) : emitFunction f = unlines (fnText f) ++ c!"\n" := by
  obtain ⟨i, ty, sp, m, c⟩ := f
  have hb : ∀ l : List BodyItem, l.flatMap emitBodyItem = unlines (l.map bodyLine) := by
    intro l
    induction l with
    | nil => rfl
    | cons x l ih =>
      simp only [unlines, List.flatMap_cons, List.map_cons] at ih ⊢
      rw [ih]
      cases x <;> simp [emitBodyItem, bodyLine, indent2, spaces]
  have hm : ∀ l : List Str, l.flatMap (fun m => indent2 ++ m ++ c!"\n") = unlines (l.map (c!"    " ++ ·)) := by
    intro l
    induction l with
    | nil => rfl
    | cons x l ih =>
      simp only [unlines, List.flatMap_cons, List.map_cons] at ih ⊢
      rw [ih]
      simp [indent2, spaces]
  cases ty with
  | modifier => simp [emitFunction, emitModifier, fnText, unlines, indent1, indent2, spaces]
  | function =>
    cases m with
    | none =>
      simp only [emitFunction, emitFnHeader, fnText, hb]
      simp [unlines, indent1, spaces, List.flatMap_append]
    | some ms =>
      simp only [emitFunction, emitFnHeader, fnText, hb, hm]
      simp [unlines, indent1, indent2, spaces, List.flatMap_append]

section
variable [U : Ucd]

/-- **C82.** The emitter writes the licence, the pragma and the contract: its functions, in order, separated by empty lines. -/
theorem C82_emitter (cfg : Config) (n : Str) (fns : List HFn) :
    emitRoot cfg ⟨[⟨n, fns⟩]⟩ = unlines [c!"// SPDX-License-Identifier: UNLICENSED", c!"pragma solidity " ++ cfg.solidityVersion ++ c!";", []] ++
      (c!"contract " ++ sanitize n ++ c!" {") ++
      (if fns = [] then [] else c!"\n" ++ joinSep c!"\n" (fns.map (fun f => unlines (fnText f)))) ++ c!"}" := by
  have key : ∀ fns : List HFn, fns ≠ [] → fns.flatMap emitFunction = joinSep c!"\n" (fns.map (fun f => unlines (fnText f))) ++ c!"\n" := by
    intro fns
    induction fns with
    | nil => intro h; exact absurd rfl h
    | cons f r ih =>
      intro _
      cases r with
      | nil => simp [joinSep, emitFunction_text]
      | cons g r =>
        have := ih (by simp)
        rw [List.flatMap_cons, this, emitFunction_text]
        simp [joinSep]
  by_cases hf : fns = []
  · subst hf
    simp only [emitRoot, emitContract, List.flatMap_cons, List.flatMap_nil, List.append_nil, if_true]
    rw [show c!"contract " ++ sanitize n ++ c!" {\n" = (c!"contract " ++ sanitize n ++ c!" {") ++ ['\n'] by simp,
      List.dropLast_concat]
    simp [unlines]
  · simp only [emitRoot, emitContract, List.flatMap_cons, List.flatMap_nil, List.append_nil, if_neg hf, key fns hf]
    have hd : ∀ a b : Str, (a ++ (b ++ ['\n'])).dropLast = a ++ b := fun a b => by rw [← List.append_assoc, List.dropLast_concat]
    rw [hd]
    simp [unlines]

/-! ## Lines in the Solidity file -/

/-- **C83.** The line reported for a misplaced function or a wrong name is one more than the number of line feeds among the first `o + 2`
characters of the file, where `o` is the offset in bytes. -/
theorem C83_solidity_line {ctx : Context} {n : Str} {fns : List HFn} (hh : ctx.hir = ⟨[⟨n, fns⟩]⟩) {s : SolContract}
    (hs : FirstContract ctx.pt s) {vs : List Violation} (hv : checkCtx ctx = .ok vs) :
    (∀ g a i loc, ⟨.functionOrderMismatch g a i, loc⟩ ∈ vs → loc = .code ctx.sol (1 + (ctx.src.take (g.start + 2)).count '\n')) ∧
    (∀ a b loc, ⟨.contractNameNotMatches a b, loc⟩ ∈ vs → loc = .code ctx.sol (1 + (ctx.src.take (s.start + 2)).count '\n')) := by
  have key : ∀ i l, offsetToLine ctx.src i = .ok l → l = 1 + (ctx.src.take (i + 2)).count '\n' := by
    intro i l h
    rw [offsetToLine_eq] at h
    split at h <;> cases h
    rfl
  constructor
  · intro g a i loc hm
    obtain ⟨f, line, _, _, _, hl, rfl⟩ := (C39_order hh hs hv).2.2 g a i loc hm
    rw [key _ _ hl]
  · intro a b loc hm
    obtain ⟨_, _, _, line, hl, rfl⟩ := (C37_name hh hs hv a b loc).1 hm
    rw [key _ _ hl]

/-! ## Hints -/

private theorem replace_same {s : Str} : replaceAll c!".t.sol" c!".tree" s = s ↔ ¬ c!".t.sol" <:+: s := by
  constructor
  · intro h hi
    obtain ⟨x, y, rfl, ho⟩ := infix_first hi
    rw [replace_first _ (by simp) ho] at h
    have := List.append_cancel_left h
    simp at this
  · intro h
    exact replaceAll_none _ (fun a b e => h ⟨a, b, by simpa using e.symm⟩)

private theorem replace_sol {x z : Str} : replaceAll c!".t.sol" c!".tree" (x ++ c!".t.sol") = x ++ z ↔ ¬ c!".t.sol" <:+: x ∧ z = c!".tree" := by
  by_cases hi : c!".t.sol" <:+: x
  · refine ⟨fun h => ?_, fun h => absurd hi h.1⟩
    obtain ⟨a, y, rfl, ho⟩ := infix_first hi
    rw [List.append_assoc, List.append_assoc, replace_first _ (by simp) ho, List.append_assoc] at h
    have := List.append_cancel_left h
    simp at this
  · have := replaceAll_once c!".tree" (by simp) (ends_once hi)
    rw [List.append_nil, List.append_nil] at this
    rw [this]
    constructor
    · intro h; exact ⟨hi, (List.append_cancel_left h).symm⟩
    · rintro ⟨_, rfl⟩; rfl

/-- **C84.** The command suggested with a violation names the tree file if and only if `.t.sol` is not in its path, for a violation located in
the tree file, and if and only if it is called `*.tree` and has no `.t.sol` in front of that, for a violation located in the Solidity file. -/
theorem C84_hint [LawfulUcd] {env : Env} {skip : Bool} {fs : Fs} {t p : FPath} {ctx : Context} (hp : SolOf t p)
    (ho : Opens env skip fs t ctx) {vs : List Violation} (hv : checkCtx ctx = .ok vs) {v : Violation} (hm : v ∈ vs) :
    ∃ file, c!"     + fix: run `bulloak check --fix " ++ file ++ c!"`\n   --> " ++ v.location.show ++ c!"\n" <:+ v.show ∧
      ((v.location.filename = t.str ∧ (file = t.str ↔ ¬ c!".t.sol" <:+: t.str)) ∨
       (v.location.filename = p.str ∧ (file = t.str ↔ Plain t))) := by
  obtain ⟨hfx, hl⟩ := check_files ho hp hv hm
  refine ⟨replaceAll c!".t.sol" c!".tree" v.location.filename, ?_, ?_⟩
  · unfold Violation.show
    rw [if_pos ((isFixable_iff v).2 hfx)]
    refine ⟨c!"warn: " ++ v.kind.text ++ c!"\n" ++ (match v.kind.help with | some h => c!"     = help: " ++ h ++ c!"\n" | none => []), ?_⟩
    simp [List.append_assoc]
    cases v.kind.help <;> rfl
  · rcases hl with hl | hl
    · exact .inl ⟨hl, by rw [hl]; exact replace_same⟩
    · refine .inr ⟨hl, ?_⟩
      obtain ⟨hd, stem, hn, hc⟩ := hp
      have e : p.str = (t.dir ++ stem) ++ c!".t.sol" := by simp [FPath.str, hd, hn]
      rw [hl, e]
      rcases hc with ⟨h0, ext, hx, ht⟩ | ⟨ht, hx⟩
      · have e2 : t.str = (t.dir ++ stem) ++ '.' :: ext := by simp [FPath.str, ht]
        rw [e2, replace_sol]
        constructor
        · rintro ⟨h1, h2⟩
          exact ⟨stem, by rw [ht, h2], h0, h1⟩
        · rintro ⟨st, h1, _, h3⟩
          rw [ht] at h1
          have h4 : stem = st := lastDot_unique h1 hx (by decide +kernel)
          subst h4
          exact ⟨h3, List.append_cancel_left h1⟩
      · have e2 : t.str = (t.dir ++ stem) ++ [] := by simp [FPath.str, ht]
        rw [e2, replace_sol]
        constructor
        · rintro ⟨_, h⟩; cases h
        · rintro ⟨st, h1, h2, _⟩
          exfalso
          rw [ht] at h1
          obtain ⟨c, r, rfl⟩ := List.exists_cons_of_ne_nil h2
          rw [h1] at hx
          exact hx (by simp)

end

/-! ## Cases -/

section
attribute [local instance] asciiUcd

/-- The phrase occurs in a comment, in the contract and in the name of another one: three places. -/
example : Pieces c!"contract Fo" [c!"// ", c!"\n", c!" {}\n", c!"o {}"] :=
  .cons (by
    intro a b e
    have h := congrArg List.length e
    simp at h
    have : a.length ≤ 3 := by omega
    match a, e with
    | [], e => simp at e
    | [_], e => simp at e
    | [_, _], e => simp at e
    | [x, y, z], e => simp at e; obtain ⟨rfl, rfl, rfl, _⟩ := e; rfl
    | _ :: _ :: _ :: _ :: _, _ => simp at this)
   (.cons (by
    intro a b e
    have h := congrArg List.length e
    simp at h
    match a, e with
    | [], e => simp at e
    | [x], e => simp at e; obtain ⟨rfl, _⟩ := e; rfl
    | _ :: _ :: _, _ => simp at h; omega)
   (.cons (by
    intro a b e
    have h := congrArg List.length e
    simp at h
    match a, e with
    | [], e => simp at e
    | [_], e => simp at e
    | [_, _], e => simp at e
    | [_, _, _], e => simp at e
    | [x, y, z, w], e => simp at e; obtain ⟨rfl, rfl, rfl, rfl, _⟩ := e; rfl
    | _ :: _ :: _ :: _ :: _ :: _, _ => simp at h; omega)
   (.last (by decide +kernel))))

/-- All three are rewritten. -/
example : replaceAll c!"contract Fo" c!"contract T" c!"// contract Fo\ncontract Fo {}\ncontract Foo {}" =
    c!"// contract T\ncontract T {}\ncontract To {}" := by decide +kernel

set_option maxRecDepth 16000 in
/-- A contract with a modifier and a test. -/
example : emitRoot { Config.default with solidityVersion := c!"0.8.0" } ⟨[⟨c!"A", [⟨c!"whenX", .modifier, ⟨⟨0, 1, 1⟩, ⟨0, 1, 1⟩⟩, none, none⟩,
    ⟨c!"test_WhenX", .function, ⟨⟨0, 1, 1⟩, ⟨0, 1, 1⟩⟩, some [c!"whenX"], some [.comment c!"It works."]⟩]⟩]⟩ =
    c!"// SPDX-License-Identifier: UNLICENSED\npragma solidity 0.8.0;\n\ncontract A {\n  modifier whenX() {\n    _;\n  }\n\n  function test_WhenX()\n    external\n    whenX\n  {\n    // It works.\n  }\n}" := by
  cbv

/-- A contract in line 2 behind a comment with ten characters of two bytes is reported in line 3. -/
def behindAccents : Context := ⟨c!"a.tree", ⟨[⟨c!"A", []⟩]⟩, c!"a.t.sol", c!"//éééééééééé\ncontract B{\n\n}", [.contract ⟨some c!"B", 23, 37, []⟩], false⟩

set_option maxRecDepth 16000 in
example : checkCtx behindAccents = .ok [⟨.contractNameNotMatches c!"A" c!"B", .code c!"a.t.sol" 3⟩] := by cbv

example : 1 + (behindAccents.src.take (23 + 2)).count '\n' = 3 := by decide +kernel

/-- Usual names are plain, `a.q` and `x.t.sol/a.tree` are not. -/
example : Plain ⟨c!"x/", c!"a.tree"⟩ := ⟨c!"a", rfl, by simp, by decide +kernel⟩
example : ¬ Plain ⟨c!"x/", c!"a.q"⟩ := by
  rintro ⟨s, h, _⟩
  have := congrArg List.length h
  simp at this
example : ¬ Plain ⟨c!"x.t.sol/", c!"a.tree"⟩ := by
  rintro ⟨s, h, _, h2⟩
  exact h2 ⟨c!"x", c!"/" ++ s, by simp⟩

/-- What is suggested for a contract with a wrong name in the file belonging to `x/a.q`. -/
example : (⟨.contractNameNotMatches c!"Foo" c!"Bar", .code c!"x/a.t.sol" 1⟩ : Violation).show =
    c!"warn: contract \"Foo\" is missing in .sol -- found \"Bar\" instead\n     = help: consider renaming the contract to \"Foo\"\n     + fix: run `bulloak check --fix x/a.tree`\n   --> x/a.t.sol:1\n" := by
  decide +kernel

end
end Bulloak
