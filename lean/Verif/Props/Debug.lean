import Verif.Model.Debug
import Verif.Props.Messages
import Verif.Props.Error
import Verif.Props.Lines
import Verif.Lemmas.Lines
/-! # Debug builds (C139, C140) -/

namespace Bulloak
open Spec

section
variable [U : Ucd]

private theorem offset_debug (content : Str) (start : Nat) : offsetToLineDebug content start = offsetToLine content start := by
  unfold offsetToLineDebug
  split
  · rfl
  · rename_i h
    refine (offset_panic.2 ?_).symm
    have := byteLen_ge content
    omega

private theorem order_debug (ctx : Context) (h : HContract) (s : SolContract) (l : List (Nat × Nat)) : orderViolationsDebug ctx h s l = orderViolations ctx h s l := by
  induction l with
  | nil => rfl
  | cons p l ih =>
    unfold orderViolationsDebug orderViolations
    simp only [offset_debug, ih]
    rfl

/-- **C139.** Debug builds check exactly as release builds do: where the assertion fails, a release build crashes as well. -/
theorem C139_same (ctx : Context) : checkCtxDebug ctx = checkCtx ctx := by
  have e1 : ∀ c s, checkContractNamesDebug ctx c s = checkContractNames ctx c s := by
    intro c s
    unfold checkContractNamesDebug checkContractNames
    simp only [offset_debug]
    rfl
  have e2 : ∀ c s, checkFnsStructureDebug ctx c s = checkFnsStructure ctx c s := by
    intro c s
    unfold checkFnsStructureDebug checkFnsStructure
    simp only [order_debug]
  unfold checkCtxDebug checkCtx
  simp only [e1, e2]
  rfl

/-- All positions in the contract are positions in the file. -/
def Spec.Inside (src : Str) (s : SolContract) : Prop := s.start < byteLen src ∧ ∀ g, .fn g ∈ s.parts → g.start < byteLen src

omit U in
private theorem partsFrom_inside {g : SolFn} : ∀ (segs : List (Seg × Str)) (o : Nat), .fn g ∈ partsFrom o segs → g.start ≤ o + byteLen (segsText segs)
  | [], _, h => by cases h
  | (s, t) :: r, o, h => by
    have e : byteLen (segsText ((s, t) :: r)) = byteLen s.text + byteLen t + byteLen (segsText r) := by
      simp only [segsText, List.flatMap_cons, byteLen_append]
    rw [e]
    rcases List.mem_cons.1 h with h | h
    · cases s with
      | fn ty name text =>
        cases h
        simp only [Seg.text]
        omega
      | other text => cases h
    · have := partsFrom_inside r _ h
      omega

omit U in
/-- **C139**, assertion: in a file that follows the layout of DESIGN.md, the assertion itself never fails, as all positions are in the file.  So what crashes there (C80) is what follows it. -/
theorem C139_inside (L : Layout) : Inside L.text L.contract := by
  have e : byteLen L.text = byteLen L.front + byteLen (segsText L.segs) + byteLen ('}' :: L.rest) := by
    simp only [Layout.text, byteLen_append]; omega
  have e1 : byteLen ('}' :: L.rest) = 1 + byteLen L.rest := byteLen_cons _ _
  have e2 : byteLen L.front = byteLen L.before + (byteLen L.header + byteLen ('{' :: L.lead)) := by simp only [Layout.front, byteLen_append]
  refine ⟨?_, fun g hg => ?_⟩
  · show byteLen L.before < _
    omega
  · have := partsFrom_inside L.segs _ hg
    omega

end

/-! ## Error messages -/

section
variable [U : Ucd]

/-- Counting lines and columns from 1. -/
private def FromOne (p : Position) : Prop := 1 ≤ p.line ∧ 1 ≤ p.column

omit U in
private theorem default_one : FromOne Span.default.start := ⟨Nat.le_refl _, Nat.le_refl _⟩

omit U in
private theorem posOf_one (pre : Str) : FromOne (Spec.posOf pre) := ⟨Nat.le_add_right 1 _, Nat.le_add_right 1 _⟩

omit U in
private theorem format_debug (text kind : Str) {span : Span} (h : FromOne span.start) : formatErrorDebug text kind span = .ok (formatError text kind span) := by
  have hn : notateDebug text span = .ok (notate text span) := by
    unfold notateDebug notate subDebug
    rw [if_pos h.1, if_pos h.2]
    simp only [Res.bind_ok]
    cases (lines text)[span.start.line - 1]? <;> rfl
  unfold formatErrorDebug formatError
  rw [hn]
  split <;> rfl

omit U in
private theorem sem_debug (text : Str) : ∀ es : List SemError, (∀ e ∈ es, FromOne e.span.start) →
    semErrorsDebug text es = .ok (es.flatMap (fun e => formatError text e.kind.text e.span))
  | [], _ => rfl
  | e :: es, h => by
    unfold semErrorsDebug
    rw [format_debug _ _ (h e (List.mem_cons_self ..)), sem_debug text es fun e' h' => h e' (List.mem_cons_of_mem _ h')]
    rfl

private theorem tokens_one [LawfulUcd] {text : Str} {toks : List Token} (ht : tokenize text = .ok toks) {t : Token} (hm : t ∈ toks) : FromOne t.span.start ∧ FromOne t.span.stop := by
  obtain ⟨pre, _, _, h3, h4⟩ := tok_span ht hm
  rw [h3, h4]
  exact ⟨posOf_one _, posOf_one _⟩

/-- **C140.** Every error about a tree file can be displayed: the subtractions of line and column numbers never underflow, so that debug builds, which check this, and release builds, which do not,
print the same message. -/
theorem C140_messages [LawfulUcd] {order : HashOrder} (ho : ∀ l, (order l).Perm l) {cfg : Config} {text : Str} {e : TranslateError} (h : translate order cfg text = .err e) :
    e.showDebug = .ok e.show := by
  cases e with
  | combiner t c => exact format_debug t c.text default_one
  | «syntax» e =>
    obtain ⟨A, b, B, _, _, hb⟩ := (C13_parse_err order text e).1 (translate_err_syntax h)
    have hpar := hb
    unfold parseOne at hb
    cases ht : tokenize b with
    | panic => simp [ht, Res.mapErr] at hb
    | err te =>
      simp only [ht, Res.mapErr, Res.bind_err, Res.err.injEq] at hb
      subst hb
      obtain ⟨ps, hl⟩ := lexes_exists b
      obtain ⟨pre, _, hs, _⟩ := (C04_title_errors hl).2.1 te ht
      exact format_debug _ _ (by rw [hs]; exact posOf_one pre)
    | ok toks =>
      simp only [ht, Res.mapErr, Res.bind_ok] at hb
      cases hp : parseTokens toks with
      | panic => simp [hp] at hb
      | err pe =>
        simp only [hp, Res.bind_err, Res.err.injEq] at hb
        subst hb
        refine format_debug _ _ ?_
        rcases parseTokens_points hp with ⟨_, rfl⟩ | ⟨t, hm, _, hs⟩
        · exact default_one
        · rcases hs with hs | ⟨_, hs⟩
          · rw [hs]; exact (tokens_one ht hm).1
          · rw [hs]; exact (tokens_one ht hm).2
      | ok ast =>
        simp only [hp, Res.bind_ok] at hb
        cases ha : analyze order ast with
        | nil => simp [ha] at hb
        | cons e0 es0 =>
          simp only [ha, Res.err.injEq] at hb
          subst hb
          obtain ⟨s, n, cs, rfl⟩ : ∃ s n cs, ast = .root s n cs := by
            obtain ⟨_, _, _, _, _, _, h⟩ := (parseTokens_iff (tokenize_col ht) _).1 hp
            exact ⟨_, _, _, h⟩
          obtain ⟨outs, _, hE⟩ := C53_semantics ho ht hp hpar
          refine sem_debug _ _ fun e' hm => ?_
          obtain ⟨_, _, pre, mid, hso, _⟩ := each_mem_left hE hm
          rw [hso.2.2.1]
          exact posOf_one pre

end

/-! ## Concrete cases -/

section
attribute [local instance] asciiUcd

/-- Non-ASCII text in front of the contract, a wrong name, and two functions in the wrong order. -/
private def mixedFile : Layout := ⟨c!"// é — è\n", some c!"Fou", c!"contract Fou ", c!"\n  ",
  [(.fn .function (some c!"test_B") c!"function test_B() external {}", c!"\n  "), (.fn .function (some c!"test_A") c!"function test_A() external {} // some more text here", c!"\n  ")], c!"\n// end of the file, with some more text\n"⟩

private def mixedCtx : Context := ⟨c!"a.tree", ⟨[⟨c!"Foo", [⟨c!"test_A", .function, Span.default, none, some []⟩, ⟨c!"test_B", .function, Span.default, none, some []⟩]⟩]⟩, c!"a.t.sol",
  mixedFile.text, [.contract mixedFile.contract], false⟩

example : checkCtxDebug mixedCtx = checkCtx mixedCtx := C139_same mixedCtx

set_option maxRecDepth 16000 in
/-- Both look up lines here. -/
example : (match checkCtxDebug mixedCtx with
    | .ok vs => vs.length
    | _ => 0) = 2 := by cbv

example : Inside mixedFile.text mixedFile.contract := C139_inside mixedFile

/-- Both crash behind the end of a file; here the assertion fails in a debug build.  The other example passes the assertion and still crashes. -/
example : offsetToLineDebug c!"éé" 5 = .panic ∧ offsetToLine c!"éé" 5 = .panic ∧ 3 < byteLen c!"éé" ∧ offsetToLineDebug c!"éé" 3 = .panic := by
  refine ⟨?_, ?_, ?_, ?_⟩ <;> decide +kernel

/-- A word that no parser expects, a title with a character that is not allowed, a tree with two problems, and two trees about different contracts. -/
private def badTrees : List Str := [c!"A\n└── b\n", c!"A\n└── when a§b\n  └── it c\n", c!"A\n├── when a\n└── when b\n", c!"A::f\n└── it c\n\n\nB::g\n└── it d\n"]

set_option maxRecDepth 16000 in
private theorem bad_rejected : badTrees.map (fun t => match translate id .default t with
    | .err (.syntax (.tokenizer ..)) => some 1
    | .err (.syntax (.parser ..)) => some 2
    | .err (.syntax (.semantics _ es)) => some (10 + es.length)
    | .err (.combiner ..) => some 4
    | _ => none) = [some 2, some 1, some 12, some 4] := by cbv

/-- C140: all of them can be displayed. -/
example : ∀ t ∈ badTrees, ∃ e, translate id .default t = .err e ∧ e.showDebug = .ok e.show := by
  haveI := lawful_ascii
  intro t ht
  cases h : translate id .default t with
  | err e => exact ⟨e, rfl, C140_messages (fun _ => List.Perm.refl _) h⟩
  | ok r =>
    have := List.mem_map_of_mem (f := fun t => match translate id .default t with
      | .err (.syntax (.tokenizer ..)) => some 1
      | .err (.syntax (.parser ..)) => some 2
      | .err (.syntax (.semantics _ es)) => some (10 + es.length)
      | .err (.combiner ..) => some 4
      | _ => none) ht
    rw [bad_rejected] at this
    simp [h] at this
  | panic =>
    have := List.mem_map_of_mem (f := fun t => match translate id .default t with
      | .err (.syntax (.tokenizer ..)) => some 1
      | .err (.syntax (.parser ..)) => some 2
      | .err (.syntax (.semantics _ es)) => some (10 + es.length)
      | .err (.combiner ..) => some 4
      | _ => none) ht
    rw [bad_rejected] at this
    simp [h] at this

/-- With lines counted from 0 it would be different. -/
example : formatErrorDebug c!"ab" c!"" ⟨⟨1, 0, 2⟩, ⟨1, 0, 2⟩⟩ = .panic := by decide +kernel

end
end Bulloak
