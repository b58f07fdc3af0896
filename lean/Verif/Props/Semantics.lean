import Verif.Lemmas.Semantics
import Verif.Props.Parse
/-!
# C14, C15: semantic analysis
-/

namespace Bulloak
open Spec

section
variable [U : Ucd]

theorem tree_shape {toks : List Token} {ast : Ast} (h : Tree toks ast) : TreeShape ast := by
  obtain ⟨root, hs, kids, rfl, hk, hr, rfl⟩ := h
  exact ⟨_, _, _, rfl, rootItems_shape hr⟩

/-- **C14.** A text that parses into `ast` is accepted exactly when the tree has a branch, every condition
has a child, and the identifiers of the named nodes (all conditions and the top-level actions) differ. -/
theorem C14_accepted_iff {order : HashOrder} (ho : ∀ l, (order l).Perm l) {text : Str} {toks : List Token} {ast : Ast}
    (ht : tokenize text = .ok toks) (hp : parseTokens toks = .ok ast) :
    parseOne order text = .ok ast ↔
      kids ast ≠ [] ∧ (∀ c ∈ conditionsOf (kids ast), kids c ≠ []) ∧ ((named (kids ast)).map identOf).Nodup := by
  obtain ⟨s, n, cs, rfl, hsh⟩ := tree_shape ((parseTokens_iff (tokenize_col ht) ast).1 hp)
  have hperm := analyze_perm ho (span := s) (n := n) hsh
  have h1 : parseOne order text = .ok (.root s n cs) ↔ complaints s cs = [] := by
    constructor
    · intro h
      obtain ⟨toks', ht', hp', ha⟩ := parseOne_ok h
      rw [ha] at hperm
      exact hperm.symm.eq_nil
    · intro h
      rw [h] at hperm
      exact parseOne_of ht hp hperm.eq_nil
  rw [h1]
  simp only [complaints, List.append_eq_nil_iff, dup_nil_iff, kids]
  constructor
  · rintro ⟨⟨h1, h2⟩, h3⟩
    refine ⟨?_, ?_, h3⟩
    · intro hc; rw [if_pos hc] at h1; cases h1
    · intro c hc hk
      rw [List.map_eq_nil_iff, List.filter_eq_nil_iff] at h2
      exact h2 c hc (by simp [hk])
  · rintro ⟨h1, h2, h3⟩
    refine ⟨⟨by rw [if_neg h1], ?_⟩, h3⟩
    rw [List.map_eq_nil_iff, List.filter_eq_nil_iff]
    intro c hc
    simpa using h2 c hc

/-- **C15.** A text that parses but is not meaningful is rejected with exactly the complaints of the
specification (an empty tree, every empty condition, every identifier used more than once with all its
places), in some order; this holds whatever the iteration order of the hash map. -/
theorem C15_all_errors {order : HashOrder} (ho : ∀ l, (order l).Perm l) {text : Str} {toks : List Token}
    {s : Span} {n : Str} {cs : List Ast}
    (ht : tokenize text = .ok toks) (hp : parseTokens toks = .ok (.root s n cs)) :
    (complaints s cs = [] ∧ parseOne order text = .ok (.root s n cs)) ∨
    (complaints s cs ≠ [] ∧ ∃ es, parseOne order text = .err (.semantics text es) ∧ es.Perm (complaints s cs)) := by
  obtain ⟨s', n', cs', he, hsh⟩ := tree_shape ((parseTokens_iff (tokenize_col ht) _).1 hp)
  cases he
  have hperm := analyze_perm ho (span := s) (n := n) hsh
  by_cases hc : complaints s cs = []
  · left
    rw [hc] at hperm
    exact ⟨hc, parseOne_of ht hp hperm.eq_nil⟩
  · right
    refine ⟨hc, analyze order (.root s n cs), ?_, hperm⟩
    simp only [parseOne, ht, hp, Res.mapErr, Res.bind_ok]
    cases ha : analyze order (.root s n cs) with
    | nil => rw [ha] at hperm; exact absurd hperm.symm.eq_nil hc
    | cons e es => rfl

/-- **C15**, order independence: two iteration orders give the same result up to the order of the errors. -/
theorem C15_order_independent {o1 o2 : HashOrder} (h1 : ∀ l, (o1 l).Perm l) (h2 : ∀ l, (o2 l).Perm l) (text : Str) :
    parseOne o1 text = parseOne o2 text ∨
    ∃ es1 es2, parseOne o1 text = .err (.semantics text es1) ∧ parseOne o2 text = .err (.semantics text es2) ∧
      es1.Perm es2 := by
  cases ht : tokenize text with
  | err e => left; simp [parseOne, ht, Res.mapErr]
  | panic => left; simp [parseOne, ht, Res.mapErr]
  | ok toks =>
    cases hp : parseTokens toks with
    | err e => left; simp [parseOne, ht, hp, Res.mapErr]
    | panic => left; simp [parseOne, ht, hp, Res.mapErr]
    | ok ast =>
      obtain ⟨s, n, cs, rfl, hsh⟩ := tree_shape ((parseTokens_iff (tokenize_col ht) ast).1 hp)
      rcases C15_all_errors h1 ht hp with ⟨a, b⟩ | ⟨a, e1, b, c⟩
      · rcases C15_all_errors h2 ht hp with ⟨a', b'⟩ | ⟨a', _⟩
        · left; rw [b, b']
        · exact absurd a a'
      · rcases C15_all_errors h2 ht hp with ⟨a', b'⟩ | ⟨a', e2, b', c'⟩
        · exact absurd a' a
        · right; exact ⟨e1, e2, b, b', c.trans c'.symm⟩

end

/-! ## Non-vacuity -/
section
attribute [local instance] asciiUcd

/-- The parse result of a rejected text together with the complaints of the specification. -/
private def report (text : Str) : Option (List SemError × List SemError) :=
  match tokenize text with
  | .ok toks =>
    match parseTokens toks, parseOne id text with
    | .ok (.root s _ cs), .err (.semantics _ es) => some (es, complaints s cs)
    | _, _ => none
  | _ => none

set_option maxRecDepth 4000 in
/-- A text with an empty condition and an identifier used twice (by a top-level action and, in other
spelling, by another): two complaints. -/
example : (match report c!"Foo\n├── when a-b\n├── it x\n└── it  X'\n" with
    | some (es, cs) => es.length = 2 ∧ es = cs
    | none => False) := by cbv

set_option maxRecDepth 4000 in
example : (match report c!"F\n├ when a\n├ when b\n│ └ it x\n└ when b\n  └ it y" with
    | some (es, cs) => es.length = 2 ∧ es = cs
    | none => False) := by cbv

end
end Bulloak
