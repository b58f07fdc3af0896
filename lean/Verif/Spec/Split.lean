import Verif.Model.Unicode
/-! # Specification: the blocks of a `.tree` file -/

namespace Bulloak.Spec
open Bulloak

/-- A string of white space. -/
def Blank (s : Str) : Prop := ∀ c ∈ s, isWs c = true

/-- A block: non-empty, begins and ends with a character that is not white space, contains no empty line
(no two consecutive line feeds). -/
structure Block (b : Str) : Prop where
  first : ∃ c r, b = c :: r ∧ isWs c = false
  last : ∃ r c, b = r ++ [c] ∧ isWs c = false
  solid : ¬ c!"\n\n" <:+: b

/-- `Blocks text bs`: the text consists of the blocks `bs`, separated by white space containing an empty
line, and possibly surrounded by white space. -/
inductive Blocks : Str → List Str → Prop where
  | last {p b q} : Blank p → Block b → Blank q → Blocks (p ++ b ++ q) [b]
  | cons {p b s rest bs} : Blank p → Block b → Blank s → c!"\n\n" <:+: s → Blocks rest bs →
      Blocks (p ++ b ++ s ++ rest) (b :: bs)

/-- `l` is a line of `text`. -/
def LineOf (text l : Str) : Prop :=
  '\n' ∉ l ∧ ∃ before after, text = before ++ l ++ after ∧
    (before = [] ∨ ∃ x, before = x ++ c!"\n") ∧ (after = [] ∨ ∃ x, after = c!"\n" ++ x)

/-- Every line of the text is a comment. -/
def OnlyComments (text : Str) : Prop := ∀ l, LineOf text l → ∃ w r, l = w ++ c!"//" ++ r ∧ Blank w

/-- `b` is the block of the text that starts after `x`. -/
def BlockAt (text x b : Str) : Prop :=
  Block b ∧ ∃ y, text = x ++ b ++ y ∧
    (Blank x ∨ ∃ x' s, x = x' ++ s ∧ Blank s ∧ c!"\n\n" <:+: s) ∧
    (Blank y ∨ ∃ s y', y = s ++ y' ∧ Blank s ∧ c!"\n\n" <:+: s)

end Bulloak.Spec
