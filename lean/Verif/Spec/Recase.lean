import Verif.Spec.Lex
/-! # Specification: keywords in upper and lower case -/

namespace Bulloak.Spec
open Bulloak

/-- The keywords of trees. -/
def treeKeywords : List Str := [c!"when", c!"given", c!"it"]

/-- The same keyword, written alike except perhaps for the case of its first letter. -/
def FirstLetter (w w' : Str) : Prop := ∃ k ∈ treeKeywords, IsKeyword k w ∧ IsKeyword k w' ∧ w.tail = w'.tail

/-- The same keyword in upper or lower case: any mixture for `it`, and the first letter of `when` and `given`. -/
def AnyIt (w w' : Str) : Prop := FirstLetter w w' ∨ (IsKeyword c!"it" w ∧ IsKeyword c!"it" w')

/-- The same keyword, in any mixture of upper and lower case. -/
def AnyCase (w w' : Str) : Prop := ∃ k ∈ treeKeywords, IsKeyword k w ∧ IsKeyword k w'

/-- `Recased K after ps ps'`: the same pieces, except that the first word behind a branch glyph may be respelled as `K` allows; `after` tells whether a word
would be the first one behind a glyph. -/
inductive Recased (K : Str → Str → Prop) : Bool → List Piece → List Piece → Prop where
  | nil {a} : Recased K a [] []
  | gap {a p ps ps'} : p.isGap = true → Recased K a ps ps' → Recased K a (p :: ps) (p :: ps')
  | glyph {a p ps ps'} : p.isBranch = true → Recased K true ps ps' → Recased K a (p :: ps) (p :: ps')
  | word {a w ps ps'} : Recased K false ps ps' → Recased K a (.word w :: ps) (.word w :: ps')
  | keyword {w w' ps ps'} : K w w' → Recased K false ps ps' → Recased K true (.word w :: ps) (.word w' :: ps')

/-- Two trees that differ only in the spelling of the keywords behind the branch glyphs. -/
def RecasedText (K : Str → Str → Prop) (b b' : Str) : Prop := ∃ ps ps', Lexes b ps ∧ Lexes b' ps' ∧ Recased K false ps ps'

end Bulloak.Spec
