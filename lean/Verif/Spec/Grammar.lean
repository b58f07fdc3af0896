import Verif.Model.Parser
/-!
# Specification: the grammar of trees over tokens

A tree is a root word followed by *headers*; a header is a branch glyph followed by a non-empty run of
words.  Which header is nested in which is determined by the columns of the glyphs.
-/

namespace Bulloak.Spec
open Bulloak

/-- One line of a tree: branch glyph, first word, further words. -/
structure Header where
  glyph : Token
  first : Token
  more : List Token

namespace Header

/-- The tokens of a header. -/
def toks (h : Header) : List Token := h.glyph :: h.first :: h.more

/-- The words of a header. -/
def words (h : Header) : List Token := h.first :: h.more

/-- A header consists of a glyph followed by words only. -/
def Ok (h : Header) : Prop := h.glyph.kind.isBranch = true ∧ ∀ t ∈ h.words, t.kind.isWordLike = true

/-- The indentation of a header. -/
def col (h : Header) : Nat := h.glyph.span.start.column

/-- The text of a header: its words joined by single spaces. -/
def title (h : Header) : Str := joinSep c!" " (h.words.map (·.lexeme))

/-- Where the last word of the header ends. -/
def endPos (h : Header) : Position := ((h.words.getLast?).map (·.span.stop)).getD h.glyph.span.stop

/-- The header opens a condition. -/
def isCondition (h : Header) : Prop := h.first.kind = .when ∨ h.first.kind = .given

/-- The header opens an action. -/
def isAction (h : Header) : Prop := h.first.kind = .it

end Header

/-- The tokens of a list of headers. -/
def flat (hs : List Header) : List Token := hs.flatMap Header.toks

/-- The span of the node opened by `h` whose nested headers are `sub`. -/
def nodeSpan (h : Header) (sub : List Header) : Span :=
  ⟨h.glyph.span.start, ((sub.getLast?).map Header.endPos).getD h.endPos⟩

/-- The description node of header `d` below action header `h`. -/
def descAst (h d : Header) : Ast :=
  .description ⟨d.glyph.span.start, d.endPos⟩ (spaces (d.col - h.col) ++ d.title)

/-- The first header of `rest` (if any) is not indented deeper than column `c`. -/
def Ends (c : Nat) (rest : List Header) : Prop := ∀ d r, rest = d :: r → d.col ≤ c

variable [U : Ucd]

/-- `Items c hs asts`: the headers `hs` are the complete contents of a parent at column `c` and stand for
the nodes `asts`. -/
inductive Items : Nat → List Header → List Ast → Prop where
  | nil {c} : Items c [] []
  | condition {c h sub kids rest asts} : h.Ok → c < h.col → h.isCondition → h.more ≠ [] →
      Items h.col sub kids → Ends h.col rest → Items c rest asts →
      Items c (h :: (sub ++ rest)) (.condition (nodeSpan h sub) (sanitize h.title) kids :: asts)
  | action {c h sub rest asts} : h.Ok → c < h.col → h.isAction →
      (∀ d ∈ sub, d.Ok ∧ h.col < d.col ∧ d.first.kind = .word) → Ends h.col rest → Items c rest asts →
      Items c (h :: (sub ++ rest)) (.action (nodeSpan h sub) h.title (sub.map (descAst h)) :: asts)

/-- The headers that are children of the root: those whose contents end right before the next one. -/
inductive RootItems : List Header → List Ast → Prop where
  | nil : RootItems [] []
  | item {h sub rest ast asts} : Items 0 (h :: sub) [ast] → Ends h.col rest →
      (h.glyph.kind = .tee ↔ rest ≠ []) → RootItems rest asts → RootItems (h :: (sub ++ rest)) (ast :: asts)

/-- The accepted token sequences with their trees. -/
def Tree (tokens : List Token) (ast : Ast) : Prop :=
  ∃ root hs kids, tokens = root :: flat hs ∧ root.kind = .word ∧ RootItems hs kids ∧
    ast = .root ⟨root.span.start, ((hs.getLast?).map Header.endPos).getD root.span.stop⟩ root.lexeme kids

end Bulloak.Spec
