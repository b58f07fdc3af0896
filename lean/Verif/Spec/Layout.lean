import Verif.Spec.Lex
import Verif.Spec.Hir
import Verif.Spec.Split
/-! # Specification: texts that differ in layout only -/

namespace Bulloak.Spec
open Bulloak

/-- A glyph or word as seen by a reader: whether a line break, tab or comment separates it from the glyph or word
before it (or it is the first), and its column. -/
structure Seen where
  fresh : Bool
  piece : Piece
  col : Nat
  deriving DecidableEq, Repr

/-- The glyphs and words of a text, after the text `pre`. -/
def reading (pre : Str) (fresh : Bool) : List Piece → List Seen
  | [] => []
  | .skip c :: ps => reading (pre ++ [c]) fresh ps
  | .brk c :: ps => reading (pre ++ [c]) true ps
  | .comment s :: ps => reading (pre ++ (c!"//" ++ s)) true ps
  | .tee :: ps => ⟨fresh, .tee, (posOf pre).column⟩ :: reading (pre ++ c!"├") false ps
  | .corner :: ps => ⟨fresh, .corner, (posOf pre).column⟩ :: reading (pre ++ c!"└") false ps
  | .word w :: ps => ⟨fresh, .word w, (posOf pre).column⟩ :: reading (pre ++ w) false ps

/-- The two texts read the same, and their branch glyphs are in the same columns. -/
def SameColumns (b b' : Str) : Prop :=
  ∃ ps ps', Lexes b ps ∧ Lexes b' ps' ∧
    (reading [] true ps).map (fun x => (x.fresh, x.piece)) = (reading [] true ps').map (fun x => (x.fresh, x.piece)) ∧
    ∀ p ∈ (reading [] true ps).zip (reading [] true ps'), p.1.piece.isBranch = true → p.1.col = p.2.col

/-- The two texts read the same, and their branch glyphs are indented alike: of two glyphs, one is further left than
the other in both texts or in none. -/
def SameIndent (b b' : Str) : Prop :=
  ∃ ps ps', Lexes b ps ∧ Lexes b' ps' ∧
    (reading [] true ps).map (fun x => (x.fresh, x.piece)) = (reading [] true ps').map (fun x => (x.fresh, x.piece)) ∧
    ∀ p ∈ (reading [] true ps).zip (reading [] true ps'), ∀ q ∈ (reading [] true ps).zip (reading [] true ps'),
      p.1.piece.isBranch = true → q.1.piece.isBranch = true → (p.1.col < q.1.col ↔ p.2.col < q.2.col)

open Classical in
/-- The trees of a text: its blocks that do not consist of comments only (one empty tree if the text is blank). -/
def Trees (text : Str) (bs : List Str) : Prop :=
  (Blank text ∧ bs = [[]]) ∨ ∃ all, Blocks text all ∧ bs = all.filter (fun b => ¬ OnlyComments b)

/-- The text with Windows line endings. -/
def crlf (text : Str) : Str := text.flatMap (fun c => if c = '\n' then c!"\r\n" else [c])

/-- The text without its empty lines: of consecutive line feeds, only the last is kept. -/
def noEmptyLines : Str → Str
  | [] => []
  | c :: r => if c = '\n' ∧ r.head? = some '\n' then noEmptyLines r else c :: noEmptyLines r

/-- Kind and text of a token, without its place. -/
def tokWord (t : Token) : TokenKind × Str := (t.kind, t.lexeme)

/-- The column where a token starts. -/
def tokCol (t : Token) : Nat := t.span.start.column

mutual
/-- The tree without places, its descriptions changed by `D`. -/
def shape (D : Str → Str) : Ast → Ast
  | .root _ t cs => .root Span.default t (shapeAll D cs)
  | .condition _ t cs => .condition Span.default t (shapeAll D cs)
  | .action _ t cs => .action Span.default t (shapeAll D cs)
  | .description _ t => .description Span.default (D t)
/-- The same for siblings. -/
def shapeAll (D : Str → Str) : List Ast → List Ast
  | [] => []
  | a :: as => shape D a :: shapeAll D as
end

/-- A body item, its text changed by `D`. -/
def lookItem (D : Str → Str) : BodyItem → BodyItem
  | .comment t => .comment (D t)
  | .vmSkip => .vmSkip

/-- A function without its place, its comments changed by `D`. -/
def look (D : Str → Str) (f : HFn) : HFn :=
  ⟨f.identifier, f.ty, Span.default, f.modifiers, f.children.map (fun l => l.map (lookItem D))⟩

end Bulloak.Spec
