import Verif.Spec.Lex
import Verif.Spec.Shape
import Verif.Spec.Split
/-! # Specification: drawing abstract trees -/

namespace Bulloak.Spec
open Bulloak

/-- An abstract tree below the root; titles are lists of words. -/
inductive Node where
  | condition (words : List Str) (kids : List Node)
  | action (words : List Str) (descriptions : List (List Str))

/-- A line of a drawing: what precedes the glyph, whether the glyph is `└`, the words. -/
structure Line where
  indent : Str
  last : Bool
  words : List Str

/-- The text of a line. -/
def Line.text (l : Line) : Str :=
  l.indent ++ (if l.last then c!"└" else c!"├") ++ c!"── " ++ joinSep c!" " l.words

/-- The indentation of the lines below a branch. -/
def deeper (indent : Str) (last : Bool) : Str := indent ++ if last then c!"    " else c!"│   "

/-- Drawing of descriptions. -/
def drawDescs (indent : Str) : List (List Str) → List Line
  | [] => []
  | d :: ds => ⟨indent, ds.isEmpty, d⟩ :: drawDescs indent ds

mutual
/-- Drawing of a node. -/
def drawNode (indent : Str) (last : Bool) : Node → List Line
  | .condition ws ks => ⟨indent, last, ws⟩ :: drawNodes (deeper indent last) ks
  | .action ws ds => ⟨indent, last, ws⟩ :: drawDescs (deeper indent last) ds
/-- Drawing of siblings. -/
def drawNodes (indent : Str) : List Node → List Line
  | [] => []
  | n :: ns => drawNode indent ns.isEmpty n ++ drawNodes indent ns
end

/-- The drawing of a tree with root `name`. -/
def draw (name : Str) (nodes : List Node) : Str :=
  name ++ (drawNodes [] nodes).flatMap (fun l => '\n' :: l.text)

/-- A word: non-empty, without white space, not starting like a drawing character or a comment. -/
def IsWord (w : Str) : Prop :=
  ∃ c s, w = c :: s ∧ c ≠ '─' ∧ c ≠ '│' ∧ c ≠ '├' ∧ c ≠ '└' ∧ ¬ (c = '/' ∧ ∃ s', s = '/' :: s') ∧
    ∀ d ∈ w, isWs d = false

/-- Not one of the three keywords. -/
def PlainWord (w : Str) : Prop := IsWord w ∧ ¬ IsKeyword c!"when" w ∧ ¬ IsKeyword c!"given" w ∧ ¬ IsKeyword c!"it" w

/-- A description: words, the first of which is not a keyword. -/
def LegalDescription (d : List Str) : Prop := ∃ w ws, d = w :: ws ∧ PlainWord w ∧ ∀ x ∈ ws, IsWord x

variable [U : Ucd]

/-- Legal nodes: conditions start with when/given, have a further word and use title characters only;
actions start with `it`. -/
inductive Legal : Node → Prop where
  | condition {w ws ks} : IsConditionWord w → ws ≠ [] → (∀ x ∈ w :: ws, IsWord x ∧ ∀ c ∈ x, TitleChar c) →
      (∀ k ∈ ks, Legal k) → Legal (.condition (w :: ws) ks)
  | action {w ws ds} : IsKeyword c!"it" w → (∀ x ∈ w :: ws, IsWord x) → (∀ d ∈ ds, LegalDescription d) →
      Legal (.action (w :: ws) ds)

/-- The AST is the given node: same kind, title and children. -/
inductive Reads : Node → Ast → Prop where
  | condition {ws ks s asts} : Each Reads ks asts →
      Reads (.condition ws ks) (.condition s (sanitize (joinSep c!" " ws)) asts)
  | action {ws ds s asts} :
      Each (fun d a => ∃ s, a = Ast.description s (c!"    " ++ joinSep c!" " d)) ds asts →
      Reads (.action ws ds) (.action s (joinSep c!" " ws) asts)

end Bulloak.Spec

namespace Bulloak.Spec
open Bulloak
section
variable [U : Ucd]

/-- The identifier of a title. -/
def wordsIdent (ws : List Str) : Str := lowerFirst (toPascal (sanitize (joinSep c!" " ws)))

mutual
/-- The identifiers of the conditions of a node, in pre-order. -/
def condIdents : Node → List Str
  | .condition ws ks => wordsIdent ws :: condsIdents ks
  | .action .. => []
/-- The identifiers of the conditions of siblings. -/
def condsIdents : List Node → List Str
  | [] => []
  | n :: ns => condIdents n ++ condsIdents ns
end

/-- The identifiers of all conditions and of the top-level actions. -/
def allIdents (ns : List Node) : List Str :=
  ns.flatMap (fun n => match n with
    | .action ws _ => [wordsIdent ws]
    | .condition ws ks => wordsIdent ws :: condsIdents ks)

/-- Every condition has a child. -/
inductive Filled : Node → Prop where
  | condition {ws ks} : ks ≠ [] → (∀ k ∈ ks, Filled k) → Filled (.condition ws ks)
  | action {ws ds} : Filled (.action ws ds)

/-- A tree bulloak accepts: legal titles, at least one branch, no empty condition, no repeated identifier. -/
structure Accepted (name : Str) (ns : List Node) : Prop where
  name : PlainWord name
  legal : ∀ n ∈ ns, Legal n
  nonempty : ns ≠ []
  filled : ∀ n ∈ ns, Filled n
  distinct : (allIdents ns).Nodup

/-- `F text trees`: the text consists of the drawings of the trees, separated by white space that contains
an empty line. -/
inductive DrawnFile : Str → List (Str × List Node) → Prop where
  | last {p t q} : Blank p → Blank q → DrawnFile (p ++ draw t.1 t.2 ++ q) [t]
  | cons {p t s rest ts} : Blank p → Blank s → c!"\n\n" <:+: s → DrawnFile rest ts →
      DrawnFile (p ++ draw t.1 t.2 ++ s ++ rest) (t :: ts)

end
end Bulloak.Spec
