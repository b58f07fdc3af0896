import Verif.Spec.Check
/-!
# Specification: what `check --fix` does to a Solidity file

A `Layout` is a Solidity source cut into pieces around its first contract.  It determines both the text of the
file and what a parser that reports correct byte ranges says about that contract.
-/

namespace Bulloak.Spec
open Bulloak

/-- A part of a contract with its text. -/
inductive Seg where
  | fn (ty : SolFnTy) (name : Option Str) (text : Str)
  | other (text : Str)
  deriving DecidableEq, Repr

/-- The text of a part. -/
def Seg.text : Seg → Str
  | .fn _ _ t => t
  | .other t => t

/-- What the parser reports about a part that starts at byte `o`. -/
def Seg.at (o : Nat) : Seg → SolPart
  | .fn ty name t => .fn ⟨ty, name, o, o + byteLen t⟩
  | .other t => .other o (o + byteLen t)

/-- A Solidity source around its first contract:
`before header { lead part gap part gap ... part gap } rest`. -/
structure Layout where
  /-- everything before the contract -/
  before : Str
  /-- the name of the contract -/
  name : Option Str
  /-- from the keyword to the opening brace, without the brace -/
  header : Str
  /-- between the opening brace and the first part -/
  lead : Str
  /-- the parts, each with the text that follows it up to the next part or the closing brace -/
  segs : List (Seg × Str)
  /-- everything after the closing brace -/
  rest : Str
  deriving DecidableEq, Repr

/-- The text of the parts and gaps. -/
def segsText (l : List (Seg × Str)) : Str := l.flatMap (fun p => p.1.text ++ p.2)

/-- The text up to the first part. -/
def Layout.front (L : Layout) : Str := L.before ++ (L.header ++ '{' :: L.lead)

/-- The text of the file. -/
def Layout.text (L : Layout) : Str := L.front ++ (segsText L.segs ++ '}' :: L.rest)

/-- What the parser reports about the parts, the first of which starts at byte `o`. -/
def partsFrom : Nat → List (Seg × Str) → List SolPart
  | _, [] => []
  | o, (s, g) :: r => s.at o :: partsFrom (o + byteLen s.text + byteLen g) r

/-- The parts of the contract. -/
def Layout.parts (L : Layout) : List SolPart := partsFrom (byteLen L.front) L.segs

/-- What the parser reports about the contract. -/
def Layout.contract (L : Layout) : SolContract :=
  ⟨L.name, byteLen L.before, byteLen L.front + byteLen (segsText L.segs) + 1, L.parts⟩

/-- The parser reads the layout correctly. -/
def ReadsAs (P : SolParser) (L : Layout) : Prop := ∃ u, P L.text = some u ∧ FirstContract u L.contract

/-- The Solidity kind of a function of the tree. -/
def solTy : FnTy → SolFnTy
  | .function => .function
  | .modifier => .modifier

/-- The part `check --fix` writes for a function (see `C36` for its text). -/
def newSeg (f : HFn) : Seg := .fn (solTy f.ty) (some f.identifier) (trim (emitFunction f))

/-- Inserts a part, on a new paragraph, after the part with index `k`. -/
def insertAfter (f : HFn) : Nat → List (Seg × Str) → List (Seg × Str)
  | _, [] => []
  | 0, (s, g) :: r => (s, c!"\n\n  ") :: (newSeg f, g) :: r
  | k + 1, x :: r => x :: insertAfter f k r

/-- Inserts a part so that it gets index `k`. -/
def Layout.insert (L : Layout) (f : HFn) : Nat → Layout
  | 0 => { L with lead := c!"\n\n  ", segs := (newSeg f, L.lead) :: L.segs }
  | k + 1 => { L with segs := insertAfter f k L.segs }

/-- The functions of the tree have pairwise different names or kinds. -/
def Distinct (fns : List HFn) : Prop := fns.Pairwise (fun f g => ¬ (f.identifier = g.identifier ∧ f.ty = g.ty))

/-- The functions of the tree that are in the contract come in the order of the tree. -/
def InOrder (fns : List HFn) (parts : List SolPart) : Prop :=
  fns.Pairwise (fun f g => ∀ i j, At parts f i → At parts g j → i ≤ j)

/-- The function is missing, and not a modifier ignored because of `-m`. -/
def Reported (skip : Bool) (L : Layout) (f : HFn) : Prop :=
  ¬ Present L.parts f ∧ ¬ (skip = true ∧ f.ty = .modifier)

instance (parts : List SolPart) (f : HFn) : Decidable (Present parts f) :=
  inferInstanceAs (Decidable (∃ p ∈ parts, Matches f p))

instance (skip : Bool) (L : Layout) (f : HFn) : Decidable (Reported skip L f) :=
  inferInstanceAs (Decidable (¬ Present L.parts f ∧ ¬ (skip = true ∧ f.ty = .modifier)))

/-- Where `check --fix` puts the function with index `k`: first, or directly behind its predecessor. -/
def Place (fns : List HFn) (L : Layout) (k p : Nat) : Prop :=
  (k = 0 ∧ p = 0) ∨ ∃ i g a, k = i + 1 ∧ fns[i]? = some g ∧ At L.parts g a ∧ p = a + 1

/-- The layouts the file goes through while the missing functions are inserted: `k` functions of the tree are done. -/
inductive Filling (skip : Bool) (fns : List HFn) (L : Layout) : Nat → Layout → Prop where
  | start : Filling skip fns L 0 L
  | insert {k L' f p} : Filling skip fns L k L' → fns[k]? = some f → Reported skip L f → Place fns L' k p →
      Filling skip fns L (k + 1) (L'.insert f p)
  | keep {k L' f} : Filling skip fns L k L' → fns[k]? = some f → ¬ Reported skip L f → Filling skip fns L (k + 1) L'

/-- No three functions come in reversed order. -/
def NoReversedTriple (fns : List HFn) (parts : List SolPart) : Prop :=
  ∀ (i j k : Nat) f g h a b c, i < j → j < k → fns[i]? = some f → fns[j]? = some g → fns[k]? = some h →
    At parts f a → At parts g b → At parts h c → ¬ (c < b ∧ b < a)

/-- What filling in the missing functions does to a file. -/
structure Completed (skip : Bool) (fns : List HFn) (L L' : Layout) : Prop where
  /-- the text outside of the contract's body stays -/
  same : L'.before = L.before ∧ L'.name = L.name ∧ L'.header = L.header ∧ L'.rest = L.rest
  /-- all text is kept, in order -/
  text : L.text.Sublist L'.text
  /-- all parts are kept, in order -/
  kept : (L.segs.map Prod.fst).Sublist (L'.segs.map Prod.fst)
  /-- nothing but the missing functions is added -/
  only : (L'.segs.map Prod.fst).Perm (L.segs.map Prod.fst ++ (fns.filter (fun f => decide (Reported skip L f))).map newSeg)
  /-- every function is there -/
  present : ∀ f ∈ fns, Present L'.parts f ∨ (skip = true ∧ f.ty = .modifier)
  /-- each missing function is directly behind its predecessor, or first -/
  placed : Distinct fns → ∀ i f, fns[i]? = some f → Reported skip L f →
    (i = 0 → At L'.parts f 0) ∧ ∀ j g, i = j + 1 → fns[j]? = some g → ∃ a, At L'.parts g a ∧ At L'.parts f (a + 1)
  /-- functions in tree order stay in tree order -/
  order : Distinct fns → InOrder fns L.parts → InOrder fns L'.parts
  /-- no reversed triples appear -/
  triple : Distinct fns → NoReversedTriple fns L.parts → NoReversedTriple fns L'.parts

/-- `t` occurs in `x ++ t ++ y` only behind `x`. -/
def Once (x t y : Str) : Prop := ∀ a b, x ++ (t ++ y) = a ++ (t ++ b) → a = x

/-- `L'` is `L` with the contract called `new`: the same if it has that name (or none) already, else with the old name,
which must be preceded by `contract ` there and nowhere else in the file, replaced. -/
inductive Renamed (new : Str) (L : Layout) : Layout → Prop where
  | same : (∀ m, L.name = some m → m = new) → Renamed new L L
  | other {old pre post} : L.name = some old → old ≠ new → L.header = pre ++ (c!"contract " ++ old ++ post) →
      Once (L.before ++ pre) (c!"contract " ++ old) (post ++ '{' :: (L.lead ++ (segsText L.segs ++ '}' :: L.rest))) →
      Renamed new L { L with name := some new, header := pre ++ (c!"contract " ++ new ++ post) }

/-! ## Reordering -/

/-- The text of the parts and gaps with the parts chosen by `B` replaced by spaces; `k` is the index of the first one. -/
def blanked (B : Nat → Bool) : Nat → List (Seg × Str) → Str
  | _, [] => []
  | k, (s, g) :: r => (if B k then spaces (byteLen s.text) else s.text) ++ (g ++ blanked B (k + 1) r)

/-- However some of the parts are blanked out, the text of each remaining part occurs only once. -/
def Separate (L : Layout) : Prop :=
  ∀ B pre s g post, L.segs = pre ++ (s, g) :: post →
    s.text ≠ [] ∧ Once (L.front ++ blanked B 0 pre) s.text (g ++ (blanked B (pre.length + 1) post ++ '}' :: L.rest))

/-- Parts separated by empty lines, the last one followed by `m`. -/
def withGaps (m : Str) : List Seg → List (Seg × Str)
  | [] => []
  | [s] => [(s, m)]
  | s :: r => (s, c!"\n\n") :: withGaps m r

/-- The file with the parts in a different order; what was between the parts follows, with spaces for the parts. -/
def Layout.reordered (L : Layout) (ss : List Seg) : Layout :=
  { L with segs := withGaps (blanked (fun _ => true) 0 L.segs) ss }

/-- The part is the function `f` of the tree. -/
def Seg.Is (f : HFn) : Seg → Prop
  | .fn ty name _ => name = some f.identifier ∧ kindOf ty = some f.ty
  | .other _ => False

/-- A contract with only functions of the tree, none twice. -/
structure OnlyTree (fns : List HFn) (L : Layout) : Prop where
  own : ∀ s ∈ L.segs.map Prod.fst, ∃ f ∈ fns, s.Is f
  once : (L.segs.map Prod.fst).Pairwise (fun s t => ∀ f, s.Is f → ¬ t.Is f)

end Bulloak.Spec
