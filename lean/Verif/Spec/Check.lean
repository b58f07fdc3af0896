import Verif.Spec.Sol
import Verif.Model.Check
/-! # Specification: what `check` reports -/

namespace Bulloak.Spec
open Bulloak

/-- The kinds of Solidity functions a tree can ask for. -/
def kindOf : SolFnTy → Option FnTy
  | .function => some .function
  | .modifier => some .modifier
  | _ => none

/-- The contract part is the function `f` of the tree: same name, same kind. -/
def Matches (f : HFn) : SolPart → Prop
  | .fn g => g.name = some f.identifier ∧ kindOf g.ty = some f.ty
  | .other .. => False

instance (f : HFn) : (p : SolPart) → Decidable (Matches f p)
  | .fn g => inferInstanceAs (Decidable (g.name = some f.identifier ∧ kindOf g.ty = some f.ty))
  | .other .. => isFalse (fun h => h)

/-- The contract has the function `f`. -/
def Present (parts : List SolPart) (f : HFn) : Prop := ∃ p ∈ parts, Matches f p

/-- The function `f` is at index `i` of the contract (its first occurrence). -/
def At (parts : List SolPart) (f : HFn) (i : Nat) : Prop :=
  (∃ p, parts[i]? = some p ∧ Matches f p) ∧ ∀ j p, j < i → parts[j]? = some p → ¬ Matches f p

/-- `s` is the first contract of the file. -/
def FirstContract (u : SolUnit) (s : SolContract) : Prop :=
  ∃ k rest, u = List.replicate k .other ++ .contract s :: rest

/-- The index of a missing-function violation. -/
def missingIdx : Violation → Option Nat
  | ⟨.matchingFunctionMissing _ i, _⟩ => some i
  | _ => none

/-- The index of an order violation. -/
def orderIdx : Violation → Option Nat
  | ⟨.functionOrderMismatch _ _ i, _⟩ => some i
  | _ => none

/-- The function with index `i` in the tree comes, in the contract, after a function that follows it in the tree. -/
def Misplaced (fns : List HFn) (parts : List SolPart) (i : Nat) : Prop :=
  ∃ f a j g b, fns[i]? = some f ∧ At parts f a ∧ i < j ∧ fns[j]? = some g ∧ At parts g b ∧ b < a

/-- Increasing numbers. -/
def Increasing (l : List Nat) : Prop := l.Pairwise (· < ·)

/-- What a violation says, apart from line numbers and positions in the Solidity file. -/
inductive Said where
  | contractMissing (name : Str)
  | nameDiffers (tree sol : Str)
  | functionMissing (f : HFn) (i : Nat)
  | misplaced (name : Option Str) (ty : SolFnTy) (i : Nat)
  | other (v : ViolationKind)
  deriving DecidableEq

/-- See `Said`. -/
def said (v : Violation) : Said :=
  match v.kind with
  | .contractMissing n => .contractMissing n
  | .contractNameNotMatches a b => .nameDiffers a b
  | .matchingFunctionMissing f i => .functionMissing f i
  | .functionOrderMismatch f _ i => .misplaced f.name f.ty i
  | v => .other v

/-- Two parts with the same name and kind (their place in the file may differ). -/
inductive SamePart : SolPart → SolPart → Prop where
  | fn {ty name a b c d} : SamePart (.fn ⟨ty, name, a, b⟩) (.fn ⟨ty, name, c, d⟩)
  | other {a b c d} : SamePart (.other a b) (.other c d)

/-- `Extends fns ps qs`: `qs` is `ps` with further parts, none of which is a function of the tree. -/
inductive Extends (fns : List HFn) : List SolPart → List SolPart → Prop where
  | nil : Extends fns [] []
  | keep {p q ps qs} : SamePart p q → Extends fns ps qs → Extends fns (p :: ps) (q :: qs)
  | extra {q ps qs} : (∀ f ∈ fns, ¬ Matches f q) → Extends fns ps qs → Extends fns ps (q :: qs)

/-- The contract consists of exactly the functions `fns` in this order. -/
inductive Written : List HFn → List SolPart → Prop where
  | nil : Written [] []
  | cons {f g fs ps} : g.name = some f.identifier → kindOf g.ty = some f.ty → Written fs ps → Written (f :: fs) (.fn g :: ps)

/-- The contract is what the tree asks for: its name, all its functions (with `skip` except modifiers), in its order. -/
def Conforms [U : Ucd] (skip : Bool) (n : Str) (fns : List HFn) (s : SolContract) : Prop :=
  (∀ m, s.name = some m → m = sanitize n) ∧ (∀ f ∈ fns, Present s.parts f ∨ (skip = true ∧ f.ty = .modifier)) ∧
    fns.Pairwise (fun f g => ∀ i j, At s.parts f i → At s.parts g j → i ≤ j)

end Bulloak.Spec
