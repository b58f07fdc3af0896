import Verif.Spec.Combine
import Verif.Model.Sol
/-! # Specification: the generated Solidity text (before `forge fmt`) -/

namespace Bulloak.Spec
open Bulloak

/-- A line of a test. -/
def solItem : BodyItem → Str
  | .comment t => c!"// " ++ t ++ c!"\n"
  | .vmSkip => c!"vm.skip(true);\n"

/-- A function or modifier. -/
def solFn (f : HFn) : Str :=
  match f.ty with
  | .modifier => c!"modifier " ++ f.identifier ++ c!"() {\n_;\n}"
  | .function => c!"function " ++ f.identifier ++ c!"() external " ++ (f.modifiers.getD []).flatMap (fun m => m ++ c!" ") ++
      c!"{\n" ++ (f.children.getD []).flatMap solItem ++ c!"}"

/-- Texts separated by empty lines. -/
def stanzas : List Str → Str
  | [] => []
  | [x] => x
  | x :: xs => x ++ c!"\n\n" ++ stanzas xs

/-- A whole file: licence, pragma, with `skip` the import of `Test` and the inheritance, the contract. -/
def solFile (version : Str) (skip : Bool) (name : Str) (fns : List HFn) : Str :=
  c!"// SPDX-License-Identifier: UNLICENSED\npragma solidity " ++ version ++ c!";\n" ++
  (if skip then c!"import {Test} from \"forge-std/Test.sol\";\n" else []) ++
  c!"contract " ++ name ++ c!" " ++ (if skip then c!"is Test " else []) ++ c!"{" ++ stanzas (fns.map solFn) ++ c!"}"

/-- The test with a `vm.skip(true)` at its end; modifiers stay the same. -/
def addSkip (f : HFn) : HFn :=
  match f.ty with
  | .function => { f with children := some (f.children.getD [] ++ [.vmSkip]) }
  | .modifier => f

/-- No white space. -/
def NoWs (s : Str) : Prop := ∀ c ∈ s, isWs c = false

/-- The text without white space. -/
def squeeze (s : Str) : Str := s.filter (fun c => !isWs c)

end Bulloak.Spec
