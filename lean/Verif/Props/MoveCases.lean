import Verif.Props.Move
import Verif.Props.ReworkCases
/-! # Moving code in the Solidity file: concrete cases meeting the hypotheses -/

namespace Bulloak
open Spec

attribute [local instance] asciiUcd

/-- `fileFlat` with the modifier and its test moved to the end, and the variable to the front. -/
private def fileMoved : Layout := ⟨[], some c!"T", c!"contract T ", c!"\n",
  [(.other c!"uint x;", c!"\n"), (fnSeg c!"test_WhenP" c!"a();", c!"\n"), (fnSeg c!"test_C" c!"", c!"\n"), (fnSeg c!"test_WhenY" c!"", c!"\n"), (fnSeg c!"test_WhenZ" c!"", c!"\n"),
    (.fn .modifier (some c!"whenQ") c!"modifier whenQ() { _; }", c!"\n"), (fnSeg c!"test_WhenQ" c!"b();", c!"\n")], c!"\n"⟩

set_option maxRecDepth 16000 in
private theorem moved_ours : oursOf (treeOf treeFlat).children fileMoved.parts = [some (some c!"test_WhenP", .function), some (some c!"test_C", .function), some (some c!"test_WhenY", .function),
    some (some c!"test_WhenZ", .function), some (some c!"whenQ", .modifier), some (some c!"test_WhenQ", .function)] := by cbv

set_option maxRecDepth 16000 in
/-- What is misplaced. -/
private theorem moved_report : (match checkCtx (caseOf treeFlat fileMoved false) with
    | .ok vs => vs.map (fun v => match v.kind with
      | .functionOrderMismatch g _ _ => some (String.ofList (g.name.getD []))
      | _ => none)
    | _ => []) = [some "whenQ", some "test_WhenQ"] := by cbv

/-- The tree file, and a Solidity file. -/
private def deskMove (L : Layout) : Fs :=
  ⟨fun p => if p = ⟨[], c!"a.tree"⟩ then .text treeFlat else if p = ⟨[], c!"a.t.sol"⟩ then .text L.text else .absent, fun _ => true⟩

private def envMove : Env :=
  ⟨some, fun s => if s = fileFlat.text then some [.contract fileFlat.contract] else if s = fileMoved.text then some [.contract fileMoved.contract] else none, fun c => some c.src, id⟩

private def argsMove : CheckArgs := ⟨[⟨[], c!"a.tree"⟩], false, false, false⟩

private theorem move_sol : SolOf ⟨[], c!"a.tree"⟩ ⟨[], c!"a.t.sol"⟩ := (solOf_iff _ _).2 (by decide +kernel)

section
attribute [local irreducible] treeOf

private theorem moved_moved : Moved (treeOf treeFlat).children fileFlat.contract fileMoved.contract := by
  refine ⟨rfl, ?_⟩
  rw [← oursOf_eq, ← oursOf_eq]
  rw [show oursOf (treeOf treeFlat).children fileMoved.contract.parts = _ from moved_ours, show oursOf (treeOf treeFlat).children fileFlat.contract.parts = _ from flat_ours]
  decide +kernel

private theorem moved_differs : Ours (treeOf treeFlat).children fileMoved.contract.parts ≠ Ours (treeOf treeFlat).children fileFlat.contract.parts := by
  rw [← oursOf_eq, ← oursOf_eq]
  rw [show oursOf (treeOf treeFlat).children fileMoved.contract.parts = _ from moved_ours, show oursOf (treeOf treeFlat).children fileFlat.contract.parts = _ from flat_ours]
  decide +kernel

/-- C138: the move is noticed. -/
example : checkCtx { caseOf treeFlat fileFlat false with src := fileMoved.text, pt := [.contract fileMoved.contract] } ≠ .ok [] := fun h =>
  moved_differs ((C138_silent_iff (ctx := caseOf treeFlat fileFlat false) (src := fileMoved.text) (u := [.contract fileMoved.contract]) (caseOf_hir _ _ _) (flat_check false) (s := fileFlat.contract)
    (s' := fileMoved.contract) ⟨0, [], rfl⟩ ⟨0, [], rfl⟩ moved_moved (noTwiceOf_noTwice flat_once)).1 h)

/-- C138: misplaced functions are all that is reported. -/
example (vs : List Violation) (hv : checkCtx { caseOf treeFlat fileFlat false with src := fileMoved.text, pt := [.contract fileMoved.contract] } = .ok vs) :
    ∀ v ∈ vs, ∃ g a i, v.kind = .functionOrderMismatch g a i :=
  (C138_report (ctx := caseOf treeFlat fileFlat false) (src := fileMoved.text) (u := [.contract fileMoved.contract]) (caseOf_hir _ _ _) (flat_check false) (s := fileFlat.contract)
    (s' := fileMoved.contract) ⟨0, [], rfl⟩ ⟨0, [], rfl⟩ moved_moved hv).1

/-- C138: `check` succeeds before, and not after. -/
example : (checkRun envMove argsMove (deskMove fileFlat)).exit = .code 0 ∧ (checkRun envMove argsMove (deskMove fileMoved)).exit ≠ .code 0 := by
  haveI := lawful_ascii
  have hne : fileMoved.text ≠ fileFlat.text := by decide +kernel
  have hu : envMove.solParse fileFlat.text = some [.contract fileFlat.contract] := by simp [envMove]
  have hu' : envMove.solParse fileMoved.text = some [.contract fileMoved.contract] := by simp [envMove, hne]
  have hsol : ∀ L, (deskMove L).state ⟨[], c!"a.t.sol"⟩ = .text L.text := fun _ => by simp [deskMove]
  have htree : ∀ L, (deskMove L).state ⟨[], c!"a.tree"⟩ = .text treeFlat := fun _ => by simp [deskMove]
  have hpass : (checkRun envMove argsMove (deskMove fileFlat)).exit = .code 0 := by
    have ho : Opens envMove false (deskMove fileFlat) ⟨[], c!"a.tree"⟩ (caseOf treeFlat fileFlat false) :=
      ⟨treeFlat, _, _, fileFlat.text, _, htree _, flat_translate, move_sol, hsol _, hu, rfl⟩
    rcases C51_exit (env := envMove) (a := argsMove) (fs := deskMove fileFlat) rfl with ⟨h, _⟩ | ⟨_, _, t, hm, h⟩ | ⟨_, t, hm, ctx, h1, h2⟩
    · exact h
    · rw [List.mem_singleton.1 hm] at h
      exact absurd (flat_check false) (h _ ho)
    · rw [List.mem_singleton.1 hm] at h1
      rw [opens_unique h1 ho, flat_check false] at h2
      cases h2
  exact ⟨hpass, fun h => moved_differs ((C138_exit (env := envMove) (a := argsMove) (fs := deskMove fileFlat) rfl (List.mem_singleton.2 rfl) move_sol (fun t ht => by rw [List.mem_singleton.1 ht, htree, htree])
    (fun t ht hne => absurd (List.mem_singleton.1 ht) hne) (htree _) (n := (treeOf treeFlat).identifier) (fns := (treeOf treeFlat).children) flat_translate (hsol _) (hsol _) hu hu' ⟨0, [], rfl⟩ ⟨0, [], rfl⟩
    moved_moved (noTwiceOf_noTwice flat_once) hpass).1 h)⟩

end
end Bulloak
