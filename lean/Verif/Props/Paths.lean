import Verif.Props.Main
import Verif.Props.SplitRuns
/-!
# Which files belong together (C116)
-/

namespace Bulloak
open Spec
set_option linter.unusedSectionVars false

/-- A file with the extension `tree`. -/
def Spec.TreeNamed (t : FPath) : Prop := ∃ stem, stem ≠ [] ∧ t.name = stem ++ c!".tree"

/-- The name of the Solidity file of `stem.tree`. -/
theorem sol_of_tree {t p : FPath} {stem : Str} (h : t.name = stem ++ c!".tree") (h0 : stem ≠ []) : SolOf t p ↔ p = ⟨t.dir, stem ++ c!".t.sol"⟩ := by
  have h1 : SolOf t ⟨t.dir, stem ++ c!".t.sol"⟩ := ⟨rfl, stem, rfl, .inl ⟨h0, c!"tree", by decide, h⟩⟩
  rw [solOf_iff] at h1 ⊢
  rw [h1]

/-- The Solidity file of the file `.tree`. -/
theorem sol_of_dot {t p : FPath} (h : t.name = c!".tree") : SolOf t p ↔ p = ⟨t.dir, c!".tree.t.sol"⟩ := by
  have h1 : SolOf t ⟨t.dir, c!".tree.t.sol"⟩ := ⟨rfl, c!".tree", rfl, .inr ⟨h, by decide⟩⟩
  rw [solOf_iff] at h1 ⊢
  rw [h1]

/-- **C116.** No command line changes a file that is not named like a Solidity test; so tree files never change. -/
theorem C116_kept [Ucd] [LawfulUcd] (env : Env) (args : List Str) (fs : Fs) {p : FPath} (h : ¬ c!".t.sol" <:+ p.name) :
    ((program env args fs).fs fs).state p = fs.state p := by
  apply Classical.byContradiction
  intro hc
  obtain ⟨_, _, _, _, _, _, _, ⟨_, stem, hp, _⟩, _⟩ := C87_changes hc
  exact h (by rw [hp]; exact List.suffix_append _ _)

/-- A tree file is not named like a Solidity test. -/
theorem tree_noTest {t : FPath} (h : c!".tree" <:+ t.name) : ¬ c!".t.sol" <:+ t.name := by
  rintro ⟨x, hx⟩
  obtain ⟨y, hy⟩ := h
  have := congrArg List.getLast? (hx.trans hy.symm)
  simp at this

/-- **C116.** Different tree files have the same Solidity file exactly if they are `.tree` and `.tree.tree` in the same directory. -/
theorem C116_same_sol {s t : FPath} (hs : c!".tree" <:+ s.name) (ht : c!".tree" <:+ t.name) (hne : s ≠ t) :
    (∃ p, SolOf s p ∧ SolOf t p) ↔ s.dir = t.dir ∧ (s.name = c!".tree" ∧ t.name = c!".tree.tree" ∨ t.name = c!".tree" ∧ s.name = c!".tree.tree") := by
  obtain ⟨sd, sn⟩ := s
  obtain ⟨td, tn⟩ := t
  obtain ⟨x, rfl⟩ := hs
  obtain ⟨y, rfl⟩ := ht
  simp only
  by_cases hx : x = []
  · subst hx
    by_cases hy : y = []
    · subst hy
      constructor
      · rintro ⟨p, h1, h2⟩
        rw [sol_of_dot rfl] at h1 h2
        rw [h1] at h2
        simp only [FPath.mk.injEq, and_true] at h2
        exact absurd (by rw [h2]) hne
      · rintro ⟨_, ⟨_, h⟩ | ⟨_, h⟩⟩ <;> simp at h
    · constructor
      · rintro ⟨p, h1, h2⟩
        rw [sol_of_dot rfl] at h1
        rw [sol_of_tree rfl hy, h1] at h2
        simp only [FPath.mk.injEq] at h2
        have : y = c!".tree" := (List.append_cancel_right (as := c!".tree") (bs := c!".t.sol") h2.2).symm
        exact ⟨h2.1, .inl ⟨rfl, by rw [this]; rfl⟩⟩
      · rintro ⟨rfl, ⟨_, h⟩ | ⟨h, _⟩⟩
        · have : y = c!".tree" := List.append_cancel_right (bs := c!".tree") h
          exact ⟨_, (sol_of_dot rfl).2 rfl, (sol_of_tree rfl hy).2 (by rw [this]; rfl)⟩
        · exact absurd (List.append_cancel_right (as := y) (bs := c!".tree") (cs := []) h) hy
  · by_cases hy : y = []
    · subst hy
      constructor
      · rintro ⟨p, h1, h2⟩
        rw [sol_of_dot rfl] at h2
        rw [sol_of_tree rfl hx, h2] at h1
        simp only [FPath.mk.injEq] at h1
        have : x = c!".tree" := (List.append_cancel_right (as := c!".tree") (bs := c!".t.sol") h1.2).symm
        exact ⟨h1.1.symm, .inr ⟨rfl, by rw [this]; rfl⟩⟩
      · rintro ⟨rfl, ⟨h, _⟩ | ⟨_, h⟩⟩
        · exact absurd (List.append_cancel_right (as := x) (bs := c!".tree") (cs := []) h) hx
        · have : x = c!".tree" := List.append_cancel_right (bs := c!".tree") h
          exact ⟨_, (sol_of_tree rfl hx).2 (by rw [this]; rfl), (sol_of_dot rfl).2 rfl⟩
    · constructor
      · rintro ⟨p, h1, h2⟩
        rw [sol_of_tree rfl hx] at h1
        rw [sol_of_tree rfl hy, h1] at h2
        simp only [FPath.mk.injEq] at h2
        have := List.append_cancel_right h2.2
        exact absurd (by rw [h2.1, this]) hne
      · rintro ⟨_, ⟨h, _⟩ | ⟨h, _⟩⟩
        · exact absurd (List.append_cancel_right (as := x) (bs := c!".tree") (cs := []) h) hx
        · exact absurd (List.append_cancel_right (as := y) (bs := c!".tree") (cs := []) h) hy

/-- **C116.** Files with the extension `tree`, each given once, have separate Solidity files, and none of them is such a file. -/
theorem C116_separate {files : List FPath} (h : ∀ f ∈ files, TreeNamed f) (hd : files.Nodup) : OwnFiles files ∧ NoTests files := by
  constructor
  · unfold OwnFiles
    refine List.Pairwise.imp_of_mem ?_ hd
    intro f g hf hg hne p hp hq
    obtain ⟨x, hx, ex⟩ := h f hf
    obtain ⟨y, hy, ey⟩ := h g hg
    rcases (C116_same_sol (s := f) (t := g) ⟨x, ex.symm⟩ ⟨y, ey.symm⟩ hne).1 ⟨p, hp, hq⟩ with ⟨_, ⟨e, _⟩ | ⟨e, _⟩⟩
    · rw [ex] at e; exact hx (List.append_cancel_right (as := x) (bs := c!".tree") (cs := []) e)
    · rw [ey] at e; exact hy (List.append_cancel_right (as := y) (bs := c!".tree") (cs := []) e)
  · intro f hf
    obtain ⟨x, _, ex⟩ := h f hf
    exact tree_noTest ⟨x, ex.symm⟩

section
variable [U : Ucd]

/-- **C116**, commands: in whatever order tree files are given, each once, `scaffold` and `check --fix` end in the same way and leave the same files, unless they crash. -/
theorem C116_order [LawfulUcd] {env : Env} {fs : Fs} {files files' : List FPath} (h : ∀ f ∈ files, TreeNamed f) (hd : files.Nodup) (hp : files.Perm files') :
    (∀ a : ScaffoldArgs, (scaffoldRun env { a with files := files } fs).exit ≠ .panicked →
      (scaffoldRun env { a with files := files' } fs).fs = (scaffoldRun env { a with files := files } fs).fs ∧
      (scaffoldRun env { a with files := files' } fs).exit = (scaffoldRun env { a with files := files } fs).exit) ∧
    (∀ a : CheckArgs, a.fix = true → (checkRun env { a with files := files } fs).exit ≠ .panicked →
      (checkRun env { a with files := files' } fs).fs = (checkRun env { a with files := files } fs).fs ∧
      (checkRun env { a with files := files' } fs).exit = (checkRun env { a with files := files } fs).exit) := by
  obtain ⟨h1, h2⟩ := C116_separate h hd
  refine ⟨fun a hx => C105_scaffold_order (a := { a with files := files }) h2 h1 hp hx, fun a hf hx => ?_⟩
  obtain ⟨g1, g2⟩ := C105_fix_order (env := env) (a := { a with files := files }) (fs := fs) hf h1 hp
  exact ⟨g2 hx, g1⟩

end

/-! ## Concrete cases -/

/-- C116: three files, one of them given with another directory. -/
example : OwnFiles [⟨c!"", c!"a.tree"⟩, ⟨c!"x/", c!"a.tree"⟩, ⟨c!"", c!"a.b.tree"⟩] ∧ NoTests [⟨c!"", c!"a.tree"⟩, ⟨c!"x/", c!"a.tree"⟩, ⟨c!"", c!"a.b.tree"⟩] := by
  apply C116_separate
  · intro f hf
    simp only [List.mem_cons, List.not_mem_nil, or_false] at hf
    rcases hf with rfl | rfl | rfl
    · exact ⟨c!"a", by decide, rfl⟩
    · exact ⟨c!"a", by decide, rfl⟩
    · exact ⟨c!"a.b", by decide, rfl⟩
  · decide

/-- C116: `.tree` and `.tree.tree` have the same Solidity file. -/
example : ∃ p, SolOf ⟨c!"x/", c!".tree"⟩ p ∧ SolOf ⟨c!"x/", c!".tree.tree"⟩ p :=
  (C116_same_sol ⟨[], rfl⟩ ⟨c!".tree", rfl⟩ (by decide)).2 ⟨rfl, .inl ⟨rfl, rfl⟩⟩

/-- C116: with another extension, files share their Solidity file. -/
example : ∃ p, SolOf ⟨c!"", c!"a.tree"⟩ p ∧ SolOf ⟨c!"", c!"a.txt"⟩ p :=
  ⟨⟨c!"", c!"a.t.sol"⟩, (solOf_iff _ _).2 (by decide +kernel), (solOf_iff _ _).2 (by decide +kernel)⟩

/-- C116: the tree is not changed, whatever the arguments. -/
example [Ucd] [LawfulUcd] (env : Env) (args : List Str) (fs : Fs) : ((program env args fs).fs fs).state ⟨c!"x/", c!"a.tree"⟩ = fs.state ⟨c!"x/", c!"a.tree"⟩ :=
  C116_kept env args fs (tree_noTest ⟨c!"a", rfl⟩)

end Bulloak
