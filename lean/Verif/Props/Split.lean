import Verif.Lemmas.Split2
import Verif.Spec.Shape
import Verif.Model.Ascii
/-!
# C12, C13: files with several trees
-/

namespace Bulloak
open Spec

/-- **C12.** A blank file is one empty tree.  Every other file consists of blocks separated by empty lines
in exactly one way, and splitting yields exactly those blocks, in order, that are not comments only. -/
theorem C12_split (text : Str) :
    (Blank text → splitTrees text = [[]]) ∧
    (¬ Blank text → ∃ bs, Blocks text bs ∧ ∀ bs', Blocks text bs' → bs' = bs) ∧
    (∀ bs, Blocks text bs → ∃ keep : Str → Bool, splitTrees text = bs.filter keep ∧
      ∀ b ∈ bs, keep b = true ↔ ¬ OnlyComments b) := by
  refine ⟨?_, ?_, ?_⟩
  · intro h
    rw [splitTrees, if_pos (trim_blank h)]
  · intro h
    obtain ⟨bs, hbs⟩ := blocks_exist text h
    exact ⟨bs, hbs, fun bs' h' => by rw [← pieces_blocks h', pieces_blocks hbs]⟩
  · intro bs h
    exact ⟨notOnlyComments, splitTrees_blocks h, fun b hb => notOnlyComments_iff (blocks_mem h b hb)⟩

section
variable [U : Ucd]

/-- **C13**, success: a file parses exactly when all its blocks parse on their own, and the result is the
list of the individual trees. -/
theorem C13_parse_ok (order : HashOrder) (text : Str) (asts : List Ast) :
    parse order text = .ok asts ↔ Each (fun b a => parseOne order b = .ok a) (splitTrees text) asts := by
  unfold parse
  generalize splitTrees text = bs
  induction bs generalizing asts with
  | nil =>
    simp only [collectRes]
    constructor
    · intro h; cases h; exact .nil
    · intro h; cases h; rfl
  | cons b bs ih =>
    simp only [collectRes, Res.bind_eq_ok]
    constructor
    · rintro ⟨a, h1, as, h2, h3⟩
      cases h3
      exact .cons h1 ((ih as).1 h2)
    · intro h
      cases h with
      | @cons _ a _ as h1 h2 => exact ⟨a, h1, as, (ih as).2 h2, rfl⟩

/-- **C13**, failure: the error of a file is the error of its first failing block. -/
theorem C13_parse_err (order : HashOrder) (text : Str) (e : SyntaxError) :
    parse order text = .err e ↔ ∃ A b B, splitTrees text = A ++ b :: B ∧
      (∀ x ∈ A, ∃ a, parseOne order x = .ok a) ∧ parseOne order b = .err e := by
  unfold parse
  generalize splitTrees text = bs
  induction bs with
  | nil =>
    simp only [collectRes]
    constructor
    · intro h; cases h
    · rintro ⟨A, b, B, h, _⟩; simp at h
  | cons b bs ih =>
    simp only [collectRes]
    constructor
    · intro h
      cases hb : parseOne order b with
      | panic => rw [hb] at h; cases h
      | err e' => rw [hb] at h; cases h; exact ⟨[], b, bs, rfl, by simp, hb⟩
      | ok a =>
        rw [hb] at h
        simp only [Res.bind_ok] at h
        have h' : collectRes (parseOne order) bs = .err e := by
          cases hc : collectRes (parseOne order) bs with
          | ok as => rw [hc] at h; cases h
          | err e' => rw [hc] at h; exact h
          | panic => rw [hc] at h; cases h
        obtain ⟨A, b', B, h1, h2, h3⟩ := ih.1 h'
        refine ⟨b :: A, b', B, by rw [h1]; rfl, ?_, h3⟩
        intro x hx
        rcases List.mem_cons.1 hx with rfl | hx
        · exact ⟨a, hb⟩
        · exact h2 x hx
    · rintro ⟨A, b', B, h1, h2, h3⟩
      cases A with
      | nil =>
        simp only [List.nil_append, List.cons.injEq] at h1
        rw [h1.1, h3]; rfl
      | cons x A =>
        simp only [List.cons_append, List.cons.injEq] at h1
        obtain ⟨rfl, h1⟩ := h1
        obtain ⟨a, ha⟩ := h2 b (by simp)
        rw [ha]
        simp only [Res.bind_ok]
        rw [ih.2 ⟨A, b', B, h1, fun x hx => h2 x (by simp [hx]), h3⟩]
        rfl

end

/-! ## Non-vacuity -/

/-- A file with surrounding white space, two trees and a comment block between them. -/
example : splitTrees c!"\n A\n└ it x\n\n\n// only\n // comments\n \n\nB // c\n└ it y\t\n\n" =
    [c!"A\n└ it x", c!"B // c\n└ it y"] := by cbv

/-- Blocks of a text with two trees. -/
example : Blocks c!" A\n\n\nB" [c!"A", c!"B"] := by
  refine .cons (p := c!" ") (b := c!"A") (s := c!"\n\n\n") (rest := c!"B") ?_ ⟨⟨_, _, rfl, by decide⟩, ⟨[], _, rfl, by decide⟩, by decide⟩
    ?_ ⟨[], _, rfl⟩ (.last (p := []) (b := c!"B") (q := []) ?_ ⟨⟨_, _, rfl, by decide⟩, ⟨[], _, rfl, by decide⟩, by decide⟩ ?_)
  · intro c hc; simp at hc; rw [hc]; decide
  · intro c hc; simp at hc; rw [hc]; decide
  · intro c hc; simp at hc
  · intro c hc; simp at hc

end Bulloak
