import Verif.Spec.SolLex
import Verif.Props.Exact2
/-! # Lemmas about the tokens of Solidity -/

namespace Bulloak
open Spec
set_option linter.unusedSectionVars false

theorem run_append (m : SolMode) (a b : Str) : solRun m (a ++ b) =
    (solRun m a).bind fun p => (solRun p.2 b).map fun q => (p.1 ++ q.1, q.2) := by
  induction a generalizing m with
  | nil =>
    cases h : solRun m b <;> simp [solRun, h]
  | cons c a ih =>
    rw [List.cons_append, solRun, solRun]
    cases solStep m c with
    | none => rfl
    | some p =>
      simp only [Option.bind_some, ih]
      cases solRun p.2 a with
      | none => rfl
      | some q =>
        simp only [Option.map_some, Option.bind_some]
        cases solRun q.2 b <;> simp

theorem reads_nil : SolReads [] [] := rfl

theorem Spec.SolReads.append {s s' : Str} {ts ts' : List SolTok} (h : SolReads s ts) (h' : SolReads s' ts') : SolReads (s ++ s') (ts ++ ts') := by
  unfold SolReads at *
  rw [run_append, h]
  simp [h']

theorem reads_flatMap {α} {f : α → Str} {g : α → List SolTok} {l : List α} (h : ∀ a ∈ l, SolReads (f a) (g a)) :
    SolReads (l.flatMap f) (l.flatMap g) := by
  induction l with
  | nil => exact reads_nil
  | cons a l ih => exact (h a (by simp)).append (ih fun b hb => h b (by simp [hb]))

theorem reads_ws {c : Char} (h : isSolWs c = true) : SolReads [c] [] := by
  simp [SolReads, solRun, solStep, solStart, h]

theorem reads_sym {c : Char} (h1 : isSolWs c = false) (h2 : isWordChar c = false) (h3 : isQuote c = false) (h4 : c ≠ '/') (h5 : isSym c = true) :
    SolReads [c] [.sym c] := by
  simp [SolReads, solRun, solStep, solStart, h1, h2, h3, h4, h5]

theorem run_word {w : Str} (hw : ∀ c ∈ w, isWordChar c = true) (u : Str) : solRun (.word u) w = some ([], .word (u ++ w)) := by
  induction w generalizing u with
  | nil => simp [solRun]
  | cons d w ih =>
    rw [solRun, solStep, if_pos (hw d (by simp)), Option.bind_some, ih (fun c hc => hw c (by simp [hc]))]
    simp

theorem wordStart_of {c : Char} (h : IsLetter c ∨ c = '_' ∨ c = '$') : isWordStart c = true := by
  rcases h with h | rfl | rfl
  · unfold IsLetter at h
    simp only [isWordStart, Bool.or_eq_true, Bool.and_eq_true, decide_eq_true_eq]
    rcases h with h | h
    · exact .inl (.inl (.inl h))
    · exact .inl (.inl (.inr h))
  · decide
  · decide

theorem wordChar_of {c : Char} (h : isAsciiAlnum c = true ∨ c = '_' ∨ c = '$') : isWordChar c = true := by
  rcases h with h | rfl | rfl
  · simp only [isAsciiAlnum, Bool.or_eq_true, Bool.and_eq_true, decide_eq_true_eq] at h
    simp only [isWordChar, isWordStart, Bool.or_eq_true, Bool.and_eq_true, decide_eq_true_eq]
    rcases h with (h | h) | h
    · exact .inr h
    · exact .inl (.inl (.inl (.inl h)))
    · exact .inl (.inl (.inl (.inr h)))
  · decide
  · decide

theorem wordChar_not_ws {c : Char} (h : isWordChar c = true) : isSolWs c = false := by
  cases hw : isSolWs c with
  | false => rfl
  | true =>
    simp only [isSolWs, Bool.or_eq_true, beq_iff_eq] at hw
    rcases hw with ((rfl | rfl) | rfl) | rfl <;> simp_all (config := { decide := true })

/-- A word. -/
theorem run_ident {w : Str} (hw : SolIdent w) : solRun .code w = some ([], .word w) := by
  obtain ⟨d, u, rfl, hd, hu⟩ := hw
  have hs : isWordChar d = true := by simp [isWordChar, wordStart_of hd]
  rw [solRun, solStep, solStart, wordChar_not_ws hs]
  simp only [Bool.false_eq_true, if_false, hs, if_true, Option.bind_some]
  rw [run_word fun c hc => wordChar_of (hu c hc)]
  rfl

/-- Reading on after a word. -/
theorem run_after_word {w : Str} (hp : w ≠ c!"pragma") {c : Char} (hc : isWordChar c = false) (s : Str) :
    solRun (.word w) (c :: s) = (solRun .code (c :: s)).map fun q => (.word w :: q.1, q.2) := by
  simp only [solRun, solStep, hc, hp, if_false, Bool.false_eq_true]
  cases solStart c with
  | none => rfl
  | some p => cases h : solRun p.2 s <;> simp [h]

/-- A word and the text after it. -/
theorem Spec.SolReads.word {w : Str} (hw : SolIdent w) (hp : w ≠ c!"pragma") {c : Char} {s : Str} {ts : List SolTok} (hc : isWordChar c = false)
    (h : SolReads (c :: s) ts) : SolReads (w ++ c :: s) (.word w :: ts) := by
  unfold SolReads at *
  rw [run_append, run_ident hw, Option.bind_some, run_after_word hp hc, h]
  simp

theorem run_line {t : Str} (h : ∀ c ∈ t, isSolEnd c = false) : solRun .line t = some ([], .line) := by
  induction t with
  | nil => rfl
  | cons c t ih =>
    rw [solRun, solStep, h c (by simp)]
    simp [ih fun d hd => h d (by simp [hd])]

/-- A line comment. -/
theorem reads_comment {t : Str} (h : ∀ c ∈ t, isSolEnd c = false) : SolReads (c!"//" ++ t ++ c!"\n") [] := by
  unfold SolReads
  rw [run_append, run_append, show solRun .code c!"//" = some ([], .line) from rfl, Option.bind_some, run_line h]
  rfl

theorem run_pragma {v : Str} (h : ';' ∉ v) (u : Str) : solRun (.pragma u) v = some ([], .pragma (u ++ v)) := by
  induction v generalizing u with
  | nil => simp [solRun]
  | cons c v ih =>
    simp only [List.mem_cons, not_or] at h
    rw [solRun, solStep, if_neg (fun e => h.1 e.symm), Option.bind_some, ih h.2]
    simp

theorem reads_pragma {v : Str} (h : ';' ∉ v) : SolReads (c!"pragma " ++ v ++ c!";") [.pragma (' ' :: v)] := by
  unfold SolReads
  rw [run_append, run_append, show solRun .code c!"pragma " = some ([], .pragma [' ']) from rfl, Option.bind_some, run_pragma h]
  rfl

theorem tokens_of_reads {s : Str} {ts : List SolTok} (h : SolReads s ts) : solTokens s = some ts := by
  unfold solTokens
  rw [h]
  simp [solFinish]

theorem solEnd_of {c : Char} (h : c ∉ solTerminators) : isSolEnd c = false := by
  simp only [solTerminators, List.mem_cons, List.not_mem_nil, or_false, not_or] at h
  simp [isSolEnd, h]

theorem reads_item {b : BodyItem} (h : ∀ t, b = .comment t → ∀ c ∈ t, isSolEnd c = false) : SolReads (solItem b) (itemTokens b) := by
  cases b with
  | comment t =>
    have : SolReads (c!"//" ++ (' ' :: t) ++ c!"\n") [] := reads_comment fun c hc => by
      rcases List.mem_cons.1 hc with rfl | hc
      · decide
      · exact h t rfl c hc
    simpa [solItem, itemTokens] using this
  | vmSkip => rfl

theorem known_not_pragma {s : Str} (h : ¬ Reserved s) : s ≠ c!"pragma" := by
  rintro rfl
  exact h (.inl (by decide +kernel))

theorem reads_mods {l : List Str} (h : ∀ m ∈ l, SolIdent m ∧ ¬ Reserved m) :
    SolReads (l.flatMap (fun m => m ++ c!" ")) (l.map .word) := by
  induction l with
  | nil => exact reads_nil
  | cons m l ih =>
    have h1 : SolReads (m ++ c!" ") [.word m] := SolReads.word (h m (by simp)).1 (known_not_pragma (h m (by simp)).2) (by decide) (reads_ws (by decide))
    exact h1.append (ih fun x hx => h x (by simp [hx]))

theorem reads_fn {f : HFn} (h : ReadableFn f) : SolReads (solFn f) (fnTokens f) := by
  unfold solFn fnTokens
  cases f.ty with
  | modifier =>
    have h1 : SolReads c!"modifier " [.word c!"modifier"] := rfl
    have h2 : SolReads c!"() {\n_;\n}" [.sym '(', .sym ')', .sym '{', .word c!"_", .sym ';', .sym '}'] := rfl
    have := h1.append (SolReads.word h.name.1 (known_not_pragma h.name.2) (by decide) h2)
    simpa using this
  | function =>
    have h1 : SolReads c!"function " [.word c!"function"] := rfl
    have h2 : SolReads c!"() external " [.sym '(', .sym ')', .word c!"external"] := rfl
    have h3 : SolReads c!"{\n" [.sym '{'] := rfl
    have h4 : SolReads c!"}" [.sym '}'] := reads_sym (by decide) (by decide) (by decide) (by decide) (by decide)
    have := (((h1.append (SolReads.word h.name.1 (known_not_pragma h.name.2) (by decide) h2)).append (reads_mods h.mods)).append h3).append
      ((reads_flatMap (l := f.children.getD []) (f := solItem) (g := itemTokens) fun b hb => reads_item (by
        rintro t rfl; exact h.lines t hb)).append h4)
    simpa using this

theorem reads_stanzas {fns : List HFn} (h : ∀ f ∈ fns, ReadableFn f) : SolReads (stanzas (fns.map solFn)) (fns.flatMap fnTokens) := by
  induction fns with
  | nil => exact reads_nil
  | cons f fns ih =>
    have h1 := reads_fn (h f (by simp))
    have ih := ih fun g hg => h g (by simp [hg])
    cases fns with
    | nil => simpa [stanzas] using h1
    | cons g fns =>
      have h2 : SolReads c!"\n\n" [] := (reads_ws (c := '\n') (by decide)).append (reads_ws (c := '\n') (by decide))
      have := (h1.append h2).append ih
      simpa [stanzas] using this

/-- The tokens of a file of the specification. -/
theorem tokens_solFile {version name : Str} {skip : Bool} {fns : List HFn} (hv : ';' ∉ version) (hn : SolIdent name)
    (hp : ¬ Reserved name) (h : ∀ f ∈ fns, ReadableFn f) :
    solTokens (solFile version skip name fns) = some (fileTokens version skip name fns) := by
  have h1 : SolReads c!"// SPDX-License-Identifier: UNLICENSED\n" [] :=
    reads_comment (t := c!" SPDX-License-Identifier: UNLICENSED") (by decide)
  have h2 : SolReads (c!"pragma " ++ (c!"solidity " ++ version) ++ c!";") [.pragma (' ' :: (c!"solidity " ++ version))] :=
    reads_pragma (by simp [hv])
  have hnl : SolReads c!"\n" [] := reads_ws (by decide)
  have h3 : SolReads (if skip then c!"import {Test} from \"forge-std/Test.sol\";\n" else [])
      (if skip then [.word c!"import", .sym '{', .word c!"Test", .sym '}', .word c!"from", .str c!"forge-std/Test.sol", .sym ';'] else []) := by
    cases skip with
    | false => exact reads_nil
    | true => rfl
  have h4 : SolReads c!"contract " [.word c!"contract"] := rfl
  have h5 : SolReads (name ++ c!" ") [.word name] := SolReads.word hn (known_not_pragma hp) (by decide) (reads_ws (by decide))
  have h6 : SolReads (if skip then c!"is Test " else []) (if skip then [.word c!"is", .word c!"Test"] else []) := by
    cases skip with
    | false => exact reads_nil
    | true => rfl
  have h7 : SolReads c!"{" [.sym '{'] := reads_sym (by decide) (by decide) (by decide) (by decide) (by decide)
  have h8 : SolReads c!"}" [.sym '}'] := reads_sym (by decide) (by decide) (by decide) (by decide) (by decide)
  have := (((((((h1.append (h2.append hnl)).append h3).append h4).append h5).append h6).append h7).append (reads_stanzas h)).append h8
  apply tokens_of_reads
  simpa [solFile, fileTokens] using this

end Bulloak
