import Verif.Spec.Lex
/-! # Refinement of the tokenizer to the lexical decomposition -/

set_option linter.unusedSectionVars false

namespace Bulloak
open Spec

/-- Advancing over a string. -/
def advN (p : Position) (s : Str) : Position := s.foldl Position.advance p

@[simp] theorem advN_nil (p) : advN p [] = p := rfl
@[simp] theorem advN_cons (p c s) : advN p (c :: s) = advN (p.advance c) s := rfl
@[simp] theorem advN_append (p a b) : advN p (a ++ b) = advN (advN p a) b := by
  simp [advN, List.foldl_append]

theorem lastLine_append_nl (s : Str) : lastLine (s ++ ['\n']) = [] := by
  simp [lastLine]

theorem lastLine_append_ne {c : Char} (h : c ≠ '\n') (s : Str) : lastLine (s ++ [c]) = lastLine s ++ [c] := by
  simp [lastLine, h]

theorem posOf_snoc (pre : Str) (c : Char) : (posOf pre).advance c = posOf (pre ++ [c]) := by
  unfold Position.advance posOf
  by_cases h : c = '\n'
  · subst h
    simp [lastLine_append_nl]; omega
  · simp [h, lastLine_append_ne h, List.count_append]
    omega

theorem advN_posOf (pre s : Str) : advN (posOf pre) s = posOf (pre ++ s) := by
  induction s generalizing pre with
  | nil => simp
  | cons c s ih => simp [posOf_snoc, ih]

theorem posOf_nil : posOf [] = Position.start := by
  simp [posOf, lastLine, Position.start]

section
variable [U : Ucd]

theorem scanWord_ok (mode : Bool) (start : Position) (lex : Str) (c : Char) (w r : Str) (pos : Position)
    (hv : mode = false ∨ ∀ d ∈ c :: w, isValidIdentChar d = true)
    (hw : ∀ d ∈ w, isWs d = false) (hr : AtWordEnd r) :
    ∃ l : Char, (c :: w).getLast? = some l ∧
    scanWord mode start lex (c :: (w ++ r)) pos =
      .ok (⟨wordKind (lex ++ c :: w), ⟨start, advN pos (c :: w).dropLast⟩, lex ++ c :: w⟩,
        l :: r, advN pos (c :: w).dropLast) := by
  induction w generalizing c lex pos with
  | nil =>
    refine ⟨c, by simp, ?_⟩
    have hc : (mode && !isValidIdentChar c) = false := by
      rcases hv with h | h
      · simp [h]
      · simp [h c (by simp)]
    rcases hr with h | ⟨d, r', h, hd⟩
    · subst h
      simp [scanWord, hc, Span.splat, Span.withStart]
    · subst h
      simp [scanWord, hc, hd, Span.splat, Span.withStart]
  | cons d w ih =>
    have hc : (mode && !isValidIdentChar c) = false := by
      rcases hv with h | h
      · simp [h]
      · simp [h c (by simp)]
    have hd : isWs d = false := hw d (by simp)
    obtain ⟨l, hl, hs⟩ := ih (lex ++ [c]) d (pos.advance c)
      (hv.imp id (fun h x hx => h x (List.mem_cons_of_mem _ hx)))
      (fun x hx => hw x (List.mem_cons_of_mem _ hx))
    refine ⟨l, by simpa using hl, ?_⟩
    rw [List.cons_append, scanWord]
    simp only [hc, hd]
    simp only [Bool.false_eq_true, if_false]
    rw [hs]
    simp

theorem scanWord_err (start : Position) (lex : Str) (a : Str) (x : Char) (b r : Str) (pos : Position)
    (ha : ∀ d ∈ a, isValidIdentChar d = true) (hx : isValidIdentChar x = false)
    (hw : ∀ d ∈ (a ++ x :: b).tail, isWs d = false) :
    scanWord true start lex (a ++ x :: (b ++ r)) pos = .err ⟨x, Span.splat (advN pos a)⟩ := by
  induction a generalizing lex pos with
  | nil => rw [List.nil_append, scanWord.eq_def]; simp [hx]
  | cons c a ih =>
    have hc := ha c (by simp)
    have ih' := ih (lex ++ [c]) (pos.advance c) (fun d hd => ha d (List.mem_cons_of_mem _ hd))
      (fun d hd => hw d (by simpa using List.mem_of_mem_tail hd))
    cases a with
    | nil =>
      have : isWs x = false := hw x (by simp)
      simp only [List.cons_append, List.nil_append] at ih' ⊢
      rw [scanWord]
      simp [hc, this, ih']
    | cons d a' =>
      have : isWs d = false := hw d (by simp)
      simp only [List.cons_append] at ih' ⊢
      rw [scanWord]
      simp [hc, this, ih']

theorem scanComments_eq (c : Char) (s r : Str) (pos : Position) (hs : '\n' ∉ s) (hr : AtLineEnd r) :
    ∃ l : Char, (c :: s).getLast? = some l ∧
    scanComments (c :: (s ++ r)) pos = (l :: r, advN pos (c :: s).dropLast) := by
  induction s generalizing c pos with
  | nil =>
    refine ⟨c, by simp, ?_⟩
    rcases hr with h | ⟨r', h⟩ <;> subst h <;> simp [scanComments]
  | cons d s ih =>
    simp only [List.mem_cons, not_or] at hs
    obtain ⟨l, hl, he⟩ := ih d (pos.advance c) hs.2
    refine ⟨l, by simpa using hl, ?_⟩
    simp only [List.cons_append] at he ⊢
    rw [scanComments, if_neg (Ne.symm hs.1), he]
    simp

/-- The effect of the pieces: token list so far, identifier mode, text already read. -/
def lexRun (toks : List Token) (mode : Bool) (pre : Str) : List Piece → Res TokError (List Token)
  | [] => .ok toks
  | .skip c :: ps => lexRun toks mode (pre ++ [c]) ps
  | .brk c :: ps => lexRun toks false (pre ++ [c]) ps
  | .tee :: ps => lexRun (toks ++ [⟨.tee, Span.splat (posOf pre), c!"├"⟩]) mode (pre ++ c!"├") ps
  | .corner :: ps => lexRun (toks ++ [⟨.corner, Span.splat (posOf pre), c!"└"⟩]) mode (pre ++ c!"└") ps
  | .comment s :: ps => lexRun toks false (pre ++ ('/' :: '/' :: s)) ps
  | .word w :: ps =>
    if mode = true ∧ ∃ x ∈ w, isValidIdentChar x = false then
      let a := w.takeWhile isValidIdentChar
      .err ⟨(w.dropWhile isValidIdentChar).headD ' ', Span.splat (posOf (pre ++ a))⟩
    else
      let t : Token := ⟨wordKind w, ⟨posOf pre, posOf (pre ++ w.dropLast)⟩, w⟩
      let lastIsBranch := (toks.getLast?.map Token.isBranch).getD false
      let mode := if lastIsBranch && (t.kind = .when || t.kind = .given) then true else mode
      lexRun (toks ++ [t]) mode (pre ++ w) ps

theorem takeWhile_split (p : Char → Bool) (w : Str) (h : ∃ x ∈ w, p x = false) :
    ∃ x b, w = w.takeWhile p ++ x :: b ∧ p x = false ∧ w.dropWhile p = x :: b := by
  induction w with
  | nil => simp at h
  | cons c w ih =>
    by_cases hc : p c = true
    · obtain ⟨y, hy, hpy⟩ := h
      have : ∃ x ∈ w, p x = false := by
        rcases List.mem_cons.1 hy with rfl | hy
        · rw [hc] at hpy; cases hpy
        · exact ⟨y, hy, hpy⟩
      obtain ⟨x, b, h1, h2, h3⟩ := ih this
      refine ⟨x, b, ?_, h2, ?_⟩
      · rw [List.takeWhile_cons_of_pos hc, List.cons_append, ← h1]
      · rw [List.dropWhile_cons_of_pos hc, h3]
    · have hc : p c = false := by simpa using hc
      refine ⟨c, w, ?_, hc, ?_⟩ <;> simp [hc]

theorem Scan.scan_cons (c : Char) (r : Str) (p : Position) (m : Bool) :
    Scan.scan ⟨c :: r, p, m⟩ = ⟨r, p.advance c, m⟩ := rfl

theorem tokLoop_cons (fuel : Nat) (toks : List Token) (s : Scan) (c : Char) (r : Str) (h : s.rest = c :: r) :
    tokLoop (fuel + 1) toks s = (tokStep toks s c r >>= fun x =>
      if x.2.scan.rest = [] then .ok x.1 else tokLoop fuel x.1 x.2.scan) := by
  rw [tokLoop, h]

/-- One step plus the rest, when the rest is known for every sufficient fuel. -/
theorem tokLoop_step {fuel : Nat} {toks toks' : List Token} {s s' : Scan} {c : Char} {r : Str}
    {res : Res TokError (List Token)} (h : s.rest = c :: r)
    (hstep : tokStep toks s c r = .ok (toks', s'))
    (hrest : s'.scan.rest = [] → res = .ok toks')
    (hloop : s'.scan.rest ≠ [] → tokLoop fuel toks' s'.scan = res) :
    tokLoop (fuel + 1) toks s = res := by
  rw [tokLoop_cons fuel toks s c r h, hstep]
  simp only [Res.bind_ok]
  split
  · rename_i h'; exact (hrest h').symm
  · rename_i h'; exact hloop h'

theorem advN_dropLast_getLast {w : Str} {l : Char} (h : w.getLast? = some l) (p : Position) :
    (advN p w.dropLast).advance l = advN p w := by
  have hw : w = w.dropLast ++ [l] := by
    have hne : w ≠ [] := by rintro rfl; simp at h
    have h2 := List.dropLast_concat_getLast hne
    have h3 : w.getLast hne = l := by
      rw [List.getLast?_eq_some_getLast hne] at h
      simpa using h
    rw [h3] at h2; exact h2.symm
  conv => rhs; rw [hw]
  simp

theorem lexes_nonempty_rest {r : Str} {ps : List Piece} (h : Lexes r ps) (hr : r = []) : ps = [] := by
  cases h <;> simp_all

/-- The tokenizer computes exactly `lexRun` of the lexical decomposition. -/
theorem tokLoop_lexRun {text : Str} {ps : List Piece} (h : Lexes text ps) :
    ∀ (fuel : Nat) (toks : List Token) (mode : Bool) (pre : Str), text.length < fuel →
      tokLoop fuel toks ⟨text, posOf pre, mode⟩ = lexRun toks mode pre ps := by
  induction h with
  | nil =>
    intro fuel toks mode pre hf
    cases fuel with
    | zero => omega
    | succ fuel => simp [tokLoop, lexRun]
  | @skip c r ps hc hl ih =>
    intro fuel toks mode pre hf
    cases fuel with
    | zero => omega
    | succ fuel =>
      refine tokLoop_step (c := c) (r := r) rfl (toks' := toks) (s' := ⟨c :: r, posOf pre, mode⟩) ?_ ?_ ?_
      · unfold tokStep; rw [if_pos hc]
      · intro h'
        rw [Scan.scan_cons] at h'
        rw [lexes_nonempty_rest hl h']; rfl
      · intro _
        rw [Scan.scan_cons, posOf_snoc]
        simpa [lexRun] using ih fuel toks mode (pre ++ [c]) (by simp at hf; omega)
  | @brk c r ps hc hl ih =>
    intro fuel toks mode pre hf
    cases fuel with
    | zero => omega
    | succ fuel =>
      have hns : ¬ (c = ' ' ∨ c = '─' ∨ c = '│') := by
        rcases hc with h | h | h <;> subst h <;> decide
      refine tokLoop_step (c := c) (r := r) rfl (toks' := toks) (s' := ⟨c :: r, posOf pre, false⟩) ?_ ?_ ?_
      · unfold tokStep; rw [if_neg hns, if_pos hc]; rfl
      · intro h'
        rw [Scan.scan_cons] at h'
        rw [lexes_nonempty_rest hl h']; rfl
      · intro _
        rw [Scan.scan_cons, posOf_snoc]
        simpa [lexRun] using ih fuel toks false (pre ++ [c]) (by simp at hf; omega)
  | @tee r ps hl ih =>
    intro fuel toks mode pre hf
    cases fuel with
    | zero => omega
    | succ fuel =>
      refine tokLoop_step (c := '├') (r := r) rfl
        (toks' := toks ++ [⟨.tee, Span.splat (posOf pre), c!"├"⟩]) (s' := ⟨'├' :: r, posOf pre, mode⟩) ?_ ?_ ?_
      · unfold tokStep
        rw [if_neg (by decide), if_neg (by decide), if_pos rfl]
      · intro h'
        rw [Scan.scan_cons] at h'
        rw [lexes_nonempty_rest hl h']; rfl
      · intro _
        rw [Scan.scan_cons, posOf_snoc]
        simpa [lexRun] using ih fuel _ mode (pre ++ c!"├") (by simp at hf; omega)
  | @corner r ps hl ih =>
    intro fuel toks mode pre hf
    cases fuel with
    | zero => omega
    | succ fuel =>
      refine tokLoop_step (c := '└') (r := r) rfl
        (toks' := toks ++ [⟨.corner, Span.splat (posOf pre), c!"└"⟩]) (s' := ⟨'└' :: r, posOf pre, mode⟩) ?_ ?_ ?_
      · unfold tokStep
        rw [if_neg (by decide), if_neg (by decide), if_neg (by decide), if_pos rfl]
      · intro h'
        rw [Scan.scan_cons] at h'
        rw [lexes_nonempty_rest hl h']; rfl
      · intro _
        rw [Scan.scan_cons, posOf_snoc]
        simpa [lexRun] using ih fuel _ mode (pre ++ c!"└") (by simp at hf; omega)
  | @comment s r ps hs hr hl ih =>
    intro fuel toks mode pre hf
    cases fuel with
    | zero => omega
    | succ fuel =>
      have hs' : '\n' ∉ '/' :: s := by simp [hs]
      obtain ⟨l, hgl, hsc⟩ := scanComments_eq '/' ('/' :: s) r (posOf pre) hs' hr
      simp only [List.cons_append] at hsc
      refine tokLoop_step (c := '/') (r := '/' :: (s ++ r)) rfl (toks' := toks)
        (s' := ⟨l :: r, advN (posOf pre) ('/' :: '/' :: s).dropLast, false⟩) ?_ ?_ ?_
      · unfold tokStep
        rw [if_neg (by decide), if_neg (by decide), if_neg (by decide), if_neg (by decide),
          if_pos (by simp)]
        simp only [hsc, Scan.exitMode]
      · intro h'
        rw [Scan.scan_cons] at h'
        rw [lexes_nonempty_rest hl h']; rfl
      · intro _
        rw [Scan.scan_cons, advN_dropLast_getLast hgl, advN_posOf]
        simpa [lexRun] using ih fuel toks false (pre ++ '/' :: '/' :: s) (by simp at hf; omega)
  | @word c s r ps hc hs hr hl ih =>
    intro fuel toks mode pre hf
    cases fuel with
    | zero => omega
    | succ fuel =>
      obtain ⟨h1, h2, h3, h4, h5⟩ := hc
      have h5' : ¬ (c = '/' ∧ (s ++ r).head? = some '/') := by
        rintro ⟨hc, hh⟩
        apply h5
        refine ⟨hc, ?_⟩
        cases hsr : s ++ r with
        | nil => simp [hsr] at hh
        | cons d t => simp [hsr] at hh; exact ⟨t, by rw [hh]⟩
      by_cases hbad : mode = true ∧ ∃ x ∈ c :: s, isValidIdentChar x = false
      · obtain ⟨hm, hx⟩ := hbad
        obtain ⟨x, b, e1, e2, e3⟩ := takeWhile_split isValidIdentChar (c :: s) hx
        have herr := scanWord_err (posOf pre) [] ((c :: s).takeWhile isValidIdentChar) x b r (posOf pre)
          (fun d hd => (List.all_eq_true.1 (List.all_takeWhile)) d hd) e2
          (by rw [← e1]; simpa using hs)
        have hcs : (c :: s).takeWhile isValidIdentChar ++ x :: (b ++ r) = c :: (s ++ r) := by
          have : ((c :: s).takeWhile isValidIdentChar ++ x :: b) ++ r = (c :: s) ++ r := by rw [← e1]
          simpa using this
        rw [hcs] at herr
        rw [tokLoop_cons fuel toks _ c (s ++ r) rfl]
        unfold tokStep
        rw [if_neg h1, if_neg h2, if_neg h3, if_neg h4, if_neg h5', hm, herr]
        simp only [Res.bind_err]
        rw [lexRun, if_pos ⟨rfl, hx⟩]
        simp [e3, advN_posOf]
      · have hv : mode = false ∨ ∀ d ∈ c :: s, isValidIdentChar d = true := by
          cases mode with
          | false => exact Or.inl rfl
          | true =>
            right
            intro d hd
            cases hvd : isValidIdentChar d with
            | true => rfl
            | false => exact absurd ⟨rfl, d, hd, hvd⟩ hbad
        obtain ⟨l, hgl, hsw⟩ := scanWord_ok mode (posOf pre) [] c s r (posOf pre) hv hs hr
        rw [List.nil_append] at hsw
        generalize ht : (⟨wordKind (c :: s), ⟨posOf pre, advN (posOf pre) (c :: s).dropLast⟩, c :: s⟩ : Token) = t at hsw
        refine tokLoop_step (c := c) (r := s ++ r) rfl (toks' := toks ++ [t])
          (s' := ⟨l :: r, advN (posOf pre) (c :: s).dropLast,
            if (toks.getLast?.map Token.isBranch).getD false && (t.kind = .when || t.kind = .given) then true else mode⟩)
          ?_ ?_ ?_
        · unfold tokStep
          rw [if_neg h1, if_neg h2, if_neg h3, if_neg h4, if_neg h5', hsw]
          simp only [Res.bind_ok]
        · intro h'
          rw [Scan.scan_cons] at h'
          rw [lexes_nonempty_rest hl h', lexRun, if_neg hbad]
          simp only [lexRun]
          rw [← ht, advN_posOf]
        · intro _
          rw [Scan.scan_cons, advN_dropLast_getLast hgl, advN_posOf, lexRun, if_neg hbad]
          rw [ih fuel _ _ (pre ++ c :: s) (by simp at hf; omega)]
          simp only [← ht, advN_posOf]

end
end Bulloak
