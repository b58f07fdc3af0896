import Verif.Spec.SolFile
import Verif.Lemmas.SolLex
/-! # Lemmas about Solidity files: a text has at most one layout -/

namespace Bulloak
open Spec
set_option linter.unusedSectionVars false

theorem run_split {m : SolMode} {a b : Str} {q : List SolTok × SolMode} (h : solRun m (a ++ b) = some q) :
    ∃ ta m' tb, solRun m a = some (ta, m') ∧ solRun m' b = some (tb, q.2) ∧ q.1 = ta ++ tb := by
  rw [run_append] at h
  cases ha : solRun m a with
  | none => rw [ha] at h; cases h
  | some p =>
    rw [ha] at h
    simp only [Option.bind_some] at h
    cases hb : solRun p.2 b with
    | none => rw [hb] at h; cases h
    | some r =>
      rw [hb] at h
      simp only [Option.map_some, Option.some.injEq] at h
      subst h
      exact ⟨p.1, p.2, r.1, rfl, hb, rfl⟩

theorem run_join {m m' m'' : SolMode} {a b : Str} {ta tb : List SolTok} (h : solRun m a = some (ta, m')) (h' : solRun m' b = some (tb, m'')) :
    solRun m (a ++ b) = some (ta ++ tb, m'') := by
  rw [run_append, h]
  simp [h']

theorem run_cons {m : SolMode} {c : Char} {s : Str} {q : List SolTok × SolMode} (h : solRun m (c :: s) = some q) :
    ∃ t1 m' t2, solStep m c = some (t1, m') ∧ solRun m' s = some (t2, q.2) ∧ q.1 = t1 ++ t2 := by
  obtain ⟨ta, m', tb, h1, h2, h3⟩ := run_split (a := [c]) (b := s) h
  refine ⟨ta, m', tb, ?_, h2, h3⟩
  simp only [solRun] at h1
  cases hs : solStep m c with
  | none => rw [hs] at h1; cases h1
  | some p =>
    rw [hs] at h1
    simp at h1
    rw [← h1.1, ← h1.2]

/-- The rest of a text whose beginning ends outside of all tokens. -/
theorem Spec.SolReads.split {a e : Str} {ta t : List SolTok} (ha : SolReads a ta) (h : SolReads (a ++ e) t) : ∃ te, SolReads e te ∧ t = ta ++ te := by
  obtain ⟨ta', m', tb, h1, h2, h3⟩ := run_split h
  rw [ha] at h1
  cases h1
  exact ⟨tb, h2, h3⟩

theorem Spec.SolReads.unique {s : Str} {t t' : List SolTok} (h : SolReads s t) (h' : SolReads s t') : t = t' := by
  unfold SolReads at h h'
  rw [h] at h'
  cases h'; rfl

/-- To leave a word, a string or a pragma, a token is completed. -/
theorem run_leaves {m : SolMode} {s : Str}
    (h0 : (∃ w, m = .word w) ∨ (∃ q w, m = .str q w) ∨ (∃ q w, m = .escape q w) ∨ ∃ w, m = .pragma w) : solRun m s ≠ some ([], .code) := by
  induction s generalizing m with
  | nil =>
    intro h
    simp only [solRun, Option.some.injEq, Prod.mk.injEq, true_and] at h
    subst h
    rcases h0 with ⟨w, h⟩ | ⟨q, w, h⟩ | ⟨q, w, h⟩ | ⟨w, h⟩ <;> cases h
  | cons c s ih =>
    intro h
    obtain ⟨t1, m', t2, h1, h2, h3⟩ := run_cons h
    simp only at h2 h3
    obtain ⟨rfl, rfl⟩ := List.nil_eq_append_iff.1 h3
    rcases h0 with ⟨w, rfl⟩ | ⟨q, w, rfl⟩ | ⟨q, w, rfl⟩ | ⟨w, rfl⟩
    · simp only [solStep] at h1
      split at h1
      · cases h1; exact ih (.inl ⟨_, rfl⟩) h2
      · split at h1
        · cases h1; exact ih (.inr (.inr (.inr ⟨_, rfl⟩))) h2
        · cases hs : solStart c with
          | none => rw [hs] at h1; cases h1
          | some p => rw [hs] at h1; simp at h1
    · simp only [solStep] at h1
      split at h1
      · cases h1
      · split at h1
        · cases h1; exact ih (.inr (.inr (.inl ⟨_, _, rfl⟩))) h2
        · split at h1
          · cases h1
          · cases h1; exact ih (.inr (.inl ⟨_, _, rfl⟩)) h2
    · simp only [solStep] at h1
      split at h1
      · cases h1
      · cases h1; exact ih (.inr (.inl ⟨_, _, rfl⟩)) h2
    · simp only [solStep] at h1
      split at h1
      · cases h1
      · cases h1; exact ih (.inr (.inr (.inr ⟨_, rfl⟩))) h2

theorem sym_facts {c : Char} (h : isSym c = true) : isSolWs c = false ∧ isWordChar c = false ∧ isQuote c = false ∧ c ≠ '/' := by
  unfold isSym at h
  rw [List.contains_iff_mem] at h
  revert c
  decide

theorem quote_facts {c : Char} (h : isQuote c = true) : isSolWs c = false ∧ isWordChar c = false := by
  simp only [isQuote, Bool.or_eq_true, beq_iff_eq] at h
  rcases h with rfl | rfl <;> decide

/-- A text that begins with a token has a token. -/
theorem startsTok_tokens {s : Str} (h : StartsTok s) {ts : List SolTok} (hr : SolReads s ts) : ts ≠ [] := by
  rintro rfl
  obtain ⟨c, r, rfl, hc⟩ := h
  obtain ⟨t1, m', t2, h1, h2, h3⟩ := run_cons hr
  simp only at h2 h3
  obtain ⟨rfl, rfl⟩ := List.nil_eq_append_iff.1 h3
  simp only [solStep, solStart] at h1
  rcases hc with hc | hc | hc
  · rw [wordChar_not_ws hc] at h1
    simp only [Bool.false_eq_true, if_false, hc, if_true] at h1
    cases h1
    exact run_leaves (.inl ⟨_, rfl⟩) h2
  · obtain ⟨e1, e2⟩ := quote_facts hc
    simp only [e1, e2, hc, Bool.false_eq_true, if_false, if_true] at h1
    cases h1
    exact run_leaves (.inr (.inl ⟨_, _, rfl⟩)) h2
  · obtain ⟨e1, e2, e3, e4⟩ := sym_facts hc
    simp [e1, e2, e3, e4, hc] at h1

/-- Of two beginnings without tokens, both followed by a token, none is longer. -/
theorem gap_unique {g g' x x' : Str} (hg : SolReads g []) (hg' : SolReads g' []) (hx : StartsTok x) (hx' : StartsTok x') (h : g ++ x = g' ++ x') :
    g = g' ∧ x = x' := by
  have key : ∀ {g g' x x' e : Str}, SolReads g [] → SolReads g' [] → StartsTok x → g' = g ++ e → x = e ++ x' → e = [] := by
    intro g g' x x' e hg hg' hx he hxe
    cases e with
    | nil => rfl
    | cons c e =>
      exfalso
      rw [he] at hg'
      obtain ⟨te, h1, h2⟩ := hg.split hg'
      obtain rfl : te = [] := by simpa using h2.symm
      obtain ⟨d, r, hd, hc⟩ := hx
      rw [hd] at hxe
      simp only [List.cons_append, List.cons.injEq] at hxe
      obtain ⟨rfl, _⟩ := hxe
      exact startsTok_tokens ⟨d, e, rfl, hc⟩ h1 rfl
  rcases List.append_eq_append_iff.1 h with ⟨e, h1, h2⟩ | ⟨e, h1, h2⟩
  · have := key hg hg' hx h1 h2
    subst this
    exact ⟨by simpa using h1.symm, by simpa using h2⟩
  · have := key hg' hg hx' h1 h2
    subst this
    exact ⟨by simpa using h1, by simpa using h2.symm⟩

/-- A character that is a symbol, read last, is a token. -/
theorem last_sym {s : Str} {c : Char} {ts : List SolTok} (hc : isSym c = true) (h : SolReads (s ++ [c]) ts) (hn : ts = []) : False := by
  subst hn
  obtain ⟨ta, m', tb, h1, h2, h3⟩ := run_split h
  simp only at h2 h3
  obtain ⟨rfl, rfl⟩ := List.nil_eq_append_iff.1 h3
  obtain ⟨t1, m'', t2, h4, h5, h6⟩ := run_cons h2
  simp only [solRun, Option.some.injEq, Prod.mk.injEq] at h5
  obtain ⟨h5a, rfl⟩ := h5
  simp only at h6
  obtain ⟨rfl, rfl⟩ := List.nil_eq_append_iff.1 h6
  obtain ⟨e1, e2, e3, e4⟩ := sym_facts hc
  cases m' with
  | code => simp [solStep, solStart, e1, e2, e3, e4, hc] at h4
  | word w =>
    by_cases hw : w = c!"pragma"
    · simp [solStep, e2, hw] at h4
    · simp [solStep, e2, hw, solStart, e1, e3, e4, hc] at h4
  | slash =>
    by_cases hst : c = '*'
    · simp [solStep, hst] at h4
    · simp [solStep, e4, hst, solStart, e1, e2, e3, hc] at h4
  | line =>
    have : isSolEnd c = false := by
      cases hs : isSolEnd c with
      | false => rfl
      | true =>
        simp only [isSolEnd, Bool.or_eq_true, beq_iff_eq] at hs
        rcases hs with ((((rfl | rfl) | rfl) | rfl) | rfl) | rfl <;> exact absurd hc (by decide)
    simp [solStep, this] at h4
  | block =>
    by_cases hst : c = '*' <;> simp [solStep, hst] at h4
  | blockStar =>
    by_cases hst : c = '*' <;> simp [solStep, hst, e4] at h4
  | str q s =>
    simp only [solStep] at h4
    split at h4
    · cases h4
    · split at h4
      · cases h4
      · split at h4 <;> cases h4
  | escape q s =>
    simp only [solStep] at h4
    split at h4 <;> cases h4
  | pragma s =>
    by_cases hst : c = ';' <;> simp [solStep, hst] at h4

/-- What follows the first part does not matter. -/
theorem takePart_append {d : Nat} {ts p r x : List SolTok} (h : takePart d ts = some (p, r)) : takePart d (ts ++ x) = some (p, r ++ x) := by
  induction ts generalizing d p r with
  | nil => cases h
  | cons t ts ih =>
    rw [List.cons_append]
    unfold takePart at h ⊢
    split at h
    · rename_i hc
      cases h
      rw [if_pos hc]
    · rename_i hc
      rw [if_neg hc]
      split at h
      · rename_i hc2
        cases h
        rw [if_pos hc2]
      · rename_i hc2
        rw [if_neg hc2]
        split at h
        · cases h
        · rename_i hc3
          rw [if_neg hc3]
          generalize hd : (if isOpen t then d + 1 else if isClose t then d - 1 else d) = d' at h ⊢
          cases hq : takePart d' ts with
          | none => rw [hq] at h; cases h
          | some q =>
            rw [hq] at h
            simp only [Option.map_some, Option.some.injEq, Prod.mk.injEq] at h
            rw [ih hq]
            simp [← h.1, ← h.2]

/-- Of two parts at the same place none is longer. -/
theorem part_unique {s s' x x' : Str} {ts ts' : List SolTok} (hs : SolReads s ts) (hs' : SolReads s' ts') (ho : OnePart ts) (ho' : OnePart ts')
    (he : EndsPart s) (he' : EndsPart s') (h : s ++ x = s' ++ x') : s = s' ∧ x = x' := by
  have key : ∀ {s s' e : Str} {ts ts' : List SolTok}, SolReads s ts → SolReads s' ts' → OnePart ts → OnePart ts' → EndsPart s' → s' = s ++ e → e = [] := by
    intro s s' e ts ts' hs hs' ho ho' he' hse
    rw [hse] at hs' he'
    obtain ⟨te, h1, rfl⟩ := hs.split hs'
    unfold OnePart at ho ho'
    rw [takePart_append ho] at ho'
    have hte : te = [] := by
      simp only [Option.some.injEq, Prod.mk.injEq] at ho'
      simpa using ho'.2
    rcases List.eq_nil_or_concat e with h | ⟨e', c, rfl⟩
    · exact h
    · exfalso
      obtain ⟨r, d, h2, h3⟩ := he'
      rw [List.concat_eq_append] at h1 h2
      rw [← List.append_assoc] at h2
      have := List.append_inj_right' h2 rfl
      simp only [List.cons.injEq, and_true] at this
      subst this
      refine last_sym ?_ h1 hte
      rcases h3 with rfl | rfl <;> decide
  rcases List.append_eq_append_iff.1 h with ⟨e, h1, h2⟩ | ⟨e, h1, h2⟩
  · have := key hs hs' ho ho' he' h1
    subst this
    exact ⟨by simpa using h1.symm, by simpa using h2⟩
  · have := key hs' hs ho' ho he h1
    subst this
    exact ⟨by simpa using h1, by simpa using h2.symm⟩

theorem close_startsTok (r : Str) : StartsTok ('}' :: r) := ⟨'}', r, rfl, .inr (.inr (by decide))⟩

/-- No part begins with a closing brace. -/
theorem part_not_close {s x : Str} {ts : List SolTok} (hs : SolReads s ts) (ho : OnePart ts) (hst : StartsTok s) (h : s = '}' :: x) : False := by
  subst h
  obtain ⟨t1, m', t2, h1, h2, h3⟩ := run_cons hs
  have : solStep .code '}' = some ([.sym '}'], .code) := rfl
  rw [this] at h1
  cases h1
  simp only at h3
  rw [h3] at ho
  simp [OnePart, takePart, isClose] at ho

theorem seg_unique {G : SolGrammar} {s s' : Seg} (h : s.Fits G) (h' : s'.Fits G) (ht : s.text = s'.text) : s = s' := by
  obtain ⟨_, _, ts, h1, _, _, h2⟩ := h
  obtain ⟨_, _, ts', h1', _, _, h2'⟩ := h'
  rw [ht] at h1
  cases h1.unique h1'
  cases s <;> cases s' <;> simp_all [Seg.text]

/-- The parts of a contract are determined by its text. -/
theorem segs_unique {G : SolGrammar} {l l' : List (Seg × Str)} {g g' r r' : Str} (hg : SolReads g []) (hg' : SolReads g' [])
    (hl : ∀ p ∈ l, p.1.Fits G ∧ SolReads p.2 []) (hl' : ∀ p ∈ l', p.1.Fits G ∧ SolReads p.2 [])
    (h : g ++ (segsText l ++ '}' :: r) = g' ++ (segsText l' ++ '}' :: r')) : g = g' ∧ l = l' ∧ r = r' := by
  have hst : ∀ {l : List (Seg × Str)} (r : Str), (∀ p ∈ l, p.1.Fits G ∧ SolReads p.2 []) → StartsTok (segsText l ++ '}' :: r) := by
    intro l r hl
    cases l with
    | nil => exact close_startsTok r
    | cons p l =>
      obtain ⟨c, s, hc, hc'⟩ := (hl p (by simp)).1.1
      exact ⟨c, s ++ p.2 ++ (segsText l ++ '}' :: r), by simp [segsText, hc], hc'⟩
  induction l generalizing l' g g' with
  | nil =>
    obtain ⟨rfl, h2⟩ := gap_unique hg hg' (hst r hl) (hst r' hl') h
    cases l' with
    | nil =>
      refine ⟨rfl, rfl, ?_⟩
      simpa [segsText] using h2
    | cons p l' =>
      exfalso
      obtain ⟨h3, _, ts, h4, h5, _⟩ := (hl' p (by simp)).1
      obtain ⟨c, s, hc, _⟩ := id h3
      simp only [segsText, List.flatMap_nil, List.nil_append, List.flatMap_cons, hc, List.cons_append, List.cons.injEq] at h2
      exact part_not_close h4 h5 h3 (by rw [hc, ← h2.1])
  | cons p l ih =>
    obtain ⟨rfl, h2⟩ := gap_unique hg hg' (hst r hl) (hst r' hl') h
    cases l' with
    | nil =>
      exfalso
      obtain ⟨h3, _, ts, h4, h5, _⟩ := (hl p (by simp)).1
      obtain ⟨c, s, hc, _⟩ := id h3
      simp only [segsText, List.flatMap_nil, List.nil_append, List.flatMap_cons, hc, List.cons_append, List.cons.injEq] at h2
      exact part_not_close h4 h5 h3 (by rw [hc, h2.1])
    | cons p' l' =>
      obtain ⟨_, he, ts, h4, h5, _⟩ := (hl p (by simp)).1
      obtain ⟨_, he', ts', h4', h5', _⟩ := (hl' p' (by simp)).1
      have h2' : p.1.text ++ (p.2 ++ (segsText l ++ '}' :: r)) = p'.1.text ++ (p'.2 ++ (segsText l' ++ '}' :: r')) := by
        simpa [segsText] using h2
      obtain ⟨h6, h7⟩ := part_unique h4 h4' h5 h5' he he' h2'
      obtain ⟨h8, rfl, rfl⟩ := ih (hl p (by simp)).2 (hl' p' (by simp)).2 (fun q hq => hl q (by simp [hq])) (fun q hq => hl' q (by simp [hq])) h7
      refine ⟨rfl, ?_, rfl⟩
      rw [show p = p' from Prod.ext (seg_unique (hl p (by simp)).1 (hl' p' (by simp)).1 h6) h8]

/-- Of two fronts of a file at the same place none is longer. -/
theorem before_unique {b b' h h' x x' : Str} {tb tb' t t' : List SolTok} {k k' : Str} (hb : SolReads b tb) (hb' : SolReads b' tb')
    (hn : ∀ k ∈ contractWords, .word k ∉ tb) (hn' : ∀ k ∈ contractWords, .word k ∉ tb') (hk : k ∈ contractWords) (hk' : k' ∈ contractWords)
    (hs : StartsTok h) (hs' : StartsTok h') (hr : SolReads h (.word k :: t)) (hr' : SolReads h' (.word k' :: t'))
    (e : b ++ (h ++ x) = b' ++ (h' ++ x')) : b = b' ∧ h ++ x = h' ++ x' := by
  have key : ∀ {b b' h x y e : Str} {tb tb' t : List SolTok} {k : Str}, SolReads b tb → SolReads b' tb' → (∀ k ∈ contractWords, .word k ∉ tb') →
      k ∈ contractWords → StartsTok h → SolReads h (.word k :: t) → b' = b ++ e → h ++ x = e ++ y → e = [] := by
    intro b b' h x y e tb tb' t k hb hb' hn' hk hs hr hbe hxe
    cases he : e with
    | nil => rfl
    | cons c e0 =>
      exfalso
      rw [hbe] at hb'
      obtain ⟨te, h1, rfl⟩ := hb.split hb'
      have hw : .word k ∈ te := by
        rcases List.append_eq_append_iff.1 hxe with ⟨f, h2, _⟩ | ⟨f, h2, _⟩
        · rw [h2] at h1
          obtain ⟨tf, _, rfl⟩ := hr.split h1
          simp
        · rw [h2] at hr
          obtain ⟨tf, _, h3⟩ := h1.split hr
          cases te with
          | nil =>
            exfalso
            obtain ⟨d, r, hd, hc⟩ := hs
            rw [hd, he, List.cons_append] at h2
            simp only [List.cons.injEq] at h2
            exact startsTok_tokens ⟨c, e0, he, h2.1 ▸ hc⟩ h1 rfl
          | cons u te =>
            simp only [List.cons_append, List.cons.injEq] at h3
            simp [h3.1]
      exact hn' k hk (by simp [hw])
  rcases List.append_eq_append_iff.1 e with ⟨f, h1, h2⟩ | ⟨f, h1, h2⟩
  · have := key hb hb' hn' hk hs hr h1 h2
    subst this
    exact ⟨by simpa using h1.symm, by simpa using h2⟩
  · have := key hb' hb hn hk' hs' hr' h1 h2
    subst this
    exact ⟨by simpa using h1, by simpa using h2.symm⟩

/-- Of two headers at the same place none is longer. -/
theorem header_unique {h h' x x' : Str} {t t' : List SolTok} (hr : SolReads (h ++ ['{']) (t ++ [.sym '{'])) (hr' : SolReads (h' ++ ['{']) (t' ++ [.sym '{']))
    (hn : .sym '{' ∉ t) (hn' : .sym '{' ∉ t') (e : h ++ '{' :: x = h' ++ '{' :: x') : h = h' ∧ x = x' := by
  have key : ∀ {h h' e : Str} {t t' : List SolTok}, SolReads (h ++ ['{']) (t ++ [.sym '{']) → SolReads (h' ++ ['{']) (t' ++ [.sym '{']) →
      .sym '{' ∉ t → .sym '{' ∉ t' → h' ++ ['{'] = h ++ ['{'] ++ e → e = [] := by
    intro h h' e t t' hr hr' hn hn' he
    rcases List.eq_nil_or_concat e with h0 | ⟨e', c, rfl⟩
    · exact h0
    · exfalso
      rw [List.concat_eq_append] at he
      have hc : ['{'] = [c] := List.append_inj_right' (by simpa using he : h' ++ ['{'] = (h ++ '{' :: e') ++ [c]) rfl
      cases hc
      rw [he] at hr'
      obtain ⟨te, h1, h2⟩ := hr.split hr'
      refine last_sym (by decide) h1 ?_
      rcases List.eq_nil_or_concat te with h3 | ⟨u, v, rfl⟩
      · exact h3
      · exfalso
        rw [List.concat_eq_append, ← List.append_assoc] at h2
        have := List.append_inj_left' h2 rfl
        rw [this] at hn'
        simp at hn'
  have e' : (h ++ ['{']) ++ x = (h' ++ ['{']) ++ x' := by simpa using e
  have fin : h ++ ['{'] = h' ++ ['{'] ∧ x = x' := by
    rcases List.append_eq_append_iff.1 e' with ⟨f, h1, h2⟩ | ⟨f, h1, h2⟩
    · have := key hr hr' hn hn' h1
      subst this
      exact ⟨by simpa using h1.symm, by simpa using h2⟩
    · have := key hr' hr hn' hn h1
      subst this
      exact ⟨by simpa using h1, by simpa using h2.symm⟩
  exact ⟨List.append_inj_left' fin.1 rfl, fin.2⟩

/-- A text is the text of at most one valid layout. -/
theorem layout_unique {G : SolGrammar} {L L' : Layout} (h : L.Fits G) (h' : L'.Fits G) (ht : L.text = L'.text) : L = L' := by
  obtain ⟨tb, hb, hbn, _⟩ := h.before
  obtain ⟨tb', hb', hbn', _⟩ := h'.before
  obtain ⟨k, t, hk, hs, hr, hn, hnm, _⟩ := h.header
  obtain ⟨k', t', hk', hs', hr', hn', hnm', _⟩ := h'.header
  have st : ∀ {s : Str}, StartsTok s → StartsTok (s ++ ['{']) := by
    rintro s ⟨c, r, rfl, hc⟩
    exact ⟨c, r ++ ['{'], rfl, hc⟩
  have e1 : L.before ++ ((L.header ++ ['{']) ++ (L.lead ++ (segsText L.segs ++ '}' :: L.rest))) =
      L'.before ++ ((L'.header ++ ['{']) ++ (L'.lead ++ (segsText L'.segs ++ '}' :: L'.rest))) := by
    simpa [Layout.text, Layout.front] using ht
  obtain ⟨e2, e3⟩ := before_unique hb hb' hbn hbn' hk hk' (st hs) (st hs') hr hr' e1
  have m : ∀ {k : Str} {t : List SolTok}, .sym '{' ∉ t → .sym '{' ∉ (.word k :: t : List SolTok) := by simp
  obtain ⟨e4, e5⟩ := header_unique hr hr' (m hn) (m hn') (by simpa using e3)
  obtain ⟨e6, e7, e8⟩ := segs_unique h.lead h'.lead h.segs h'.segs e5
  have e9 : L.name = L'.name := by
    rw [e4] at hr
    have := hr.unique hr'
    have := List.append_inj_left' this rfl
    rw [← hnm, ← hnm', this]
  cases L
  cases L'
  simp_all

/-- There are parsers that read the valid files correctly. -/
theorem reader_exists (G : SolGrammar) : ∃ P, Reader P G ∧ ∀ L : Layout, L.Fits G → P L.text = some [.contract L.contract] := by
  classical
  have key : ∃ P : SolParser, ∀ L : Layout, L.Fits G → P L.text = some [.contract L.contract] := by
    refine ⟨fun s => if h : ∃ L : Layout, L.Fits G ∧ L.text = s then some [.contract h.choose.contract] else none, fun L hL => ?_⟩
    have h : ∃ L' : Layout, L'.Fits G ∧ L'.text = L.text := ⟨L, hL, rfl⟩
    have e : h.choose = L := layout_unique h.choose_spec.1 hL h.choose_spec.2
    show (if h : ∃ L' : Layout, L'.Fits G ∧ L'.text = L.text then some [SolUnitPart.contract h.choose.contract] else none) = _
    rw [dif_pos h, e]
  obtain ⟨P, hP⟩ := key
  exact ⟨P, fun L hL => ⟨_, hP L hL, 0, [], rfl⟩, hP⟩

end Bulloak
