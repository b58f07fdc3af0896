import Verif.Lemmas.SolFile
/-! # Lemmas about Solidity files: a file with the tokens of a generated one has a layout -/

namespace Bulloak
open Spec
set_option linter.unusedSectionVars false

/-- Tokens whose last character ends them. -/
def Closing : SolTok → Prop
  | .word _ => False
  | .sym c => c ≠ '/'
  | .str _ => True
  | .pragma _ => True

theorem start_toks {c : Char} {ts : List SolTok} {m : SolMode} (h : solStart c = some (ts, m)) :
    ts = [] ∨ (ts = [.sym c] ∧ m = .code) := by
  unfold solStart at h
  split at h
  · cases h; exact .inl rfl
  · split at h
    · cases h; exact .inl rfl
    · split at h
      · cases h; exact .inl rfl
      · split at h
        · cases h; exact .inl rfl
        · split at h
          · cases h; exact .inr ⟨rfl, rfl⟩
          · cases h

/-- A closing token is completed by its last character. -/
theorem step_closing {m m' : SolMode} {c : Char} {a b : List SolTok} {t : SolTok} (ht : Closing t) (h : solStep m c = some (a ++ t :: b, m')) :
    b = [] ∧ m' = .code ∧ ∀ d, t = .sym d → c = d := by
  have one : ∀ {u : SolTok}, [u] = a ++ t :: b → a = [] ∧ u = t ∧ b = [] := by
    intro u e
    cases a with
    | nil => simp only [List.nil_append, List.cons.injEq] at e; exact ⟨rfl, e.1, e.2.symm⟩
    | cons _ a => simp at e
  have start : ∀ {u : List SolTok}, (∀ x ∈ u, ¬ Closing x) → ∀ {p : List SolTok × SolMode}, solStart c = some p → (u ++ p.1, p.2) = (a ++ t :: b, m') →
      b = [] ∧ m' = .code ∧ ∀ d, t = .sym d → c = d := by
    intro u hu p hp e
    simp only [Prod.mk.injEq] at e
    obtain ⟨e, rfl⟩ := e
    rcases start_toks (ts := p.1) (m := p.2) hp with h1 | ⟨h1, h2⟩
    · rw [h1, List.append_nil] at e
      exact absurd ht (hu t (by simp [e]))
    · rw [h1] at e
      rcases List.eq_nil_or_concat b with rfl | ⟨b', x, rfl⟩
      · have := List.append_inj_right' e rfl
        simp only [List.cons.injEq, and_true] at this
        exact ⟨rfl, h2, fun d hd => by rw [hd] at this; cases this; rfl⟩
      · exfalso
        have e' : u ++ [SolTok.sym c] = (a ++ t :: b') ++ [x] := by simpa using e
        exact hu t (by rw [List.append_inj_left' e' rfl]; simp) ht
  cases m with
  | code => exact start (u := []) (by simp) (p := (a ++ t :: b, m')) h rfl
  | word w =>
    simp only [solStep] at h
    split at h
    · simp at h
    · split at h
      · simp at h
      · cases hs : solStart c with
        | none => rw [hs] at h; cases h
        | some p =>
          rw [hs] at h
          exact start (u := [.word w]) (by simp [Closing]) hs (Option.some.inj h)
  | slash =>
    simp only [solStep] at h
    split at h
    · simp at h
    · split at h
      · simp at h
      · cases hs : solStart c with
        | none => rw [hs] at h; cases h
        | some p =>
          rw [hs] at h
          exact start (u := [.sym '/']) (by simp [Closing]) hs (Option.some.inj h)
  | line => simp only [solStep] at h; split at h <;> simp at h
  | block => simp only [solStep] at h; split at h <;> simp at h
  | blockStar =>
    simp only [solStep] at h
    split at h
    · simp at h
    · split at h <;> simp at h
  | str q s =>
    simp only [solStep] at h
    split at h
    · simp only [Option.some.injEq, Prod.mk.injEq] at h
      obtain ⟨_, rfl, rfl⟩ := one h.1
      exact ⟨rfl, h.2.symm, fun d hd => by cases hd⟩
    · split at h
      · simp at h
      · split at h <;> simp at h
  | escape q s => simp only [solStep] at h; split at h <;> simp at h
  | pragma s =>
    simp only [solStep] at h
    split at h
    · simp only [Option.some.injEq, Prod.mk.injEq] at h
      obtain ⟨_, rfl, rfl⟩ := one h.1
      exact ⟨rfl, h.2.symm, fun d hd => by cases hd⟩
    · simp at h

/-- A text can be divided after a closing token. -/
theorem run_closing {m m' : SolMode} {s : Str} {a b : List SolTok} {t : SolTok} (ht : Closing t) (h : solRun m s = some (a ++ t :: b, m')) :
    ∃ s1 c s2, s = s1 ++ c :: s2 ∧ solRun m (s1 ++ [c]) = some (a ++ [t], .code) ∧ solRun .code s2 = some (b, m') ∧ ∀ d, t = .sym d → c = d := by
  induction s generalizing m a with
  | nil => simp [solRun] at h
  | cons c s ih =>
    obtain ⟨t1, m1, t2, h1, h2, h3⟩ := run_cons h
    simp only at h2 h3
    have hc : solRun m [c] = some (t1, m1) := by simp [solRun, h1]
    rcases List.append_eq_append_iff.1 h3 with ⟨x, h4, h5⟩ | ⟨x, h4, h5⟩
    · cases x with
      | nil =>
        simp only [List.nil_append, List.append_nil] at h4 h5
        rw [← h5] at h2
        obtain ⟨s1, d, s2, e1, e2, e3, e4⟩ := ih (a := []) h2
        refine ⟨c :: s1, d, s2, by simp [e1], ?_, e3, e4⟩
        have := run_join hc e2
        simpa [h4] using this
      | cons y x =>
        simp only [List.cons_append, List.cons.injEq] at h5
        obtain ⟨rfl, rfl⟩ := h5
        rw [h4] at h1 hc
        obtain ⟨rfl, rfl, e⟩ := step_closing ht h1
        exact ⟨[], c, s, rfl, by simpa using hc, by simpa using h2, e⟩
    · rw [h5] at h2
      obtain ⟨s1, d, s2, e1, e2, e3, e4⟩ := ih h2
      refine ⟨c :: s1, d, s2, by simp [e1], ?_, e3, e4⟩
      have := run_join hc e2
      simpa [h4] using this

/-- What is in front of the next token. -/
theorem run_gap {m m' : SolMode} {s : Str} {t : SolTok} {ts : List SolTok} (ht : t ≠ .sym '/')
    (hm : m = .code ∨ m = .slash ∨ m = .line ∨ m = .block ∨ m = .blockStar)
    (h : solRun m s = some (t :: ts, m')) :
    ∃ g s', s = g ++ s' ∧ (g = [] ∧ m = .code ∨ solRun m g = some ([], .code)) ∧ StartsTok s' ∧ solRun .code s' = some (t :: ts, m') := by
  induction s generalizing m with
  | nil => simp [solRun] at h
  | cons c s ih =>
    obtain ⟨t1, m1, t2, h1, h2, h3⟩ := run_cons h
    simp only at h2 h3
    have hc : solRun m [c] = some (t1, m1) := by simp [solRun, h1]
    have go : t1 = [] → (m1 = .code ∨ m1 = .slash ∨ m1 = .line ∨ m1 = .block ∨ m1 = .blockStar) →
        ∃ g s', c :: s = g ++ s' ∧ (g = [] ∧ m = .code ∨ solRun m g = some ([], .code)) ∧ StartsTok s' ∧ solRun .code s' = some (t :: ts, m') := by
      rintro rfl hm1
      rw [List.nil_append] at h3
      rw [← h3] at h2
      obtain ⟨g, s', e1, e2, e3, e4⟩ := ih hm1 h2
      refine ⟨c :: g, s', by simp [e1], .inr ?_, e3, e4⟩
      rcases e2 with ⟨rfl, rfl⟩ | e2
      · exact hc
      · simpa using run_join hc e2
    rcases hm with rfl | rfl | rfl | rfl | rfl
    · simp only [solStep, solStart] at h1
      split at h1
      · cases h1; exact go rfl (.inl rfl)
      · split at h1
        · rename_i hw; exact ⟨[], c :: s, rfl, .inl ⟨rfl, rfl⟩, ⟨c, s, rfl, .inl hw⟩, h⟩
        · split at h1
          · rename_i hw; exact ⟨[], c :: s, rfl, .inl ⟨rfl, rfl⟩, ⟨c, s, rfl, .inr (.inl hw)⟩, h⟩
          · split at h1
            · cases h1; exact go rfl (.inr (.inl rfl))
            · split at h1
              · rename_i hw; exact ⟨[], c :: s, rfl, .inl ⟨rfl, rfl⟩, ⟨c, s, rfl, .inr (.inr hw)⟩, h⟩
              · cases h1
    · simp only [solStep] at h1
      split at h1
      · cases h1; exact go rfl (.inr (.inr (.inl rfl)))
      · split at h1
        · cases h1; exact go rfl (.inr (.inr (.inr (.inl rfl))))
        · exfalso
          cases hs : solStart c with
          | none => rw [hs] at h1; cases h1
          | some p =>
            rw [hs] at h1
            cases h1
            simp only [List.cons_append, List.cons.injEq] at h3
            exact ht h3.1
    · simp only [solStep] at h1
      split at h1
      · cases h1; exact go rfl (.inl rfl)
      · cases h1; exact go rfl (.inr (.inr (.inl rfl)))
    · simp only [solStep] at h1
      split at h1
      · cases h1; exact go rfl (.inr (.inr (.inr (.inr rfl))))
      · cases h1; exact go rfl (.inr (.inr (.inr (.inl rfl))))
    · simp only [solStep] at h1
      split at h1
      · cases h1; exact go rfl (.inl rfl)
      · split at h1
        · cases h1; exact go rfl (.inr (.inr (.inr (.inr rfl))))
        · cases h1; exact go rfl (.inr (.inr (.inr (.inl rfl))))

theorem code_gap {m' : SolMode} {s : Str} {t : SolTok} {ts : List SolTok} (ht : t ≠ .sym '/') (h : solRun .code s = some (t :: ts, m')) :
    ∃ g s', s = g ++ s' ∧ SolReads g [] ∧ StartsTok s' ∧ solRun .code s' = some (t :: ts, m') := by
  obtain ⟨g, s', e1, e2, e3, e4⟩ := run_gap ht (.inl rfl) h
  refine ⟨g, s', e1, ?_, e3, e4⟩
  rcases e2 with ⟨rfl, _⟩ | e2
  · rfl
  · exact e2

/-- From within a word, a string or a pragma the next token is that. -/
theorem run_no_sym {m m' : SolMode} {s : Str} {c : Char} {ts : List SolTok} (h0 : (∃ w, m = .word w) ∨ (∃ q w, m = .str q w) ∨ (∃ q w, m = .escape q w) ∨ ∃ w, m = .pragma w) :
    solRun m s ≠ some (.sym c :: ts, m') := by
  induction s generalizing m with
  | nil => simp [solRun]
  | cons d s ih =>
    intro h
    obtain ⟨t1, m1, t2, h1, h2, h3⟩ := run_cons h
    simp only at h2 h3
    rcases h0 with ⟨w, rfl⟩ | ⟨q, w, rfl⟩ | ⟨q, w, rfl⟩ | ⟨w, rfl⟩
    · simp only [solStep] at h1
      split at h1
      · cases h1; rw [List.nil_append] at h3; rw [← h3] at h2; exact ih (.inl ⟨_, rfl⟩) h2
      · split at h1
        · cases h1; rw [List.nil_append] at h3; rw [← h3] at h2; exact ih (.inr (.inr (.inr ⟨_, rfl⟩))) h2
        · cases hs : solStart d with
          | none => rw [hs] at h1; cases h1
          | some p => rw [hs] at h1; cases h1; simp at h3
    · simp only [solStep] at h1
      split at h1
      · cases h1; simp at h3
      · split at h1
        · cases h1; rw [List.nil_append] at h3; rw [← h3] at h2; exact ih (.inr (.inr (.inl ⟨_, _, rfl⟩))) h2
        · split at h1
          · cases h1
          · cases h1; rw [List.nil_append] at h3; rw [← h3] at h2; exact ih (.inr (.inl ⟨_, _, rfl⟩)) h2
    · simp only [solStep] at h1
      split at h1
      · cases h1
      · cases h1; rw [List.nil_append] at h3; rw [← h3] at h2; exact ih (.inr (.inl ⟨_, _, rfl⟩)) h2
    · simp only [solStep] at h1
      split at h1
      · cases h1; simp at h3
      · cases h1; rw [List.nil_append] at h3; rw [← h3] at h2; exact ih (.inr (.inr (.inr ⟨_, rfl⟩))) h2

/-- If the first token of a text is punctuation, and the text begins with it, its first character is that. -/
theorem starts_sym {m : SolMode} {s : Str} {c : Char} {ts : List SolTok} (hs : StartsTok s) (h : solRun .code s = some (.sym c :: ts, m)) :
    ∃ r, s = c :: r ∧ solRun .code r = some (ts, m) := by
  obtain ⟨d, r, rfl, hd⟩ := hs
  obtain ⟨t1, m1, t2, h1, h2, h3⟩ := run_cons h
  simp only [solStep, solStart] at h1
  simp only at h2 h3
  rcases hd with hd | hd | hd
  · rw [wordChar_not_ws hd] at h1
    simp only [Bool.false_eq_true, if_false, hd, if_true] at h1
    cases h1
    rw [List.nil_append] at h3; rw [← h3] at h2
    exact absurd h2 (run_no_sym (.inl ⟨_, rfl⟩))
  · obtain ⟨e1, e2⟩ := quote_facts hd
    simp only [e1, e2, hd, Bool.false_eq_true, if_false, if_true] at h1
    cases h1
    rw [List.nil_append] at h3; rw [← h3] at h2
    exact absurd h2 (run_no_sym (.inr (.inl ⟨_, _, rfl⟩)))
  · obtain ⟨e1, e2, e3, e4⟩ := sym_facts hd
    simp only [e1, e2, e3, e4, hd, Bool.false_eq_true, if_false, if_true] at h1
    cases h1
    simp only [List.cons_append, List.nil_append, List.cons.injEq] at h3
    obtain ⟨h3, rfl⟩ := h3
    cases h3
    exact ⟨r, rfl, h2⟩

end Bulloak
