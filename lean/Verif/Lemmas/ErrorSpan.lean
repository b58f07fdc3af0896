import Verif.Lemmas.Error
/-! # Where parse errors point -/

set_option linter.unusedSectionVars false

namespace Bulloak
open Spec

/-- The error is at one of the tokens, for branch glyphs at their end. -/
def Points (toks : List Token) (e : ParseError) : Prop :=
  ∃ t ∈ toks, Blames e.kind t ∧ (e.span = t.span ∨ t.kind.isBranch = true ∧ e.span = ⟨t.span.stop, t.span.stop⟩)

/-- Errors point at tokens, and success leaves only tokens. -/
def PointsRes {α : Type} (toks : List Token) (r : Res ParseError (α × PState)) : Prop :=
  (∀ e, r = .err e → Points toks e) ∧ ∀ a s, r = .ok (a, s) → ∀ t ∈ s.rest, t ∈ toks

variable {toks : List Token}

theorem stringLoop_rest : ∀ (rest : List Token) (acc : Str) (prev : Option Token) (t : Token), t ∈ (stringLoop acc prev rest).2.rest → t ∈ rest := by
  intro rest
  induction rest with
  | nil => intro acc prev t h; simp [stringLoop] at h
  | cons u r ih =>
    intro acc prev t h
    cases r with
    | nil => simp [stringLoop] at h
    | cons v r' =>
      rw [stringLoop] at h
      split at h
      · exact List.mem_cons_of_mem _ (ih _ _ t h)
      · exact List.mem_cons_of_mem _ h

theorem parseString_rest {st : Token} {s : PState} {t : Token} (h : t ∈ (parseString st s).2.rest) : t ∈ s.rest := by
  unfold parseString at h
  have := stringLoop_rest _ _ _ _ h
  unfold PState.consume at this
  split at this
  · exact this
  · rename_i u r hr
    rw [hr]
    exact List.mem_cons_of_mem _ this

theorem peek_mem {s : PState} {t : Token} (h : s.peek = some t) : t ∈ s.rest := by
  unfold PState.peek at h
  cases hr : s.rest with
  | nil => rw [hr] at h; cases h
  | cons u r =>
    rw [hr] at h
    exact List.mem_cons_of_mem _ (List.mem_of_mem_head? h)

theorem current_mem {s : PState} {t : Token} (h : s.current = some t) : t ∈ s.rest := List.mem_of_mem_head? h

theorem pointsRes_bind {α β : Type} {x : Res ParseError α} {f : α → Res ParseError (β × PState)}
    (hx : ∀ e, x = .err e → Points toks e) (hf : ∀ a, x = .ok a → PointsRes toks (f a)) : PointsRes toks (x >>= f) := by
  cases x with
  | ok a => exact hf a rfl
  | err e => exact ⟨fun e' h => by cases h; exact hx e rfl, fun a s h => by cases h⟩
  | panic => exact ⟨fun e' h => (by cases h), fun a s h => (by cases h)⟩

theorem pointsRes_panic {α : Type} : PointsRes (α := α) toks .panic := ⟨fun e h => (by cases h), fun a s h => (by cases h)⟩

theorem pointsRes_ok {α : Type} {a : α} {s : PState} (h : ∀ t ∈ s.rest, t ∈ toks) : PointsRes toks (.ok (a, s)) :=
  ⟨fun e h => (by cases h), fun a' s' h' => by cases h'; exact h⟩

theorem pointsRes_err {α : Type} {e : ParseError} (h : Points toks e) : PointsRes (α := α) toks (.err e) :=
  ⟨fun e' h' => by cases h'; exact h, fun a' s' h' => by cases h'⟩

theorem points_okOr {α : Type} {o : Option α} {e e' : ParseError} (he : Points toks e) (h : Res.okOr o e = .err e') : Points toks e' := by
  cases o <;> cases h
  exact he

theorem points_unwrap {α : Type} {o : Option α} {e' : ParseError} (h : Res.unwrap o = .err e') : Points toks e' := by
  cases o <;> cases h

theorem points_end {t : Token} (h : t ∈ toks) (hb : t.kind.isBranch = true) {k : ParseErrorKind} (hk : Blames k t) :
    Points toks (perr (t.span.withStart t.span.stop) k) :=
  ⟨t, h, hk, Or.inr ⟨hb, rfl⟩⟩

theorem points_eof {t : Token} (h : t ∈ toks) (hb : t.kind.isBranch = true) :
    Points toks (perr (t.span.withStart t.span.stop) .eofUnexpected) :=
  points_end h hb (by
    show t.kind = .tee ∨ t.kind = .corner
    cases hk : t.kind <;> rw [hk] at hb <;> simp [TokenKind.isBranch] at hb ⊢)

theorem branch_of {t : Token} (h : ¬ (!t.kind.isBranch) = true) : t.kind.isBranch = true := by simpa using h

theorem points_tok {t : Token} (h : t ∈ toks) {k : ParseErrorKind} (hk : Blames k t) : Points toks (perr t.span k) :=
  ⟨t, h, hk, Or.inl rfl⟩

theorem okOr_some {α ε : Type} {o : Option α} {e : ε} {a : α} (h : Res.okOr o e = .ok a) : o = some a := by
  cases o <;> cases h; rfl

theorem unwrap_some {α ε : Type} {o : Option α} {a : α} (h : (Res.unwrap o : Res ε α) = .ok a) : o = some a := by
  cases o <;> cases h; rfl

theorem parseDescription_points {token : Token} (ht : token ∈ toks) (d : Nat) {s : PState} (hs : ∀ t ∈ s.rest, t ∈ toks) :
    PointsRes toks (parseDescription token d s) := by
  unfold parseDescription
  split
  · exact pointsRes_panic
  · rename_i hb
    have hb := branch_of hb
    refine pointsRes_bind (fun e h => points_okOr (points_eof ht hb) h) fun st hst => ?_
    refine pointsRes_bind (fun e h => points_unwrap h) fun p hp => ?_
    exact pointsRes_ok fun t h => hs t (parseString_rest h)

theorem actionLoop_points {token : Token} (ht : token ∈ toks) (hb : token.kind.isBranch = true) : ∀ (fuel : Nat) (cs : List Ast) (s : PState), (∀ t ∈ s.rest, t ∈ toks) →
    PointsRes toks (actionLoop token fuel cs s) := by
  intro fuel
  induction fuel with
  | zero => intro cs s hs; exact pointsRes_panic
  | succ fuel ih =>
    intro cs s hs
    rw [actionLoop]
    cases hc : s.current with
    | none => exact pointsRes_ok hs
    | some t =>
      simp only
      split
      · refine pointsRes_bind (fun e h => points_okOr (points_eof ht hb) h) fun nt hnt => ?_
        refine pointsRes_bind (fun e h => points_unwrap h) fun ct hct => ?_
        cases unwrap_some hct
        have hnt := hs _ (peek_mem (okOr_some hnt))
        split
        · refine pointsRes_bind (fun e h => (parseDescription_points (hs _ (current_mem hc)) _ hs).1 e h) ?_
          rintro ⟨a, s'⟩ h
          exact ih _ _ ((parseDescription_points (hs _ (current_mem hc)) _ hs).2 a s' h)
        · rename_i hk
          exact pointsRes_err (points_tok hnt ⟨rfl, hk⟩)
      · exact pointsRes_ok hs

theorem parseAction_points {token : Token} (ht : token ∈ toks) (fuel : Nat) {s : PState} (hs : ∀ t ∈ s.rest, t ∈ toks) :
    PointsRes toks (parseAction fuel token s) := by
  unfold parseAction
  split
  · exact pointsRes_panic
  · rename_i hb
    have hb := branch_of hb
    refine pointsRes_bind (fun e h => points_okOr (points_eof ht hb) h) fun st hst => ?_
    have hs' : ∀ t ∈ (parseString st s).2.rest, t ∈ toks := fun t h => hs t (parseString_rest h)
    refine pointsRes_bind (fun e h => (actionLoop_points ht hb fuel _ _ hs').1 e h) ?_
    rintro ⟨a, s'⟩ h
    refine pointsRes_bind (fun e h => points_unwrap h) fun p hp => ?_
    exact pointsRes_ok ((actionLoop_points ht hb fuel _ _ hs').2 a s' h)

section
variable [U : Ucd]

theorem condition_points (fuel : Nat) :
    (∀ (token : Token) (s : PState), token ∈ toks → (∀ t ∈ s.rest, t ∈ toks) →
      (∀ t, s.peek = some t → t.kind = .when ∨ t.kind = .given) → PointsRes toks (parseCondition fuel token s)) ∧
    (∀ (token : Token) (cs : List Ast) (s : PState), token ∈ toks → token.kind.isBranch = true → (∀ t ∈ s.rest, t ∈ toks) →
      PointsRes toks (conditionLoop fuel token cs s)) := by
  induction fuel with
  | zero =>
    refine ⟨fun token s _ _ _ => ?_, fun token cs s _ _ _ => ?_⟩
    · rw [parseCondition]; exact pointsRes_panic
    · rw [conditionLoop]; exact pointsRes_panic
  | succ fuel ih =>
    obtain ⟨ih1, ih2⟩ := ih
    refine ⟨fun token s ht hs hk => ?_, fun token cs s ht hb hs => ?_⟩
    · rw [parseCondition]
      split
      · exact pointsRes_panic
      · rename_i hb
        have hb := branch_of hb
        refine pointsRes_bind (fun e h => points_okOr (points_eof ht hb) h) fun st hst => ?_
        have hs' : ∀ t ∈ (parseString st s).2.rest, t ∈ toks := fun t h => hs t (parseString_rest h)
        simp only
        split
        · exact pointsRes_err (points_tok (hs _ (peek_mem (okOr_some hst))) (hk _ (okOr_some hst)))
        · refine pointsRes_bind (fun e h => (ih2 token [] _ ht hb hs').1 e h) ?_
          rintro ⟨a, s'⟩ h
          refine pointsRes_bind (fun e h => points_unwrap h) fun p hp => ?_
          exact pointsRes_ok ((ih2 token [] _ ht hb hs').2 a s' h)
    · rw [conditionLoop]
      cases hc : s.current with
      | none => exact pointsRes_ok hs
      | some t =>
        simp only
        split
        · refine pointsRes_bind (fun e h => points_okOr (points_eof ht hb) h) fun nt hnt => ?_
          refine pointsRes_bind (fun e h => points_unwrap h) fun ct hct => ?_
          cases unwrap_some hct
          have hpk := okOr_some hnt
          have hnt := hs _ (peek_mem hpk)
          have hc' := hs _ (current_mem hc)
          split
          · rename_i hk
            have hk' : ∀ t, s.peek = some t → t.kind = .when ∨ t.kind = .given := by
              intro t h; rw [hpk] at h; cases h; exact Or.inl hk
            refine pointsRes_bind (fun e h => (ih1 _ _ hc' hs hk').1 e h) ?_
            rintro ⟨a, s'⟩ h
            exact ih2 _ _ _ ht hb ((ih1 _ _ hc' hs hk').2 a s' h)
          · rename_i hk
            have hk' : ∀ t, s.peek = some t → t.kind = .when ∨ t.kind = .given := by
              intro t h; rw [hpk] at h; cases h; exact Or.inr hk
            refine pointsRes_bind (fun e h => (ih1 _ _ hc' hs hk').1 e h) ?_
            rintro ⟨a, s'⟩ h
            exact ih2 _ _ _ ht hb ((ih1 _ _ hc' hs hk').2 a s' h)
          · refine pointsRes_bind (fun e h => (parseAction_points hc' fuel hs).1 e h) ?_
            rintro ⟨a, s'⟩ h
            exact ih2 _ _ _ ht hb ((parseAction_points hc' fuel hs).2 a s' h)
          · rename_i h1 h2 h3
            exact pointsRes_err (points_tok hnt ⟨rfl, h1, h2, h3⟩)
        · exact pointsRes_ok hs

theorem parseBranch_points (fuel : Nat) {token : Token} {s : PState} (ht : token ∈ toks) (hs : ∀ t ∈ s.rest, t ∈ toks) :
    PointsRes toks (parseBranch fuel token s) := by
  unfold parseBranch
  split
  · exact pointsRes_panic
  · rename_i hb
    have hb := branch_of hb
    refine pointsRes_bind (fun e h => points_okOr (points_eof ht hb) h) fun ft hft => ?_
    have hpk := okOr_some hft
    have hft := hs _ (peek_mem hpk)
    have hk : ∀ x : Ast × PState, (∀ t ∈ x.2.rest, t ∈ toks) →
        PointsRes toks (if token.kind = .tee ∧ x.2.isEof then
            (.err (perr (token.span.withStart token.span.stop) .teeLastChild) : Res ParseError (Ast × PState))
          else if token.kind = .corner ∧ x.2.isEof = false then
            .err (perr (token.span.withStart token.span.stop) .cornerNotLastChild)
          else .ok x) := by
      intro x hx
      split
      · rename_i hc
        exact pointsRes_err (points_end ht hb hc.1)
      · split
        · rename_i hc
          exact pointsRes_err (points_end ht hb hc.1)
        · exact pointsRes_ok hx
    have hkey : ∀ r : Res ParseError (Ast × PState), PointsRes toks r → PointsRes toks (r >>= fun x =>
        if token.kind = .tee ∧ x.2.isEof then
            (.err (perr (token.span.withStart token.span.stop) .teeLastChild) : Res ParseError (Ast × PState))
          else if token.kind = .corner ∧ x.2.isEof = false then
            .err (perr (token.span.withStart token.span.stop) .cornerNotLastChild)
          else .ok x) := fun r hr => pointsRes_bind hr.1 fun x hx => hk x (hr.2 x.1 x.2 hx)
    simp only
    split
    · rename_i hk'
      exact hkey _ ((condition_points fuel).1 token s ht hs (by intro t h; rw [hpk] at h; cases h; exact Or.inl hk'))
    · rename_i hk'
      exact hkey _ ((condition_points fuel).1 token s ht hs (by intro t h; rw [hpk] at h; cases h; exact Or.inr hk'))
    · exact hkey _ (parseAction_points ht fuel hs)
    · rename_i h1 h2 h3
      exact pointsRes_err (points_tok hft ⟨rfl, h1, h2, h3⟩)

theorem rootLoop_points : ∀ (fuel : Nat) (cs : List Ast) (s : PState), (∀ t ∈ s.rest, t ∈ toks) → PointsRes toks (rootLoop fuel cs s) := by
  intro fuel
  induction fuel with
  | zero => intro cs s hs; exact pointsRes_panic
  | succ fuel ih =>
    intro cs s hs
    rw [rootLoop]
    cases hc : s.current with
    | none => exact pointsRes_ok hs
    | some t =>
      have hc' := hs _ (current_mem hc)
      have hb : PointsRes toks (do
        let (ast, s) ← parseBranch fuel t s
        rootLoop fuel (cs ++ [ast]) s) := by
        refine pointsRes_bind (fun e h => (parseBranch_points fuel hc' hs).1 e h) ?_
        rintro ⟨a, s'⟩ h
        exact ih _ _ ((parseBranch_points fuel hc' hs).2 a s' h)
      simp only
      split
      · exact hb
      · exact hb
      · rename_i hk
        exact pointsRes_err (points_tok hc' ⟨rfl, hk⟩)
      all_goals
        rename_i hk
        exact pointsRes_err (points_tok hc' hk)

theorem parseTokens_points {e : ParseError} (h : parseTokens toks = .err e) :
    (toks = [] ∧ e = ⟨.treeEmpty, Span.default⟩) ∨ Points toks e := by
  cases toks with
  | nil =>
    left
    refine ⟨rfl, ?_⟩
    cases h; rfl
  | cons t r =>
    right
    have h' : (match t.kind with
      | .word => parseRoot (parseFuel (t :: r).length) t ⟨none, t :: r⟩
      | _ => .err (perr t.span .treeRootless)) = .err e := h
    split at h'
    · unfold parseRoot at h'
      split at h'
      · cases h'
      · have hs : ∀ u ∈ (PState.consume ⟨none, t :: r⟩).rest, u ∈ t :: r := fun u hu => List.mem_cons_of_mem _ hu
        have hp := rootLoop_points (toks := t :: r) (parseFuel (t :: r).length) [] _ hs
        cases hr : rootLoop (parseFuel (t :: r).length) [] (PState.consume ⟨none, t :: r⟩) with
        | err e' => rw [hr] at h'; cases h'; exact hp.1 e hr
        | ok x => rw [hr] at h'; cases h'
        | panic => rw [hr] at h'; cases h'
    · rename_i hk
      cases h'
      exact points_tok (List.mem_cons_self ..) hk

end
end Bulloak
