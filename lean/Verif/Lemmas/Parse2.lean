import Verif.Lemmas.Parse
/-! # The root level of the parser, totality -/

set_option linter.unusedSectionVars false

namespace Bulloak
open Spec

section
variable [U : Ucd]

theorem parseCondition_complete {fuel : Nat} (hd : Header) (sub : List Header) (kids : List Ast) (p : Option Token)
    (rest : List Token) (hok : hd.Ok) (hmore : hd.more ≠ [])
    (hsub : Items hd.col sub kids) (hr : AtHeader rest) (he : EndsTok hd.col rest) (hf : 2 * sub.length + 1 < fuel) :
    parseCondition fuel hd.glyph ⟨p, flat (hd :: sub) ++ rest⟩ =
      .ok (.condition (nodeSpan hd sub) (sanitize hd.title) kids, ⟨lastTok p (hd :: sub), rest⟩) := by
  obtain ⟨fuel, rfl⟩ : ∃ f, fuel = f + 1 := ⟨fuel - 1, by omega⟩
  have e1 := parse_complete hsub fuel hd.glyph [] hd.words.getLast? rest rfl hr he (by omega)
  have hr' := atHeader_flat (items_ok hsub) hr
  have hs := parseString_eq hd.glyph hd.first hd.more (flat sub ++ rest) p
    (fun w hw => hok.2 w (List.mem_cons_of_mem _ hw)) hr'
  obtain ⟨l, hl1, hl2⟩ := lastTok_span p hd sub
  have hp : lastTok hd.words.getLast? sub = lastTok p (hd :: sub) := by rw [lastTok_cons]
  have hflat : flat (hd :: sub) ++ rest = hd.glyph :: hd.first :: (hd.more ++ (flat sub ++ rest)) := by
    rw [flat_cons]; simp [Header.toks]
  rw [hflat]
  simp only [parseCondition, hok.1, Bool.not_true, Bool.false_eq_true, if_false, PState.peek, List.tail_cons,
    List.head?_cons, Res.okOr, Res.bind_ok, hs]
  rw [if_neg (fun hh => hmore ((title_len_iff hd).1 hh))]
  simp only [Header.words] at e1 hp
  rw [e1]
  simp only [Res.bind_ok, hp, hl1, Res.unwrap, ← hl2]
  simp [nodeSpan]

theorem rootItems_ok {hs asts} (h : RootItems hs asts) : ∀ d ∈ hs, d.Ok := by
  induction h with
  | nil => simp
  | item hi _ _ _ ih =>
    intro d hd
    rw [← List.cons_append] at hd
    rcases List.mem_append.1 hd with hd | hd
    · exact items_ok hi d hd
    · exact ih d hd

theorem kind_branch_cases {k : TokenKind} (h : k.isBranch = true) : k = .tee ∨ k = .corner := by
  cases k <;> simp_all [TokenKind.isBranch]

/-- `parseBranch` as an explicit bind. -/
theorem parseBranch_cons (fuel : Nat) (t u : Token) (r : List Token) (p : Option Token)
    (ht : t.kind.isBranch = true) :
    parseBranch fuel t ⟨p, t :: u :: r⟩ =
      ((match u.kind with
        | .when | .given => parseCondition fuel t ⟨p, t :: u :: r⟩
        | .it => parseAction fuel t ⟨p, t :: u :: r⟩
        | _ => .err (perr u.span (.tokenUnexpected u.lexeme))) >>= fun x =>
      if t.kind = .tee ∧ x.2.isEof = true then
        .err (perr (t.span.withStart t.span.stop) .teeLastChild)
      else if t.kind = .corner ∧ x.2.isEof = false then
        .err (perr (t.span.withStart t.span.stop) .cornerNotLastChild)
      else .ok (x.1, x.2)) := by
  simp only [parseBranch, ht, Bool.not_true, Bool.false_eq_true, if_false, PState.peek, List.tail_cons,
    List.head?_cons, Res.okOr, Res.bind_ok]
  cases u.kind <;> rfl

/-- An accepted top-level branch. -/
theorem parseBranch_sound {fuel : Nat} {t : Token} {r : List Token} {p : Option Token} {ast : Ast} {s' : PState}
    (ht : t.kind.isBranch = true) (hcol : 0 < t.span.start.column)
    (h : parseBranch fuel t ⟨p, t :: r⟩ = .ok (ast, s')) :
    ∃ hd sub, Items 0 (hd :: sub) [ast] ∧ hd.glyph = t ∧ t :: r = flat (hd :: sub) ++ s'.rest ∧
      AtHeader s'.rest ∧ EndsTok hd.col s'.rest ∧ s'.prev = lastTok p (hd :: sub) ∧
      (t.kind = .tee ↔ s'.rest ≠ []) := by
  cases r with
  | nil => simp [parseBranch, ht, PState.peek, Res.okOr] at h
  | cons u r =>
    rw [parseBranch_cons _ _ _ _ _ ht, Res.bind_eq_ok] at h
    obtain ⟨⟨ast', s2⟩, h1, h2⟩ := h
    simp only at h2
    have hfin : ast' = ast ∧ s2 = s' ∧ (t.kind = .tee ↔ s'.rest ≠ []) := by
      split at h2
      · cases h2
      · split at h2
        · cases h2
        · rename_i g1 g2
          simp only [Res.ok.injEq, Prod.mk.injEq] at h2
          obtain ⟨rfl, rfl⟩ := h2
          refine ⟨rfl, rfl, ?_⟩
          simp only [PState.isEof, List.isEmpty_iff, List.isEmpty_eq_false_iff, ne_eq, not_and] at g1 g2
          rcases kind_branch_cases ht with hk | hk
          · simp [hk, g1 hk]
          · have := g2 hk
            simp [hk]; simpa using this
    obtain ⟨rfl, rfl, hkind⟩ := hfin
    have hc : (u.kind = .when ∨ u.kind = .given) → parseCondition fuel t ⟨p, t :: u :: r⟩ = .ok (ast', s2) →
        ∃ hd sub, Items 0 (hd :: sub) [ast'] ∧ hd.glyph = t ∧ t :: u :: r = flat (hd :: sub) ++ s2.rest ∧
          AtHeader s2.rest ∧ EndsTok hd.col s2.rest ∧ s2.prev = lastTok p (hd :: sub) := by
      intro hu h1
      obtain ⟨hd, sub, kids, c1, c2, c3, c4, c5, c6, c7, c8, c9, c10⟩ := (parse_sound fuel).1 _ _ _ _ _ _ ht hu h1
      simp at c4
      refine ⟨hd, sub, ?_, c4, c7, c8, c9, c10⟩
      have := Items.condition (c := 0) c1 (by simp only [Header.col, c4]; exact hcol) c2 c3 c5 (rest := [])
        (by intro d r hh; cases hh) .nil
      rw [c6]; simpa using this
    split at h1
    · rename_i hk
      obtain ⟨hd, sub, g1, g2, g3, g4, g5, g6⟩ := hc (Or.inl hk) h1
      exact ⟨hd, sub, g1, g2, g3, g4, g5, g6, hkind⟩
    · rename_i hk
      obtain ⟨hd, sub, g1, g2, g3, g4, g5, g6⟩ := hc (Or.inr hk) h1
      exact ⟨hd, sub, g1, g2, g3, g4, g5, g6, hkind⟩
    · rename_i hk
      obtain ⟨hd, sub, c1, c2, c3, c4, c5, c6, c7, c8, c9⟩ := parseAction_sound ht hk h1
      refine ⟨hd, sub, ?_, c3, c6, c7, c8, c9, hkind⟩
      have := Items.action (c := 0) c1 (by simp only [Header.col, c3]; exact hcol) c2 c4 (rest := [])
        (by intro d r hh; cases hh) .nil
      rw [c5]; simpa using this
    · simp at h1

theorem parseBranch_complete {fuel : Nat} (hd : Header) (sub : List Header) (ast : Ast) (p : Option Token)
    (rest : List Token) (hi : Items 0 (hd :: sub) [ast]) (hr : AtHeader rest) (he : EndsTok hd.col rest)
    (hk : hd.glyph.kind = .tee ↔ rest ≠ []) (hf : 2 * sub.length + 1 < fuel) :
    parseBranch fuel hd.glyph ⟨p, flat (hd :: sub) ++ rest⟩ = .ok (ast, ⟨lastTok p (hd :: sub), rest⟩) := by
  have hok := items_ok hi hd (by simp)
  have hflat : flat (hd :: sub) ++ rest = hd.glyph :: hd.first :: (hd.more ++ (flat sub ++ rest)) := by
    rw [flat_cons]; simp [Header.toks]
  have hfin : ∀ (a : Ast) (s : PState), s.rest = rest →
      (if hd.glyph.kind = .tee ∧ s.isEof = true then
        (Res.err (perr (hd.glyph.span.withStart hd.glyph.span.stop) .teeLastChild) : Res ParseError (Ast × PState))
      else if hd.glyph.kind = .corner ∧ s.isEof = false then
        .err (perr (hd.glyph.span.withStart hd.glyph.span.stop) .cornerNotLastChild)
      else .ok (a, s)) = .ok (a, s) := by
    intro a s hs
    simp only [PState.isEof, hs]
    rcases kind_branch_cases hok.1 with h | h
    · rw [if_neg, if_neg] <;> simp [h]
      exact hk.1 h
    · rw [if_neg, if_neg] <;> simp [h]
      cases rest with
      | nil => rfl
      | cons a r => simp [h] at hk
  cases hi with
  | @condition _ _ sub' kids rest' _ hok' hcol hcond hmore hsub hends hrest =>
    cases hrest
    rw [List.append_nil] at *
    have e1 := parseCondition_complete hd sub' kids p rest hok hmore hsub hr he hf
    rw [hflat] at e1 ⊢
    simp only [parseBranch, hok.1, Bool.not_true, Bool.false_eq_true, if_false, PState.peek, List.tail_cons,
      List.head?_cons, Res.okOr, Res.bind_ok]
    rcases hcond with h | h <;> simp only [h, e1, Res.bind_ok] <;> exact hfin _ _ rfl
  | @action _ _ sub' rest' _ hok' hcol hact hsub hends hrest =>
    cases hrest
    rw [List.append_nil] at *
    have e1 := parseAction_complete (fuel := fuel) hd sub' p rest hok hsub hr he (by omega)
    rw [hflat] at e1 ⊢
    simp only [parseBranch, hok.1, Bool.not_true, Bool.false_eq_true, if_false, PState.peek, List.tail_cons,
      List.head?_cons, Res.okOr, Res.bind_ok]
    simp only [Header.isAction] at hact
    simp only [hact, e1, Res.bind_ok]
    exact hfin _ _ rfl

theorem rootLoop_sound : ∀ (fuel : Nat) (children : List Ast) (s s' : PState) (cs : List Ast),
    (∀ t ∈ s.rest, 0 < t.span.start.column) → rootLoop fuel children s = .ok (cs, s') →
    ∃ hs asts, cs = children ++ asts ∧ RootItems hs asts ∧ s.rest = flat hs ∧ s'.prev = lastTok s.prev hs := by
  intro fuel
  induction fuel with
  | zero => intro children s s' cs _ h; simp [rootLoop] at h
  | succ fuel ih =>
    intro children s s' cs hcol h
    obtain ⟨p, rest⟩ := s
    cases rest with
    | nil =>
      simp [rootLoop, PState.current] at h
      obtain ⟨rfl, rfl⟩ := h
      exact ⟨[], [], by simp, .nil, rfl, rfl⟩
    | cons t r =>
      simp only [rootLoop, PState.current, List.head?_cons] at h
      have hmain : t.kind.isBranch = true → (parseBranch fuel t ⟨p, t :: r⟩ >>= fun x =>
            rootLoop fuel (children ++ [x.1]) x.2) = .ok (cs, s') →
          ∃ hs asts, cs = children ++ asts ∧ RootItems hs asts ∧ t :: r = flat hs ∧ s'.prev = lastTok p hs := by
        intro ht h
        rw [Res.bind_eq_ok] at h
        obtain ⟨⟨ast, s2⟩, h1, h2⟩ := h
        obtain ⟨hd, sub, c1, c2, c3, c4, c5, c6, c7⟩ := parseBranch_sound ht (hcol t (by simp)) h1
        obtain ⟨hs, asts, d1, d2, d3, d4⟩ := ih _ _ _ _ (by
          intro x hx
          exact hcol x (by simp only; rw [c3]; simp [hx])) h2
        refine ⟨hd :: (sub ++ hs), ast :: asts, by rw [d1]; simp, ?_, ?_, ?_⟩
        · refine .item c1 ?_ ?_ d2
          · apply ends_of_endsTok (rest := []); rw [← d3]; simpa using c5
          · rw [c2, c7, d3]
            cases hs with
            | nil => simp
            | cons a b => simp [flat_cons, Header.toks]
        · rw [c3, d3, ← List.cons_append, flat_append]
        · rw [d4, c6, ← List.cons_append, lastTok_append]
      split at h
      · rename_i hk; exact hmain (by simp [hk, TokenKind.isBranch]) h
      · rename_i hk; exact hmain (by simp [hk, TokenKind.isBranch]) h
      all_goals simp at h

theorem rootLoop_complete {hs : List Header} {asts : List Ast} (h : RootItems hs asts) :
    ∀ (fuel : Nat) (children : List Ast) (p : Option Token), 2 * hs.length < fuel →
      rootLoop fuel children ⟨p, flat hs⟩ = .ok (children ++ asts, ⟨lastTok p hs, []⟩) := by
  induction h with
  | nil =>
    intro fuel children p hf
    obtain ⟨fuel, rfl⟩ : ∃ f, fuel = f + 1 := ⟨fuel - 1, by omega⟩
    simp [rootLoop, PState.current, lastTok]
  | @item hd sub rest ast asts hi he hk hrest ih =>
    intro fuel children p hf
    obtain ⟨fuel, rfl⟩ : ∃ f, fuel = f + 1 := ⟨fuel - 1, by omega⟩
    simp only [List.length_cons, List.length_append] at hf
    have hr : AtHeader (flat rest) := by simpa using atHeader_flat (rootItems_ok hrest) atHeader_nil
    have e1 := parseBranch_complete (fuel := fuel) hd sub ast p (flat rest) hi hr
      (by simpa using endsTok_of_ends (rest := []) he (by rintro rfl; intro t r hh; cases hh))
      (by rw [hk]; cases rest <;> simp [flat_cons, Header.toks]) (by omega)
    have e2 := ih fuel (children ++ [ast]) (lastTok p (hd :: sub)) (by omega)
    have hok := items_ok hi hd (by simp)
    have hflat : flat (hd :: (sub ++ rest)) = hd.glyph :: hd.first :: (hd.more ++ (flat sub ++ flat rest)) := by
      rw [flat_cons, flat_append]; simp [Header.toks]
    have hflat2 : flat (hd :: sub) ++ flat rest = hd.glyph :: hd.first :: (hd.more ++ (flat sub ++ flat rest)) := by
      rw [flat_cons]; simp [Header.toks]
    rw [hflat2] at e1
    rw [hflat, rootLoop]
    simp only [PState.current, List.head?_cons]
    have hl : lastTok (lastTok p (hd :: sub)) rest = lastTok p (hd :: (sub ++ rest)) := by
      rw [← lastTok_append]; rfl
    rcases kind_branch_cases hok.1 with h | h <;> simp only [h, e1, Res.bind_ok, e2, hl] <;> simp

theorem rootItems_last {hs : List Header} {asts : List Ast} (h : RootItems hs asts) :
    (asts.getLast?).map (fun a => a.span.stop) = (hs.getLast?).map Header.endPos := by
  induction h with
  | nil => rfl
  | @item hd sub rest ast asts hi _ _ hrest ih =>
    have hspan : ast.span.stop = (((hd :: sub).getLast?).map Header.endPos).getD hd.endPos := by
      have hh : ∀ sub : List Header, (nodeSpan hd sub).stop = (((hd :: sub).getLast?).map Header.endPos).getD hd.endPos := by
        intro sub
        rcases snoc_cases sub with rfl | ⟨b, x, rfl⟩
        · simp [nodeSpan]
        · rw [← List.cons_append]
          rw [List.getLast?_append]
          simp [nodeSpan]
      cases hi with
      | condition _ _ _ _ _ _ hr => cases hr; simpa [Ast.span] using hh _
      | action _ _ _ _ _ hr => cases hr; simpa [Ast.span] using hh _
    rw [← List.cons_append, List.getLast?_append]
    cases hrest with
    | nil =>
      simp only [List.append_nil, List.getLast?_singleton, List.getLast?_nil, Option.none_or, Option.map_some, hspan]
      cases hh : (hd :: sub).getLast? with
      | none => simp at hh
      | some x => simp
    | @item hd2 sub2 rest2 ast2 asts2 h1 h2 h3 h4 =>
      rw [List.getLast?_cons_cons, ih]
      cases hh : (hd2 :: (sub2 ++ rest2)).getLast? with
      | none => simp at hh
      | some x => simp

/-- The parser accepts exactly the grammar, with exactly its trees. -/
theorem parseTokens_iff {tokens : List Token} (hcol : ∀ t ∈ tokens, 0 < t.span.start.column) (ast : Ast) :
    parseTokens tokens = .ok ast ↔ Tree tokens ast := by
  constructor
  · intro h
    cases tokens with
    | nil => simp [parseTokens, PState.current, Res.okOr] at h
    | cons root r =>
      simp only [parseTokens, PState.current, List.head?_cons, Res.okOr, Res.bind_ok] at h
      split at h
      · rename_i hk
        simp only [parseRoot, hk, ne_eq, not_true, if_false, PState.consume] at h
        rw [Res.bind_eq_ok] at h
        obtain ⟨⟨cs, s'⟩, h1, h2⟩ := h
        obtain ⟨hs, asts, d1, d2, d3, d4⟩ := rootLoop_sound _ _ _ _ _ (by
          intro t ht; exact hcol t (by simp only at ht; simp [ht])) h1
        simp at d1
        subst d1
        simp only at d3
        refine ⟨root, hs, cs, by rw [d3], hk, d2, ?_⟩
        have hl := rootItems_last d2
        simp only [Res.ok.injEq] at h2
        rw [← h2, ← hl]
        cases cs.getLast? <;> rfl
      · simp at h
  · rintro ⟨root, hs, kids, rfl, hk, hr, rfl⟩
    have hlen : hs.length ≤ (flat hs).length := by
      have : ∀ l : List Header, l.length ≤ (flat l).length := by
        intro l
        induction l with
        | nil => simp
        | cons a l ih => rw [flat_cons]; simp [Header.toks]; omega
      exact this hs
    have e := rootLoop_complete hr (parseFuel (root :: flat hs).length) [] (some root)
      (by simp [parseFuel]; omega)
    simp only [parseTokens, PState.current, List.head?_cons, Res.okOr, Res.bind_ok, hk, parseRoot, ne_eq, not_true,
      if_false, PState.consume, e, List.nil_append]
    have hl := rootItems_last hr
    rw [← hl]
    cases kids.getLast? <;> rfl

/-! ## Totality -/

theorem actionLoop_ne_panic (t : Token) : ∀ (fuel : Nat) (children : List Ast) (s : PState),
    AtHeader s.rest → s.rest.length < fuel → actionLoop t fuel children s ≠ .panic := by
  intro fuel
  induction fuel with
  | zero => intro c s _ h; omega
  | succ fuel ih =>
    intro children s hat hf
    obtain ⟨p, rest⟩ := s
    cases rest with
    | nil => simp [actionLoop, PState.current]
    | cons g r =>
      simp only [actionLoop, PState.current, List.head?_cons]
      split
      · cases r with
        | nil => simp [PState.peek, Res.okOr]
        | cons u r =>
          simp only [PState.peek, List.tail_cons, List.head?_cons, Res.okOr, Res.bind_ok, Res.unwrap]
          split
          · rename_i hk
            obtain ⟨ws, rest, rfl, hws, hrest⟩ := split_words r
            have hok : Header.Ok ⟨g, u, ws⟩ := by
              refine ⟨hat g _ rfl, ?_⟩
              intro w hw
              rcases List.mem_cons.1 hw with rfl | hw
              · simp [hk, TokenKind.isWordLike]
              · exact hws w hw
            have hd := parseDescription_eq ⟨g, u, ws⟩ hok (g.span.start.column - t.span.start.column) p rest hrest
            simp only [Header.toks, List.cons_append] at hd
            rw [hd]
            simp only [Res.bind_ok]
            exact ih _ _ hrest (by simp at hf ⊢; omega)
          · simp
      · simp

theorem parseAction_ne_panic {fuel : Nat} {t u : Token} {r : List Token} {p : Option Token}
    (ht : t.kind.isBranch = true) (hf : r.length < fuel) :
    parseAction fuel t ⟨p, t :: u :: r⟩ ≠ .panic := by
  obtain ⟨ws, rest, rfl, hws, hrest⟩ := split_words r
  have hs := parseString_eq t u ws rest p hws hrest
  simp only [parseAction, ht, Bool.not_true, Bool.false_eq_true, if_false, PState.peek, List.tail_cons,
    List.head?_cons, Res.okOr, Res.bind_ok, hs]
  apply Res.bind_ne_panic
  · exact actionLoop_ne_panic t _ _ _ hrest (by simp at hf ⊢; omega)
  · rintro ⟨cs, s2⟩ h1
    obtain ⟨sub, g1, g2, g3, g4, g5, g6⟩ := actionLoop_sound ⟨t, u, ws⟩ _ _ _ _ _ hrest h1
    have g6' : s2.prev = lastTok p (⟨t, u, ws⟩ :: sub) := by rw [g6, lastTok_cons]; rfl
    obtain ⟨l, hl1, hl2⟩ := lastTok_span p ⟨t, u, ws⟩ sub
    simp [g6', hl1, Res.unwrap]

theorem flat_length_pos (h : Header) (l : List Header) : 2 ≤ (flat (h :: l)).length := by
  rw [flat_cons]; simp [Header.toks]

theorem parse_ne_panic : ∀ fuel : Nat,
    (∀ (t u : Token) (r : List Token) (p : Option Token),
      t.kind.isBranch = true → (u.kind = .when ∨ u.kind = .given) → 2 * r.length + 2 ≤ fuel →
      parseCondition fuel t ⟨p, t :: u :: r⟩ ≠ .panic) ∧
    (∀ (t : Token) (children : List Ast) (s : PState), AtHeader s.rest → 2 * s.rest.length + 1 ≤ fuel →
      conditionLoop fuel t children s ≠ .panic) := by
  intro fuel
  induction fuel with
  | zero =>
    constructor
    · intro t u r p _ _ h; omega
    · intro t c s _ h; omega
  | succ fuel ih =>
    obtain ⟨ihc, ihl⟩ := ih
    constructor
    · intro t u r p ht hu hf
      obtain ⟨ws, rest, rfl, hws, hrest⟩ := split_words r
      have hs := parseString_eq t u ws rest p hws hrest
      simp only [parseCondition, ht, Bool.not_true, Bool.false_eq_true, if_false, PState.peek, List.tail_cons,
        List.head?_cons, Res.okOr, Res.bind_ok, hs]
      split
      · simp
      apply Res.bind_ne_panic
      · exact ihl _ _ _ hrest (by simp at hf ⊢; omega)
      · rintro ⟨cs, s2⟩ h1
        obtain ⟨sub, kids, g1, g2, g3, g4, g5, g6⟩ := (parse_sound fuel).2 _ _ _ _ _ hrest h1
        have g6' : s2.prev = lastTok p (⟨t, u, ws⟩ :: sub) := by rw [g6, lastTok_cons]; rfl
        obtain ⟨l, hl1, hl2⟩ := lastTok_span p ⟨t, u, ws⟩ sub
        simp [g6', hl1, Res.unwrap]
    · intro t children s hat hf
      obtain ⟨p, rest⟩ := s
      cases rest with
      | nil => simp [conditionLoop, PState.current]
      | cons g r =>
        simp only [conditionLoop, PState.current, List.head?_cons]
        split
        · cases r with
          | nil => simp [PState.peek, Res.okOr]
          | cons u r =>
            simp only [PState.peek, List.tail_cons, List.head?_cons, Res.okOr, Res.bind_ok, Res.unwrap]
            have hg := hat g _ rfl
            simp only [List.length_cons] at hf
            have hcond : (u.kind = .when ∨ u.kind = .given) →
                (parseCondition fuel g ⟨p, g :: u :: r⟩ >>= fun x =>
                  conditionLoop fuel t (children ++ [x.1]) x.2) ≠ .panic := by
              intro hu
              apply Res.bind_ne_panic (ihc _ _ _ _ hg hu (by omega))
              rintro ⟨ast, s2⟩ h1
              obtain ⟨hd, sub, kids, c1, c2, c3, c4, c5, c6, c7, c8, c9, c10⟩ :=
                (parse_sound fuel).1 _ _ _ _ _ _ hg hu h1
              have hlen := congrArg List.length c7
              have := flat_length_pos hd sub
              simp only [List.length_cons, List.length_append] at hlen
              exact ihl _ _ _ c8 (by simp only; omega)
            split
            · rename_i hk; exact hcond (Or.inl hk)
            · rename_i hk; exact hcond (Or.inr hk)
            · rename_i hk
              apply Res.bind_ne_panic (parseAction_ne_panic hg (by omega))
              rintro ⟨ast, s2⟩ h1
              obtain ⟨hd, sub, c1, c2, c3, c4, c5, c6, c7, c8, c9⟩ := parseAction_sound hg hk h1
              have hlen := congrArg List.length c6
              have := flat_length_pos hd sub
              simp only [List.length_cons, List.length_append] at hlen
              exact ihl _ _ _ c7 (by simp only; omega)
            · simp
        · simp

theorem rootLoop_ne_panic : ∀ (fuel : Nat) (children : List Ast) (s : PState),
    (∀ t ∈ s.rest, 0 < t.span.start.column) → 2 * s.rest.length + 1 ≤ fuel → rootLoop fuel children s ≠ .panic := by
  intro fuel
  induction fuel with
  | zero => intro c s _ h; omega
  | succ fuel ih =>
    intro children s hcol hf
    obtain ⟨p, rest⟩ := s
    cases rest with
    | nil => simp [rootLoop, PState.current]
    | cons t r =>
      simp only [rootLoop, PState.current, List.head?_cons]
      have hmain : t.kind.isBranch = true → (parseBranch fuel t ⟨p, t :: r⟩ >>= fun x =>
            rootLoop fuel (children ++ [x.1]) x.2) ≠ .panic := by
        intro ht
        apply Res.bind_ne_panic
        · cases r with
          | nil => simp [parseBranch, ht, PState.peek, Res.okOr]
          | cons u r =>
            rw [parseBranch_cons _ _ _ _ _ ht]
            simp only [List.length_cons] at hf
            apply Res.bind_ne_panic
            · split
              · rename_i hk; exact (parse_ne_panic fuel).1 _ _ _ _ ht (Or.inl hk) (by omega)
              · rename_i hk; exact (parse_ne_panic fuel).1 _ _ _ _ ht (Or.inr hk) (by omega)
              · exact parseAction_ne_panic ht (by omega)
              · simp
            · rintro ⟨ast, s2⟩ _
              simp only
              split
              · simp
              · split <;> simp
        · rintro ⟨ast, s2⟩ h1
          obtain ⟨hd, sub, c1, c2, c3, c4, c5, c6, c7⟩ := parseBranch_sound ht (hcol t (by simp)) h1
          have hlen := congrArg List.length c3
          have := flat_length_pos hd sub
          simp only [List.length_cons, List.length_append] at hlen hf
          refine ih _ _ (by intro x hx; exact hcol x (by simp only; rw [c3]; simp [hx])) (by simp only; omega)
      split
      · rename_i hk; exact hmain (by simp [hk, TokenKind.isBranch])
      · rename_i hk; exact hmain (by simp [hk, TokenKind.isBranch])
      all_goals simp

theorem parseTokens_ne_panic {tokens : List Token} (hcol : ∀ t ∈ tokens, 0 < t.span.start.column) :
    parseTokens tokens ≠ .panic := by
  cases tokens with
  | nil => simp [parseTokens, PState.current, Res.okOr]
  | cons root r =>
    simp only [parseTokens, PState.current, List.head?_cons, Res.okOr, Res.bind_ok]
    split
    · rename_i hk
      simp only [parseRoot, hk, ne_eq, not_true, if_false, PState.consume]
      apply Res.bind_ne_panic
      · exact rootLoop_ne_panic _ _ _ (by intro t ht; exact hcol t (by simp only at ht; simp [ht]))
          (by simp [parseFuel]; omega)
      · rintro ⟨cs, s⟩ _; simp
    · simp

end
end Bulloak
