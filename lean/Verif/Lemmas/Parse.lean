import Verif.Spec.Grammar
import Verif.Lemmas.ListExtra
/-! # The parser refines the grammar -/

set_option linter.unusedSectionVars false

namespace Bulloak
open Spec

/-- The first token, if any, is not a word. -/
def AtHeader (rest : List Token) : Prop := ∀ t r, rest = t :: r → t.kind.isBranch = true

theorem atHeader_nil : AtHeader [] := by intro t r h; cases h

theorem isBranch_not_wordLike (k : TokenKind) : k.isBranch = !k.isWordLike := by cases k <;> rfl

theorem joinSep_cons_cons (s a b : Str) (l : List Str) :
    joinSep s (a :: b :: l) = a ++ s ++ joinSep s (b :: l) := rfl

theorem joinSep_snoc (s a b : Str) (l : List Str) :
    joinSep s (a :: l ++ [b]) = joinSep s (a :: l) ++ s ++ b := by
  induction l generalizing a with
  | nil => simp [joinSep]
  | cons c l ih =>
    rw [List.cons_append, List.cons_append, joinSep_cons_cons, joinSep_cons_cons]
    have := ih c
    rw [List.cons_append] at this
    rw [this]; simp

theorem stringLoop_eq (ws : List Token) : ∀ (acc : List Str) (a : Str) (prev : Option Token) (t : Token) (rest : List Token),
    (∀ w ∈ ws, w.kind.isWordLike = true) → AtHeader rest →
    stringLoop (joinSep c!" " (a :: acc)) prev (t :: (ws ++ rest)) =
      (joinSep c!" " (a :: acc ++ ws.map (·.lexeme)), ⟨(t :: ws).getLast?, rest⟩) := by
  induction ws with
  | nil =>
    intro acc a prev t rest _ hr
    cases rest with
    | nil => simp [stringLoop]
    | cons u r =>
      have := hr u r rfl
      rw [isBranch_not_wordLike] at this
      simp only [List.nil_append, stringLoop]
      rw [if_neg (by simpa using this)]
      simp
  | cons w ws ih =>
    intro acc a prev t rest hw hr
    simp only [List.cons_append, stringLoop]
    rw [if_pos (hw w (by simp)), ← joinSep_snoc, List.cons_append]
    rw [ih (acc ++ [w.lexeme]) a (some t) w rest (fun x hx => hw x (List.mem_cons_of_mem _ hx)) hr]
    simp

/-- The header starting at a token with at least one token after it. -/
theorem parseString_eq (g first : Token) (more rest : List Token) (p : Option Token)
    (hw : ∀ w ∈ more, w.kind.isWordLike = true) (hr : AtHeader rest) :
    parseString first ⟨p, g :: first :: (more ++ rest)⟩ =
      (Header.title ⟨g, first, more⟩, ⟨(first :: more).getLast?, rest⟩) := by
  have := stringLoop_eq more [] first.lexeme (some g) first rest hw hr
  simp only [parseString, PState.consume]
  simpa [joinSep, Header.title, Header.words] using this

/-- Any token list splits into a maximal run of words and a rest that starts a header. -/
theorem split_words (r : List Token) : ∃ ws rest, r = ws ++ rest ∧ (∀ w ∈ ws, w.kind.isWordLike = true) ∧
    AtHeader rest := by
  induction r with
  | nil => exact ⟨[], [], rfl, by simp, atHeader_nil⟩
  | cons t r ih =>
    by_cases h : t.kind.isWordLike = true
    · obtain ⟨ws, rest, h1, h2, h3⟩ := ih
      refine ⟨t :: ws, rest, by rw [h1]; rfl, ?_, h3⟩
      intro w hw
      rcases List.mem_cons.1 hw with rfl | hw
      · exact h
      · exact h2 w hw
    · refine ⟨[], t :: r, rfl, by simp, ?_⟩
      intro u r' hu
      simp only [List.cons.injEq] at hu
      rw [← hu.1, isBranch_not_wordLike]; simpa using h

theorem byteLen_append (a b : Str) : byteLen (a ++ b) = byteLen a + byteLen b := by simp [byteLen]

theorem joinSep_byteLen_le (a : Str) (l : List Str) : byteLen a ≤ byteLen (joinSep c!" " (a :: l)) := by
  cases l with
  | nil => simp [joinSep]
  | cons b l => rw [joinSep_cons_cons, byteLen_append, byteLen_append]; omega

theorem title_len_iff (h : Header) : byteLen h.title = byteLen h.first.lexeme ↔ h.more = [] := by
  obtain ⟨g, f, more⟩ := h
  cases more with
  | nil => simp [Header.title, Header.words, joinSep]
  | cons w ws =>
    simp only [Header.title, Header.words, List.map_cons]
    rw [joinSep_cons_cons, byteLen_append, byteLen_append]
    have : byteLen c!" " = 1 := by decide
    simp; omega

/-- Where the cursor's `previous` stands after reading `hs`. -/
def lastTok (p : Option Token) (hs : List Header) : Option Token :=
  match hs.getLast? with
  | none => p
  | some h => h.words.getLast?

theorem lastTok_nil (p) : lastTok p [] = p := rfl

theorem lastTok_append (p : Option Token) (a b : List Header) :
    lastTok p (a ++ b) = lastTok (lastTok p a) b := by
  rcases snoc_cases b with rfl | ⟨b', x, rfl⟩
  · simp [lastTok]
  · simp [lastTok, ← List.append_assoc]

theorem lastTok_cons (p : Option Token) (h : Header) (b : List Header) :
    lastTok p (h :: b) = lastTok h.words.getLast? b := by
  have := lastTok_append p [h] b
  simpa [lastTok] using this

theorem words_getLast (h : Header) : ∃ t, h.words.getLast? = some t ∧ h.endPos = t.span.stop := by
  cases hl : h.words.getLast? with
  | none => simp [Header.words] at hl
  | some t => exact ⟨t, rfl, by simp [Header.endPos, hl]⟩

theorem lastTok_span (p : Option Token) (h : Header) (sub : List Header) :
    ∃ t, lastTok p (h :: sub) = some t ∧ (nodeSpan h sub).stop = t.span.stop := by
  rcases snoc_cases sub with rfl | ⟨b', x, rfl⟩
  · obtain ⟨t, h1, h2⟩ := words_getLast h
    exact ⟨t, by simp [lastTok, h1], by simp [nodeSpan, h2]⟩
  · obtain ⟨t, h1, h2⟩ := words_getLast x
    refine ⟨t, ?_, ?_⟩
    · rw [lastTok_cons]; simp [lastTok, h1]
    · simp [nodeSpan, h2]

theorem flat_append (a b : List Header) : flat (a ++ b) = flat a ++ flat b := by simp [flat]
theorem flat_cons (h : Header) (b : List Header) : flat (h :: b) = h.toks ++ flat b := by simp [flat]
@[simp] theorem flat_nil : flat [] = [] := rfl

theorem parseDescription_eq (h : Header) (hok : h.Ok) (d : Nat) (p : Option Token) (rest : List Token)
    (hr : AtHeader rest) :
    parseDescription h.glyph d ⟨p, h.toks ++ rest⟩ =
      .ok (.description ⟨h.glyph.span.start, h.endPos⟩ (spaces d ++ h.title), ⟨h.words.getLast?, rest⟩) := by
  obtain ⟨t, h1, h2⟩ := words_getLast h
  have hs := parseString_eq h.glyph h.first h.more rest p
    (fun w hw => hok.2 w (List.mem_cons_of_mem _ hw)) hr
  simp only [parseDescription, hok.1, Header.toks, List.cons_append, PState.peek, List.tail_cons, List.head?_cons,
    Res.okOr, Res.bind_ok, hs]
  simp only [Header.words] at h1
  simp only [h1, Res.unwrap, Res.bind_ok, Header.words, h2]
  rfl

/-- The token-level part of `Ends` for a cursor. -/
def EndsTok (c : Nat) (rest : List Token) : Prop := ∀ t r, rest = t :: r → t.span.start.column ≤ c

theorem actionLoop_sound (a : Header) : ∀ (fuel : Nat) (children : List Ast) (s s' : PState) (cs : List Ast),
    AtHeader s.rest → actionLoop a.glyph fuel children s = .ok (cs, s') →
    ∃ sub, (∀ d ∈ sub, d.Ok ∧ a.col < d.col ∧ d.first.kind = .word) ∧ cs = children ++ sub.map (descAst a) ∧
      s.rest = flat sub ++ s'.rest ∧ AtHeader s'.rest ∧ EndsTok a.col s'.rest ∧ s'.prev = lastTok s.prev sub := by
  intro fuel
  induction fuel with
  | zero => intro children s s' cs _ h; simp [actionLoop] at h
  | succ fuel ih =>
    intro children s s' cs hat h
    obtain ⟨p, rest⟩ := s
    cases rest with
    | nil =>
      simp [actionLoop, PState.current] at h
      obtain ⟨rfl, rfl⟩ := h
      exact ⟨[], by simp, by simp, by simp, atHeader_nil, (by intro t r h; cases h), rfl⟩
    | cons t r =>
      simp only [actionLoop, PState.current, List.head?_cons] at h
      split at h
      · rename_i hcol
        cases r with
        | nil => simp [PState.peek, Res.okOr] at h
        | cons u r =>
          simp only [PState.peek, List.tail_cons, List.head?_cons, Res.okOr, Res.bind_ok, Res.unwrap] at h
          split at h
          · rename_i hk
            obtain ⟨ws, rest, rfl, hws, hrest⟩ := split_words r
            have hok : Header.Ok ⟨t, u, ws⟩ := by
              refine ⟨hat t _ rfl, ?_⟩
              intro w hw
              rcases List.mem_cons.1 hw with rfl | hw
              · simp [hk, TokenKind.isWordLike]
              · exact hws w hw
            have hd := parseDescription_eq ⟨t, u, ws⟩ hok (t.span.start.column - a.glyph.span.start.column) p rest hrest
            simp only [Header.toks, List.cons_append] at hd
            rw [hd] at h
            simp only [Res.bind_ok] at h
            obtain ⟨sub, h1, h2, h3, h4, h5, h6⟩ := ih _ _ _ _ hrest h
            refine ⟨⟨t, u, ws⟩ :: sub, ?_, ?_, ?_, h4, h5, ?_⟩
            · intro d hd
              rcases List.mem_cons.1 hd with rfl | hd
              · exact ⟨hok, hcol, hk⟩
              · exact h1 d hd
            · rw [h2]; simp [descAst, Header.col, Header.title]
            · simp only at h3
              rw [flat_cons, List.append_assoc, ← h3]; simp [Header.toks]
            · rw [h6, lastTok_cons]
          · simp at h
      · rename_i hcol
        simp at h
        obtain ⟨rfl, rfl⟩ := h
        refine ⟨[], by simp, by simp, by simp, hat, ?_, rfl⟩
        intro t' r' h'
        simp only [List.cons.injEq] at h'
        rw [← h'.1]; simp only [Header.col]; omega

theorem actionLoop_complete (a : Header) (sub : List Header) : ∀ (fuel : Nat) (children : List Ast) (p : Option Token)
    (rest : List Token), (∀ d ∈ sub, d.Ok ∧ a.col < d.col ∧ d.first.kind = .word) → AtHeader rest →
    EndsTok a.col rest → sub.length < fuel →
    actionLoop a.glyph fuel children ⟨p, flat sub ++ rest⟩ =
      .ok (children ++ sub.map (descAst a), ⟨lastTok p sub, rest⟩) := by
  induction sub with
  | nil =>
    intro fuel children p rest _ hr he hf
    cases fuel with
    | zero => omega
    | succ fuel =>
      cases rest with
      | nil => simp [actionLoop, PState.current, lastTok]
      | cons t r =>
        simp only [flat_nil, List.nil_append, actionLoop, PState.current, List.head?_cons]
        rw [if_neg (by have := he t r rfl; simp only [Header.col] at this; omega)]
        simp [lastTok]
  | cons d sub ih =>
    intro fuel children p rest hsub hr he hf
    cases fuel with
    | zero => omega
    | succ fuel =>
      obtain ⟨hok, hcol, hk⟩ := hsub d (by simp)
      have hr' : AtHeader (flat sub ++ rest) := by
        cases sub with
        | nil => simpa using hr
        | cons e sub =>
          intro t r h
          simp [flat_cons, Header.toks] at h
          rw [← h.1]; exact (hsub e (by simp)).1.1
      have hd := parseDescription_eq d hok (d.glyph.span.start.column - a.glyph.span.start.column) p
        (flat sub ++ rest) hr'
      have ih' := ih fuel (children ++ [descAst a d]) d.words.getLast? rest
        (fun e he => hsub e (List.mem_cons_of_mem _ he)) hr he (by simp at hf; omega)
      rw [flat_cons, List.append_assoc]
      simp only [actionLoop, PState.current, Header.toks, List.cons_append, List.head?_cons, PState.peek, List.tail_cons,
        Res.okOr, Res.bind_ok, Res.unwrap, hk]
      simp only [Header.col] at hcol
      rw [if_pos hcol]
      simp only [Header.toks, List.cons_append] at hd
      rw [hd, Res.bind_ok]
      simp only [descAst, Header.col] at ih' ⊢
      rw [ih', lastTok_cons]
      simp [descAst, Header.col]

theorem parseAction_sound {fuel : Nat} {t u : Token} {r : List Token} {p : Option Token} {s' : PState} {ast : Ast}
    (ht : t.kind.isBranch = true) (hu : u.kind = .it)
    (h : parseAction fuel t ⟨p, t :: u :: r⟩ = .ok (ast, s')) :
    ∃ hd sub, hd.Ok ∧ hd.isAction ∧ hd.glyph = t ∧
      (∀ d ∈ sub, d.Ok ∧ hd.col < d.col ∧ d.first.kind = .word) ∧
      ast = .action (nodeSpan hd sub) hd.title (sub.map (descAst hd)) ∧
      t :: u :: r = flat (hd :: sub) ++ s'.rest ∧ AtHeader s'.rest ∧ EndsTok hd.col s'.rest ∧
      s'.prev = lastTok p (hd :: sub) := by
  obtain ⟨ws, rest, rfl, hws, hrest⟩ := split_words r
  have hok : Header.Ok ⟨t, u, ws⟩ := by
    refine ⟨ht, ?_⟩
    intro w hw
    rcases List.mem_cons.1 hw with rfl | hw
    · simp [hu, TokenKind.isWordLike]
    · exact hws w hw
  have hs := parseString_eq t u ws rest p hws hrest
  simp only [parseAction, ht, Bool.not_true, Bool.false_eq_true, if_false, PState.peek, List.tail_cons,
    List.head?_cons, Res.okOr, Res.bind_ok, hs] at h
  rw [Res.bind_eq_ok] at h
  obtain ⟨⟨cs, s2⟩, h1, h2⟩ := h
  obtain ⟨sub, g1, g2, g3, g4, g5, g6⟩ := actionLoop_sound ⟨t, u, ws⟩ _ _ _ _ _ hrest h1
  simp only at g6 g3
  have g6' : s2.prev = lastTok p (⟨t, u, ws⟩ :: sub) := by
    rw [g6, lastTok_cons]; rfl
  obtain ⟨l, hl1, hl2⟩ := lastTok_span p ⟨t, u, ws⟩ sub
  rw [g6', hl1] at h2
  simp only [Res.unwrap, Res.bind_ok, Res.ok.injEq, Prod.mk.injEq] at h2
  obtain ⟨rfl, rfl⟩ := h2
  refine ⟨⟨t, u, ws⟩, sub, hok, hu, rfl, g1, ?_, ?_, g4, g5, g6'⟩
  · rw [g2, ← hl2]; simp [nodeSpan]
  · rw [flat_cons, List.append_assoc, ← g3]; simp [Header.toks]

theorem atHeader_flat {hs : List Header} {rest : List Token} (h : ∀ d ∈ hs, d.Ok) (hr : AtHeader rest) :
    AtHeader (flat hs ++ rest) := by
  cases hs with
  | nil => simpa using hr
  | cons e sub =>
    intro t r h'
    simp [flat_cons, Header.toks] at h'
    rw [← h'.1]; exact (h e (by simp)).1

theorem parseAction_complete {fuel : Nat} (hd : Header) (sub : List Header) (p : Option Token) (rest : List Token)
    (hok : hd.Ok) (hsub : ∀ d ∈ sub, d.Ok ∧ hd.col < d.col ∧ d.first.kind = .word)
    (hr : AtHeader rest) (he : EndsTok hd.col rest) (hf : sub.length < fuel) :
    parseAction fuel hd.glyph ⟨p, flat (hd :: sub) ++ rest⟩ =
      .ok (.action (nodeSpan hd sub) hd.title (sub.map (descAst hd)), ⟨lastTok p (hd :: sub), rest⟩) := by
  have hr' := atHeader_flat (fun d h => (hsub d h).1) hr
  have hs := parseString_eq hd.glyph hd.first hd.more (flat sub ++ rest) p
    (fun w hw => hok.2 w (List.mem_cons_of_mem _ hw)) hr'
  have hl := actionLoop_complete hd sub fuel [] hd.words.getLast? rest hsub hr he hf
  rw [flat_cons, List.append_assoc]
  simp only [parseAction, hok.1, Bool.not_true, Bool.false_eq_true, if_false, PState.peek, List.tail_cons,
    Header.toks, List.cons_append, List.head?_cons, Res.okOr, Res.bind_ok, hs]
  simp only [Header.words] at hl
  rw [hl]
  obtain ⟨l, hl1, hl2⟩ := lastTok_span p hd sub
  have hp : lastTok (hd.first :: hd.more).getLast? sub = lastTok p (hd :: sub) := by
    rw [lastTok_cons]; try rfl
  simp only [Res.bind_ok, hp, hl1, Res.unwrap, ← hl2]
  simp [nodeSpan]

section
variable [U : Ucd]

theorem items_ok {c hs asts} (h : Items c hs asts) : ∀ d ∈ hs, d.Ok := by
  induction h with
  | nil => simp
  | condition hok _ _ _ _ _ _ ih1 ih2 =>
    intro d hd
    simp at hd
    rcases hd with rfl | hd | hd
    · exact hok
    · exact ih1 d hd
    · exact ih2 d hd
  | action hok _ _ hs _ _ ih =>
    intro d hd
    simp at hd
    rcases hd with rfl | hd | hd
    · exact hok
    · exact (hs d hd).1
    · exact ih d hd

theorem endsTok_of_ends {c : Nat} {hs : List Header} {rest : List Token} (h : Ends c hs)
    (h' : hs = [] → EndsTok c rest) : EndsTok c (flat hs ++ rest) := by
  cases hs with
  | nil => simpa using h' rfl
  | cons d hs =>
    intro t r hh
    simp [flat_cons, Header.toks] at hh
    rw [← hh.1]; exact h d hs rfl

theorem ends_of_endsTok {c : Nat} {hs : List Header} {rest : List Token} (h : EndsTok c (flat hs ++ rest)) :
    Ends c hs := by
  intro d r hd
  subst hd
  exact h d.glyph _ (by rw [flat_cons]; simp [Header.toks]; rfl)

/-- What an accepted condition looks like. -/
def CondOk (p : Option Token) (toks : List Token) (ast : Ast) (s' : PState) : Prop :=
  ∃ hd sub kids, hd.Ok ∧ hd.isCondition ∧ hd.more ≠ [] ∧ some hd.glyph = toks.head? ∧
    Items hd.col sub kids ∧ ast = .condition (nodeSpan hd sub) (sanitize hd.title) kids ∧
    toks = flat (hd :: sub) ++ s'.rest ∧ AtHeader s'.rest ∧ EndsTok hd.col s'.rest ∧
    s'.prev = lastTok p (hd :: sub)

/-- What an accepted list of children looks like. -/
def LoopOk (c : Nat) (children : List Ast) (s : PState) (cs : List Ast) (s' : PState) : Prop :=
  ∃ hs asts, cs = children ++ asts ∧ Items c hs asts ∧ s.rest = flat hs ++ s'.rest ∧ AtHeader s'.rest ∧
    EndsTok c s'.rest ∧ s'.prev = lastTok s.prev hs

theorem parse_sound : ∀ fuel : Nat,
    (∀ (t u : Token) (r : List Token) (p : Option Token) (ast : Ast) (s' : PState),
      t.kind.isBranch = true → (u.kind = .when ∨ u.kind = .given) →
      parseCondition fuel t ⟨p, t :: u :: r⟩ = .ok (ast, s') → CondOk p (t :: u :: r) ast s') ∧
    (∀ (t : Token) (children : List Ast) (s : PState) (cs : List Ast) (s' : PState), AtHeader s.rest →
      conditionLoop fuel t children s = .ok (cs, s') → LoopOk t.span.start.column children s cs s') := by
  intro fuel
  induction fuel with
  | zero =>
    constructor
    · intro t u r p ast s' _ _ h; simp [parseCondition] at h
    · intro t children s cs s' _ h; simp [conditionLoop] at h
  | succ fuel ih =>
    obtain ⟨ihc, ihl⟩ := ih
    constructor
    · intro t u r p ast s' ht hu h
      obtain ⟨ws, rest, rfl, hws, hrest⟩ := split_words r
      have hok : Header.Ok ⟨t, u, ws⟩ := by
        refine ⟨ht, ?_⟩
        intro w hw
        rcases List.mem_cons.1 hw with rfl | hw
        · rcases hu with hu | hu <;> simp [hu, TokenKind.isWordLike]
        · exact hws w hw
      have hs := parseString_eq t u ws rest p hws hrest
      simp only [parseCondition, ht, Bool.not_true, Bool.false_eq_true, if_false, PState.peek, List.tail_cons,
        List.head?_cons, Res.okOr, Res.bind_ok, hs] at h
      split at h
      · simp at h
      rename_i hlen
      have hmore : ws ≠ [] := fun hws' => hlen ((title_len_iff ⟨t, u, ws⟩).2 hws')
      rw [Res.bind_eq_ok] at h
      obtain ⟨⟨cs, s2⟩, h1, h2⟩ := h
      obtain ⟨sub, kids, g1, g2, g3, g4, g5, g6⟩ := ihl _ _ _ _ _ hrest h1
      simp only at g6 g3
      have g6' : s2.prev = lastTok p (⟨t, u, ws⟩ :: sub) := by
        rw [g6, lastTok_cons]; rfl
      obtain ⟨l, hl1, hl2⟩ := lastTok_span p ⟨t, u, ws⟩ sub
      rw [g6', hl1] at h2
      simp only [Res.unwrap, Res.bind_ok, Res.ok.injEq, Prod.mk.injEq] at h2
      obtain ⟨rfl, rfl⟩ := h2
      refine ⟨⟨t, u, ws⟩, sub, kids, hok, hu, hmore, rfl, g2, ?_, ?_, g4, g5, g6'⟩
      · rw [g1, ← hl2]; simp [nodeSpan]
      · rw [flat_cons, List.append_assoc, ← g3]; simp [Header.toks]
    · intro t children s cs s' hat h
      obtain ⟨p, rest⟩ := s
      cases rest with
      | nil =>
        simp [conditionLoop, PState.current] at h
        obtain ⟨rfl, rfl⟩ := h
        exact ⟨[], [], by simp, .nil, by simp, atHeader_nil, (by intro t r h; cases h), rfl⟩
      | cons g r =>
        simp only [conditionLoop, PState.current, List.head?_cons] at h
        split at h
        · rename_i hcol
          cases r with
          | nil => simp [PState.peek, Res.okOr] at h
          | cons u r =>
            simp only [PState.peek, List.tail_cons, List.head?_cons, Res.okOr, Res.bind_ok, Res.unwrap] at h
            have hg := hat g _ rfl
            -- the condition case, shared by `when` and `given`
            have hcond : (u.kind = .when ∨ u.kind = .given) →
                (parseCondition fuel g ⟨p, g :: u :: r⟩ >>= fun x =>
                  conditionLoop fuel t (children ++ [x.1]) x.2) = .ok (cs, s') →
                LoopOk t.span.start.column children ⟨p, g :: u :: r⟩ cs s' := by
              intro hu h
              rw [Res.bind_eq_ok] at h
              obtain ⟨⟨ast, s2⟩, h1, h2⟩ := h
              obtain ⟨hd, sub, kids, c1, c2, c3, c4, c5, c6, c7, c8, c9, c10⟩ := ihc _ _ _ _ _ _ hg hu h1
              obtain ⟨hs, asts, d1, d2, d3, d4, d5, d6⟩ := ihl _ _ _ _ _ c8 h2
              simp only [List.head?_cons, Option.some.injEq] at c4
              refine ⟨hd :: (sub ++ hs), ast :: asts, by rw [d1]; simp, ?_, ?_, d4, d5, ?_⟩
              · rw [c6]
                refine .condition c1 ?_ c2 c3 c5 ?_ d2
                · simpa [Header.col, c4] using hcol
                · exact ends_of_endsTok (by rw [← d3]; exact c9)
              · simp only at d3 ⊢
                rw [c7, d3, ← List.cons_append, flat_append]; simp
              · rw [d6, c10, ← List.cons_append, lastTok_append]
            split at h
            · rename_i hk; exact hcond (Or.inl hk) h
            · rename_i hk; exact hcond (Or.inr hk) h
            · rename_i hk
              rw [Res.bind_eq_ok] at h
              obtain ⟨⟨ast, s2⟩, h1, h2⟩ := h
              obtain ⟨hd, sub, c1, c2, c3, c4, c5, c6, c7, c8, c9⟩ := parseAction_sound hg hk h1
              obtain ⟨hs, asts, d1, d2, d3, d4, d5, d6⟩ := ihl _ _ _ _ _ c7 h2
              refine ⟨hd :: (sub ++ hs), ast :: asts, by rw [d1]; simp, ?_, ?_, d4, d5, ?_⟩
              · rw [c5]
                refine .action c1 ?_ c2 c4 ?_ d2
                · simpa [Header.col, c3] using hcol
                · exact ends_of_endsTok (by rw [← d3]; exact c8)
              · simp only at d3 ⊢
                rw [c6, d3, ← List.cons_append, flat_append]; simp
              · rw [d6, c9, ← List.cons_append, lastTok_append]
            · simp at h
        · rename_i hcol
          simp at h
          obtain ⟨rfl, rfl⟩ := h
          refine ⟨[], [], by simp, .nil, by simp, hat, ?_, rfl⟩
          intro t' r' h'
          simp only [List.cons.injEq] at h'
          rw [← h'.1]; omega

theorem parse_complete {c : Nat} {hs : List Header} {asts : List Ast} (h : Items c hs asts) :
    ∀ (fuel : Nat) (t : Token) (children : List Ast) (p : Option Token) (rest : List Token),
      t.span.start.column = c → AtHeader rest → EndsTok c rest → 2 * hs.length < fuel →
      conditionLoop fuel t children ⟨p, flat hs ++ rest⟩ = .ok (children ++ asts, ⟨lastTok p hs, rest⟩) := by
  induction h with
  | nil =>
    intro fuel t children p rest htc hr he hf
    cases fuel with
    | zero => omega
    | succ fuel =>
      cases rest with
      | nil => simp [conditionLoop, PState.current, lastTok]
      | cons g r =>
        simp only [flat_nil, List.nil_append, conditionLoop, PState.current, List.head?_cons]
        rw [if_neg (by have := he g r rfl; omega)]
        simp [lastTok]
  | @condition c hd sub kids rs asts hok hcol hcond hmore hsub hends hrest ih1 ih2 =>
    intro fuel t children p rest htc hr he hf
    simp only [List.length_cons, List.length_append] at hf
    obtain ⟨fuel, rfl⟩ : ∃ f, fuel = f + 2 := ⟨fuel - 2, by omega⟩
    have hrr := atHeader_flat (items_ok hrest) hr
    have hee : EndsTok hd.col (flat rs ++ rest) := by
      apply endsTok_of_ends hends
      rintro rfl
      intro x r hx
      have := he x r hx
      omega
    have e1 := ih1 fuel hd.glyph [] hd.words.getLast? (flat rs ++ rest) rfl hrr hee (by omega)
    have hr' := atHeader_flat (items_ok hsub) hrr
    have hs := parseString_eq hd.glyph hd.first hd.more (flat sub ++ (flat rs ++ rest)) p
      (fun w hw => hok.2 w (List.mem_cons_of_mem _ hw)) hr'
    obtain ⟨l, hl1, hl2⟩ := lastTok_span p hd sub
    have hp : lastTok hd.words.getLast? sub = lastTok p (hd :: sub) := by
      rw [lastTok_cons]; try rfl
    have hpc : parseCondition (fuel + 1) hd.glyph
        ⟨p, hd.glyph :: hd.first :: (hd.more ++ (flat sub ++ (flat rs ++ rest)))⟩ =
        .ok (.condition (nodeSpan hd sub) (sanitize hd.title) kids, ⟨lastTok p (hd :: sub), flat rs ++ rest⟩) := by
      simp only [parseCondition, hok.1, Bool.not_true, Bool.false_eq_true, if_false, PState.peek, List.tail_cons,
        List.head?_cons, Res.okOr, Res.bind_ok, hs]
      rw [if_neg (fun hh => hmore ((title_len_iff hd).1 hh))]
      simp only [Header.words] at e1 hp
      rw [e1]
      simp only [Res.bind_ok, hp, hl1, Res.unwrap, ← hl2]
      simp [nodeSpan]
    have e2 := ih2 (fuel + 1) t (children ++ [.condition (nodeSpan hd sub) (sanitize hd.title) kids])
      (lastTok p (hd :: sub)) rest htc hr he (by omega)
    have hflat : flat (hd :: (sub ++ rs)) ++ rest =
        hd.glyph :: hd.first :: (hd.more ++ (flat sub ++ (flat rs ++ rest))) := by
      rw [flat_cons, flat_append]; simp [Header.toks]
    rw [hflat]
    rw [conditionLoop]
    simp only [PState.current, List.head?_cons, PState.peek, List.tail_cons,
        Res.okOr, Res.bind_ok, Res.unwrap]
    rw [if_pos (by rw [htc]; exact hcol)]
    have hk : lastTok (lastTok p (hd :: sub)) rs = lastTok p (hd :: (sub ++ rs)) := by
      rw [← lastTok_append]; rfl
    rcases hcond with hc | hc <;> simp only [hc, hpc, Res.bind_ok, e2, hk] <;> simp
  | @action c hd sub rs asts hok hcol hact hsub hends hrest ih =>
    intro fuel t children p rest htc hr he hf
    simp only [List.length_cons, List.length_append] at hf
    obtain ⟨fuel, rfl⟩ : ∃ f, fuel = f + 2 := ⟨fuel - 2, by omega⟩
    have hrr := atHeader_flat (items_ok hrest) hr
    have hee : EndsTok hd.col (flat rs ++ rest) := by
      apply endsTok_of_ends hends
      rintro rfl
      intro x r hx
      have := he x r hx
      omega
    have hpa := parseAction_complete (fuel := fuel + 1) hd sub p (flat rs ++ rest) hok hsub hrr hee (by omega)
    have e2 := ih (fuel + 1) t (children ++ [.action (nodeSpan hd sub) hd.title (sub.map (descAst hd))])
      (lastTok p (hd :: sub)) rest htc hr he (by omega)
    have hflat : flat (hd :: (sub ++ rs)) ++ rest =
        hd.glyph :: hd.first :: (hd.more ++ (flat sub ++ (flat rs ++ rest))) := by
      rw [flat_cons, flat_append]; simp [Header.toks]
    have hflat2 : flat (hd :: sub) ++ (flat rs ++ rest) =
        hd.glyph :: hd.first :: (hd.more ++ (flat sub ++ (flat rs ++ rest))) := by
      rw [flat_cons]; simp [Header.toks]
    rw [hflat2] at hpa
    rw [hflat]
    rw [conditionLoop]
    simp only [PState.current, List.head?_cons, PState.peek, List.tail_cons,
        Res.okOr, Res.bind_ok, Res.unwrap]
    rw [if_pos (by rw [htc]; exact hcol)]
    have hk : lastTok (lastTok p (hd :: sub)) rs = lastTok p (hd :: (sub ++ rs)) := by
      rw [← lastTok_append]; rfl
    simp only [Header.isAction] at hact
    simp only [hact, hpa, Res.bind_ok, e2, hk]
    simp

end
end Bulloak
