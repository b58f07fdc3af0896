import Verif.Lemmas.Layout2
/-! # Texts that differ in layout only: translation and output -/

namespace Bulloak
open Spec
set_option linter.unusedSectionVars false

section
variable [U : Ucd] {D : Str → Str}

/-- Tokens that give trees of the same shape. -/
structure AlikeToks (D : Str → Str) (toks toks' : List Token) : Prop where
  words : toks.map tokWord = toks'.map tokWord
  indent : ∀ p ∈ toks.zip toks', ∀ q ∈ toks.zip toks', p.1.isBranch = true → q.1.isBranch = true →
    (tokCol p.1 < tokCol q.1 ↔ tokCol p.2 < tokCol q.2)
  desc : ∀ p ∈ toks.zip toks', ∀ q ∈ toks.zip toks', p.1.isBranch = true → q.1.isBranch = true → ∀ t,
    D (spaces (tokCol q.1 - tokCol p.1) ++ t) = D (spaces (tokCol q.2 - tokCol p.2) ++ t)

theorem words_zip : ∀ {l l' : List Token}, l.map tokWord = l'.map tokWord → ∀ p ∈ l.zip l', tokWord p.1 = tokWord p.2 := by
  intro l
  induction l with
  | nil => intro l' _ p hp; simp at hp
  | cons a l ih =>
    intro l' h p hp
    obtain ⟨b, l', rfl, h1, h2⟩ := List.map_eq_cons_iff.1 h.symm
    rw [List.zip_cons_cons, List.mem_cons] at hp
    rcases hp with rfl | hp
    · exact h1.symm
    · exact ih h2.symm p hp

theorem branch_word {t t' : Token} (h : tokWord t = tokWord t') : t.isBranch = t'.isBranch := by
  simp [tokWord] at h
  unfold Token.isBranch
  rw [h.1]

theorem zip_mem_swap {α β : Type} {l : List α} {m : List β} {p : α × β} (h : p ∈ l.zip m) : (p.2, p.1) ∈ m.zip l := by
  induction l generalizing m with
  | nil => simp at h
  | cons a l ih =>
    cases m with
    | nil => simp at h
    | cons b m =>
      rw [List.zip_cons_cons, List.mem_cons] at h ⊢
      rcases h with rfl | h
      · exact .inl rfl
      · exact .inr (ih h)

theorem AlikeToks.symm {toks toks' : List Token} (h : AlikeToks D toks toks') : AlikeToks D toks' toks := by
  have hz : ∀ p ∈ toks'.zip toks, (p.2, p.1) ∈ toks.zip toks' := by
    intro p hp
    exact zip_mem_swap hp
  have hb : ∀ p ∈ toks'.zip toks, p.1.isBranch = true → p.2.isBranch = true := by
    intro p hp h1
    rw [branch_word (words_zip h.words _ (hz p hp))]; exact h1
  refine ⟨h.words.symm, ?_, ?_⟩
  · intro p hp q hq h1 h2
    exact (h.indent _ (hz p hp) _ (hz q hq) (hb p hp h1) (hb q hq h2)).symm
  · intro p hp q hq h1 h2 t
    exact (h.desc _ (hz p hp) _ (hz q hq) (hb p hp h1) (hb q hq h2) t).symm

theorem trimStart_idem (t : Str) : trimStart (trimStart t) = trimStart t := by
  unfold trimStart
  induction t with
  | nil => rfl
  | cons c r ih =>
    by_cases h : isWs c = true
    · rw [List.dropWhile_cons_of_pos h]; exact ih
    · rw [List.dropWhile_cons_of_neg h, List.dropWhile_cons_of_neg h]

theorem trimStart_spaces (n : Nat) (t : Str) : trimStart (spaces n ++ t) = trimStart t := by
  unfold trimStart spaces
  induction n with
  | zero => rfl
  | succ n ih =>
    rw [List.replicate_succ, List.cons_append, List.dropWhile_cons_of_pos (by decide)]; exact ih

/-- Blocks whose tokens are alike. -/
def AlikeText (D : Str → Str) (b b' : Str) : Prop :=
  ∃ toks toks', tokenize b = .ok toks ∧ tokenize b' = .ok toks' ∧ AlikeToks D toks toks'

theorem AlikeText.symm {b b' : Str} (h : AlikeText D b b') : AlikeText D b' b := by
  obtain ⟨t, t', h1, h2, h3⟩ := h
  exact ⟨t', t, h2, h1, h3.symm⟩

theorem parseOne_alike {order order' : HashOrder} (ho : ∀ l, (order l).Perm l) (ho' : ∀ l, (order' l).Perm l) {b b' : Str}
    (h : AlikeText D b b') {ast : Ast} (hp : parseOne order b = .ok ast) :
    ∃ ast', parseOne order' b' = .ok ast' ∧ shape D ast = shape D ast' := by
  obtain ⟨toks, toks', ht, ht', ha⟩ := h
  obtain ⟨t, h1, h2, h3⟩ := parseOne_ok hp
  have : t = toks := by rw [ht] at h1; exact (Res.ok.inj h1).symm
  subst this
  have hc : ∀ x ∈ t, 0 < tokCol x := fun x hx => tokenize_col ht x hx
  have hc' : ∀ x ∈ toks', 0 < tokCol x := fun x hx => tokenize_col ht' x hx
  obtain ⟨ast', h4, h5⟩ := tree_alike ha.words ha.indent ha.desc hc hc' ((parseTokens_iff (tokenize_col ht) ast).1 h2)
  have h6 := (parseTokens_iff (tokenize_col ht') ast').2 h4
  refine ⟨ast', (C14_accepted_iff ho' ht' h6).2 ?_, h5⟩
  have hs : Sound ast := (C14_accepted_iff ho ht h2).1 hp
  exact (sound_shape (D := D) ast').1 (h5 ▸ (sound_shape (D := D) ast).2 hs)

theorem parse_alike {order order' : HashOrder} (ho : ∀ l, (order l).Perm l) (ho' : ∀ l, (order' l).Perm l) {bs bs' : List Str}
    (h : Each (AlikeText D) bs bs') : ∀ {asts : List Ast}, Each (fun b a => parseOne order b = .ok a) bs asts →
      ∃ asts', Each (fun b a => parseOne order' b = .ok a) bs' asts' ∧ asts.map (shape D) = asts'.map (shape D) := by
  induction h with
  | nil => intro asts hp; cases hp; exact ⟨[], .nil, rfl⟩
  | cons h1 _ ih =>
    intro asts hp
    cases hp with
    | cons hp1 hp2 =>
      obtain ⟨a', h2, h3⟩ := parseOne_alike ho ho' h1 hp1
      obtain ⟨as', h4, h5⟩ := ih hp2
      exact ⟨a' :: as', .cons h2 h4, by simp [h3, h5]⟩

theorem titleOf_root_shape {order order' : HashOrder} {b b' : Str} {a a' : Ast} (h : parseOne order b = .ok a)
    (h' : parseOne order' b' = .ok a') (he : shape D a = shape D a') : titleOf a = titleOf a' := by
  obtain ⟨t, h1, h2, _⟩ := parseOne_ok h
  obtain ⟨t', h1', h2', _⟩ := parseOne_ok h'
  obtain ⟨s, n, cs, rfl, _⟩ := tree_shape ((parseTokens_iff (tokenize_col h1) a).1 h2)
  obtain ⟨s', n', cs', rfl, _⟩ := tree_shape ((parseTokens_iff (tokenize_col h1') a').1 h2')
  simp only [shape, Ast.root.injEq] at he
  exact he.2.1

theorem titles_shape {order order' : HashOrder} {bs bs' : List Str} {as as' : List Ast} (h : Each (fun b a => parseOne order b = .ok a) bs as)
    (h' : Each (fun b a => parseOne order' b = .ok a) bs' as') (he : as.map (shape D) = as'.map (shape D)) :
    as.map titleOf = as'.map titleOf := by
  induction h generalizing bs' as' with
  | nil =>
    have : as' = [] := by simpa using he.symm
    subst this; rfl
  | cons h1 _ ih =>
    obtain ⟨a', as'', rfl, e1, e2⟩ := List.map_eq_cons_iff.1 he.symm
    cases h' with
    | cons h1' h2' =>
      rw [List.map_cons, List.map_cons, titleOf_root_shape h1 h1' e1.symm, ih h2' e2.symm]

theorem splits_titles {n : Str} {as : List Ast} {fs : List Str} (h : Each (fun a f => Splits (titleOf a) n f) as fs) :
    ∀ {as' : List Ast}, as.map titleOf = as'.map titleOf → Each (fun a f => Splits (titleOf a) n f) as' fs := by
  induction h with
  | nil =>
    intro as' he
    have : as' = [] := by simpa using he.symm
    subst this; exact .nil
  | cons h1 _ ih =>
    intro as' he
    obtain ⟨a', as'', rfl, e1, e2⟩ := List.map_eq_cons_iff.1 he.symm
    exact .cons (e1 ▸ h1) (ih e2.symm)

/-- Alike texts: the same contract. -/
theorem translate_alike [LawfulUcd] (hD : ∀ t, D (D t) = D t) {order order' : HashOrder} (ho : ∀ l, (order l).Perm l)
    (ho' : ∀ l, (order' l).Perm l) {text text' : Str} (h : Each (AlikeText D) (splitTrees text) (splitTrees text')) {cfg : Config}
    {n : Str} {fns : List HFn} (ht : translate order cfg text = .ok ⟨[⟨n, fns⟩]⟩) :
    ∃ fns', translate order' cfg text' = .ok ⟨[⟨n, fns'⟩]⟩ ∧ fns.map (look D) = fns'.map (look D) := by
  cases hp : parse order text with
  | panic => simp [translate, hp, Res.mapErr] at ht
  | err e => simp [translate, hp, Res.mapErr] at ht
  | ok asts =>
    have hp0 := (C13_parse_ok order text asts).1 hp
    obtain ⟨asts', hp1, he⟩ := parse_alike ho ho' h hp0
    have hp' := (C13_parse_ok order' text' asts').2 hp1
    have htit := titles_shape hp0 hp1 he
    have hlen : asts.length = asts'.length := by simpa using congrArg List.length he
    rcases translate_cases hp cfg with ⟨ast, rfl, h1⟩ | ⟨rfl, h1⟩ | ⟨hl, n', fs, hb, hs, h1⟩ | ⟨hl, n', A, a, B, e, hA, _, _, h1⟩
    · rw [h1] at ht
      obtain ⟨a', rfl⟩ := List.length_eq_one_iff.1 hlen.symm
      rw [translate_one hp']
      simp only [Res.ok.injEq, HRoot.mk.injEq, List.cons.injEq, HContract.mk.injEq, and_true] at ht
      obtain ⟨rfl, rfl⟩ := ht
      simp only [List.map_cons, List.map_nil, List.cons.injEq, and_true] at htit he
      exact ⟨_, by rw [htit], expected_look hD _ he⟩
    · rw [h1] at ht
      have : asts' = [] := by simpa using he.symm
      subst this
      rw [translate_many hp' (by simp)]
      simp only [Res.ok.injEq, HRoot.mk.injEq, List.cons.injEq, HContract.mk.injEq, and_true] at ht
      obtain ⟨rfl, rfl⟩ := ht
      exact ⟨[], rfl, rfl⟩
    · rw [h1] at ht
      have := splits_titles hs htit
      rw [translate_good hp' (by omega) (by intro h0; rw [h0] at hlen; simp at hlen; rw [hlen] at hl; simp at hl) hb this]
      simp only [Res.ok.injEq, HRoot.mk.injEq, List.cons.injEq, HContract.mk.injEq, and_true] at ht
      obtain ⟨rfl, rfl⟩ := ht
      refine ⟨_, rfl, ?_⟩
      rw [firstOnly_look, firstOnly_look, prefixedFns_look hD _ he]
    · rw [h1] at ht; cases ht

theorem each_symm {α : Type} {R : α → α → Prop} (hR : ∀ a b, R a b → R b a) {l m : List α} (h : Each R l m) : Each R m l := by
  induction h with
  | nil => exact .nil
  | cons h1 _ ih => exact .cons (hR _ _ h1) ih

/-! ## From texts to tokens -/

/-- What the tokenizer makes of the glyphs and words. -/
def seenRun (acc : List (TokenKind × Str)) (mode : Bool) : List (Bool × Piece) → Res Char (List (TokenKind × Str))
  | [] => .ok acc
  | (fresh, .tee) :: l => seenRun (acc ++ [(.tee, c!"├")]) (mode && !fresh) l
  | (fresh, .corner) :: l => seenRun (acc ++ [(.corner, c!"└")]) (mode && !fresh) l
  | (fresh, .word w) :: l =>
    if (mode && !fresh) = true ∧ ∃ x ∈ w, isValidIdentChar x = false then .err ((w.dropWhile isValidIdentChar).headD ' ')
    else
      seenRun (acc ++ [(wordKind w, w)])
        (if (acc.getLast?.map (fun t => decide (t.1 = .tee ∨ t.1 = .corner))).getD false &&
          (decide (wordKind w = .when) || decide (wordKind w = .given)) then true else (mode && !fresh)) l
  | (fresh, _) :: l => seenRun acc (mode && !fresh) l

/-- Kinds and texts of the tokens, or the offending character. -/
def runView : Res TokError (List Token) → Res Char (List (TokenKind × Str))
  | .ok toks => .ok (toks.map tokWord)
  | .err e => .err e.char
  | .panic => .panic

theorem lexRun_seen (ps : List Piece) : ∀ (toks : List Token) (mode e : Bool) (pre : Str),
    runView (lexRun toks (mode && !e) pre ps) =
      seenRun (toks.map tokWord) mode ((reading pre e ps).map (fun x => (x.fresh, x.piece))) := by
  induction ps with
  | nil => intro toks mode e pre; rfl
  | cons p ps ih =>
    intro toks mode e pre
    cases p with
    | skip c => simp only [lexRun, reading]; exact ih _ _ _ _
    | brk c =>
      simp only [lexRun, reading]
      have := ih toks mode true (pre ++ [c])
      simpa using this
    | comment s =>
      simp only [lexRun, reading]
      have := ih toks mode true (pre ++ (c!"//" ++ s))
      simpa using this
    | tee =>
      simp only [lexRun, reading, List.map_cons, seenRun]
      have := ih (toks ++ [⟨.tee, Span.splat (posOf pre), c!"├"⟩]) (mode && !e) false (pre ++ c!"├")
      simpa [tokWord] using this
    | corner =>
      simp only [lexRun, reading, List.map_cons, seenRun]
      have := ih (toks ++ [⟨.corner, Span.splat (posOf pre), c!"└"⟩]) (mode && !e) false (pre ++ c!"└")
      simpa [tokWord] using this
    | word w =>
      simp only [lexRun, reading, List.map_cons, seenRun]
      by_cases h : (mode && !e) = true ∧ ∃ x ∈ w, isValidIdentChar x = false
      · rw [if_pos h, if_pos h]; rfl
      · rw [if_neg h, if_neg h]
        have hlast : ((toks.map tokWord).getLast?.map (fun t => decide (t.1 = .tee ∨ t.1 = .corner))) =
            toks.getLast?.map Token.isBranch := by
          rw [List.getLast?_map, Option.map_map]
          congr 1
          funext t
          obtain ⟨k, sp, l⟩ := t
          cases k <;> rfl
        rw [hlast]
        have := ih (toks ++ [⟨wordKind w, ⟨posOf pre, posOf (pre ++ w.dropLast)⟩, w⟩])
          (if (toks.getLast?.map Token.isBranch).getD false && (decide (wordKind w = .when) || decide (wordKind w = .given))
            then true else (mode && !e)) false (pre ++ w)
        simpa [tokWord] using this

theorem reading_cols (ps : List Piece) : ∀ (pre : Str) (e : Bool),
    (reading pre e ps).map (fun x => (x.piece.isBranch, x.col)) = (tokensOf pre ps).map (fun t => (t.isBranch, tokCol t)) := by
  induction ps with
  | nil => intro pre e; rfl
  | cons p ps ih =>
    intro pre e
    cases p with
    | word w =>
      simp only [reading, tokensOf, List.map_cons, ih, word_not_branch, tokCol]; rfl
    | tee => simp only [reading, tokensOf, List.map_cons, ih]; rfl
    | corner => simp only [reading, tokensOf, List.map_cons, ih]; rfl
    | skip c => simp only [reading, tokensOf, ih]
    | brk c => simp only [reading, tokensOf, ih]
    | comment s => simp only [reading, tokensOf, ih]; rfl

theorem tokenize_seen {text : Str} {ps : List Piece} (h : Lexes text ps) :
    runView (tokenize text) = seenRun [] false ((reading [] true ps).map (fun x => (x.fresh, x.piece))) := by
  rw [tokenize_eq_lexRun h]
  have := lexRun_seen ps [] false true []
  simpa using this

theorem zip_of_maps {α β α' β' γ γ' : Type} {f : α → γ} {g : β → γ} {f' : α' → γ'} {g' : β' → γ'} :
    ∀ {l : List α} {m : List β} {l' : List α'} {m' : List β'}, l.map f = m.map g → l'.map f' = m'.map g' →
      ∀ p ∈ m.zip m', ∃ q ∈ l.zip l', f q.1 = g p.1 ∧ f' q.2 = g' p.2 := by
  intro l
  induction l with
  | nil =>
    intro m l' m' h _ p hp
    have : m = [] := by simpa using h.symm
    subst this; simp at hp
  | cons a l ih =>
    intro m l' m' h h' p hp
    obtain ⟨b, m, rfl, h1, h2⟩ := List.map_eq_cons_iff.1 h.symm
    cases m' with
    | nil => simp at hp
    | cons b' m' =>
      obtain ⟨a', l', rfl, h1', h2'⟩ := List.map_eq_cons_iff.1 h'
      rw [List.zip_cons_cons, List.mem_cons] at hp
      rcases hp with rfl | hp
      · exact ⟨(a, a'), by simp, h1.symm, h1'⟩
      · obtain ⟨q, hq, e⟩ := ih h2.symm h2' p hp
        exact ⟨q, by simp [hq], e⟩

/-- Texts that read the same: both are rejected by the tokenizer because of the same character, or their tokens have
the same kinds and texts. -/
theorem tokens_alike {b b' : Str} {ps ps' : List Piece} (hl : Lexes b ps) (hl' : Lexes b' ps')
    (hr : (reading [] true ps).map (fun x => (x.fresh, x.piece)) = (reading [] true ps').map (fun x => (x.fresh, x.piece)))
    {toks : List Token} (h : tokenize b = .ok toks) :
    ∃ toks', tokenize b' = .ok toks' ∧ toks.map tokWord = toks'.map tokWord ∧
      ∀ p ∈ toks.zip toks', ∃ q ∈ (reading [] true ps).zip (reading [] true ps'),
        q.1.piece.isBranch = p.1.isBranch ∧ q.1.col = tokCol p.1 ∧ q.2.col = tokCol p.2 := by
  have h1 := tokenize_seen hl
  have h2 := tokenize_seen hl'
  rw [← hr, ← h1, h] at h2
  cases h' : tokenize b' with
  | panic => rw [h'] at h2; cases h2
  | err e => rw [h'] at h2; cases h2
  | ok toks' =>
    rw [h'] at h2
    simp only [runView, Res.ok.injEq] at h2
    refine ⟨toks', rfl, h2.symm, ?_⟩
    intro p hp
    rw [tokenize_ok_tokensOf hl h, tokenize_ok_tokensOf hl' h'] at hp
    obtain ⟨q, hq, e1, e2⟩ := zip_of_maps (reading_cols ps [] true) (reading_cols ps' [] true) p hp
    simp only [Prod.mk.injEq] at e1 e2
    exact ⟨q, hq, e1.1, e1.2, e2.2⟩

theorem alike_columns {b b' : Str} (h : SameColumns b b') {toks : List Token} (ht : tokenize b = .ok toks) : AlikeText id b b' := by
  obtain ⟨ps, ps', hl, hl', hr, hc⟩ := h
  obtain ⟨toks', h1, h2, h3⟩ := tokens_alike hl hl' hr ht
  have hcol : ∀ p ∈ toks.zip toks', p.1.isBranch = true → tokCol p.1 = tokCol p.2 := by
    intro p hp hb
    obtain ⟨q, hq, e1, e2, e3⟩ := h3 p hp
    rw [← e2, ← e3]
    exact hc q hq (e1.trans hb)
  refine ⟨toks, toks', ht, h1, h2, ?_, ?_⟩
  · intro p hp q hq b1 b2
    rw [hcol p hp b1, hcol q hq b2]
  · intro p hp q hq b1 b2 t
    rw [hcol p hp b1, hcol q hq b2]

theorem alike_indent {b b' : Str} (h : SameIndent b b') {toks : List Token} (ht : tokenize b = .ok toks) : AlikeText trimStart b b' := by
  obtain ⟨ps, ps', hl, hl', hr, hc⟩ := h
  obtain ⟨toks', h1, h2, h3⟩ := tokens_alike hl hl' hr ht
  refine ⟨toks, toks', ht, h1, h2, ?_, ?_⟩
  · intro p hp q hq b1 b2
    obtain ⟨p', hp', e1, e2, e3⟩ := h3 p hp
    obtain ⟨q', hq', f1, f2, f3⟩ := h3 q hq
    rw [← e2, ← e3, ← f2, ← f3]
    exact hc p' hp' q' hq' (e1.trans b1) (f1.trans b2)
  · intro p hp q hq b1 b2 t
    rw [trimStart_spaces, trimStart_spaces]

theorem split_trees {text : Str} {bs : List Str} (h : Trees text bs) : splitTrees text = bs := by
  obtain ⟨h1, _, h3⟩ := C12_split text
  rcases h with ⟨hb, rfl⟩ | ⟨all, hb, rfl⟩
  · exact h1 hb
  · obtain ⟨keep, h4, h5⟩ := h3 all hb
    rw [h4]
    apply List.filter_congr
    intro b hb
    by_cases h : OnlyComments b
    · have : keep b = false := by
        cases hk : keep b with
        | false => rfl
        | true => exact absurd h ((h5 b hb).1 hk)
      rw [this]; simp [h]
    · rw [(h5 b hb).2 h]; simp [h]

/-- A parsed text has tokens. -/
theorem each_alike {R : Str → Str → Prop} (hR : ∀ b b' toks, R b b' → tokenize b = .ok toks → AlikeText D b b') {bs bs' : List Str}
    (h : Each R bs bs') : ∀ {order : HashOrder} {asts : List Ast}, Each (fun b a => parseOne order b = .ok a) bs asts → Each (AlikeText D) bs bs' := by
  induction h with
  | nil => intro order asts _; exact .nil
  | cons h1 _ ih =>
    intro order asts hp
    cases hp with
    | cons hp1 hp2 =>
      obtain ⟨toks, ht, _⟩ := parseOne_ok hp1
      exact .cons (hR _ _ _ h1 ht) (ih hp2)

theorem translate_related [LawfulUcd] (hD : ∀ t, D (D t) = D t) {R : Str → Str → Prop}
    (hR : ∀ b b' toks, R b b' → tokenize b = .ok toks → AlikeText D b b')
    {order order' : HashOrder} (ho : ∀ l, (order l).Perm l)
    (ho' : ∀ l, (order' l).Perm l) {text text' : Str} {bs bs' : List Str} (hb : Trees text bs) (hb' : Trees text' bs') (h : Each R bs bs') {cfg : Config}
    {n : Str} {fns : List HFn} (ht : translate order cfg text = .ok ⟨[⟨n, fns⟩]⟩) :
    ∃ fns', translate order' cfg text' = .ok ⟨[⟨n, fns'⟩]⟩ ∧ fns.map (look D) = fns'.map (look D) := by
  have : ∃ asts, parse order text = .ok asts := by
    cases hp : parse order text with
    | panic => simp [translate, hp, Res.mapErr] at ht
    | err e => simp [translate, hp, Res.mapErr] at ht
    | ok asts => exact ⟨asts, rfl⟩
  obtain ⟨asts, hp⟩ := this
  have hp := (C13_parse_ok order text asts).1 hp
  rw [split_trees hb] at hp
  refine translate_alike hD ho ho' ?_ ht
  rw [split_trees hb, split_trees hb']
  exact each_alike hR h hp

/-! ## Output -/

theorem ptFunction_look (f : HFn) : ptFunction (look id f) = ptFunction f := by
  obtain ⟨i, ty, sp, m, c⟩ := f
  have hl : lookItem id = id := by funext x; cases x <;> rfl
  cases ty <;> cases c <;> simp [look, ptFunction, genFnAttr, genFnBody, hl]

theorem ptContract_look (cfg : Config) (n : Str) (fns : List HFn) : ptContract cfg ⟨n, fns.map (look id)⟩ = ptContract cfg ⟨n, fns⟩ := by
  unfold ptContract
  simp only [PtContract.mk.injEq, true_and]
  rw [List.filter_map, List.map_map]
  have h1 : ptFunction ∘ look id = ptFunction := by funext f; exact ptFunction_look f
  rw [h1]
  congr 1

theorem solFn_look (f : HFn) : squeeze (solFn (look trimStart f)) = squeeze (solFn f) := by
  obtain ⟨i, ty, sp, m, c⟩ := f
  have hsq : ∀ t : Str, squeeze (trimStart t) = squeeze t := by
    intro t
    unfold squeeze trimStart
    induction t with
    | nil => rfl
    | cons x t ih =>
      by_cases hx : isWs x = true
      · rw [List.dropWhile_cons_of_pos hx, ih]; simp [hx]
      · rw [List.dropWhile_cons_of_neg hx]
  have happ : ∀ a b : Str, squeeze (a ++ b) = squeeze a ++ squeeze b := by intro a b; simp [squeeze]
  have hi : ∀ l : List BodyItem, squeeze ((l.map (lookItem trimStart)).flatMap solItem) = squeeze (l.flatMap solItem) := by
    intro l
    induction l with
    | nil => rfl
    | cons x l ih =>
      simp only [List.map_cons, List.flatMap_cons, happ, ih]
      cases x with
      | vmSkip => rfl
      | comment t => simp only [lookItem, solItem, happ, hsq]
  cases ty with
  | modifier => rfl
  | function =>
    cases c with
    | none => rfl
    | some l => simp only [look, solFn, Option.map_some, Option.getD_some, happ, hi]

theorem stanzas_squeeze (l : List Str) : squeeze (stanzas l) = (l.map squeeze).flatten := by
  induction l with
  | nil => rfl
  | cons a l ih =>
    cases l with
    | nil => simp [stanzas]
    | cons b l =>
      rw [stanzas]
      · simp only [squeeze, List.filter_append, List.map_cons, List.flatten_cons] at ih ⊢
        rw [ih]
        have : List.filter (fun c => !isWs c) c!"\n\n" = [] := by decide
        rw [this]; simp
      · simp

end
end Bulloak
