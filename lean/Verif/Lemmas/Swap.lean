import Verif.Spec.Swap
import Verif.Lemmas.Layout3
import Verif.Props.Recase
/-! # Trees that differ in the words opening conditions -/

namespace Bulloak
open Spec
set_option linter.unusedSectionVars false

section
variable [U : Ucd]

theorem exchanged_symm {K K' : Str → Str → Prop} (hK : ∀ w w', K w w' → K' w' w) {a : Bool} {l l' : List Seen} (h : Exchanged K a l l') : Exchanged K' a l' l := by
  induction h with
  | nil => exact .nil
  | glyph h _ ih => exact .glyph h ih
  | word h _ ih => exact .word h ih
  | opener h h' k _ ih => exact .opener h' h (hK _ _ k) ih

theorem exchangedText_symm {K K' : Str → Str → Prop} (hK : ∀ w w', K w w' → K' w' w) {b b' : Str} (h : ExchangedText K b b') : ExchangedText K' b' b := by
  obtain ⟨ps, ps', h1, h2, h3⟩ := h
  exact ⟨ps', ps, h2, h1, exchanged_symm hK h3⟩

/-- The kind and text of the token of a glyph or word. -/
def pieceWord : Piece → TokenKind × Str
  | .tee => (.tee, c!"├")
  | .corner => (.corner, c!"└")
  | .word w => (wordKind w, w)
  | _ => (.word, [])

theorem reading_tokens (ps : List Piece) : ∀ (pre : Str) (e : Bool),
    Each (fun x t => tokWord t = pieceWord x.piece ∧ tokCol t = x.col) (reading pre e ps) (tokensOf pre ps) := by
  induction ps with
  | nil => intro pre e; exact .nil
  | cons p ps ih =>
    intro pre e
    cases p with
    | word w => exact .cons ⟨rfl, rfl⟩ (ih _ _)
    | tee => exact .cons ⟨rfl, rfl⟩ (ih _ _)
    | corner => exact .cons ⟨rfl, rfl⟩ (ih _ _)
    | skip c => exact ih _ _
    | brk c => exact ih _ _
    | comment s => exact ih _ _

/-- Tokens that differ only in the words opening conditions. -/
inductive TokSwap (K : Str → Str → Prop) : Bool → List Token → List Token → Prop where
  | nil {a} : TokSwap K a [] []
  | glyph {a t t' l l'} : t.isBranch = true → tokWord t' = tokWord t → tokCol t' = tokCol t → TokSwap K true l l' → TokSwap K a (t :: l) (t' :: l')
  | word {a t t' l l'} : t.isBranch = false → tokWord t' = tokWord t → (a = true → ¬ IsConditionWord t.lexeme) → TokSwap K false l l' → TokSwap K a (t :: l) (t' :: l')
  | opener {t t' l l'} : t.isBranch = false → t.kind = wordKind t.lexeme → t'.kind = wordKind t'.lexeme → IsConditionWord t.lexeme → IsConditionWord t'.lexeme →
      K t.lexeme t'.lexeme → TokSwap K false l l' → TokSwap K true (t :: l) (t' :: l')

theorem branch_of_word {t : Token} {x : TokenKind × Str} (h : tokWord t = x) : t.isBranch = (decide (x.1 = .tee ∨ x.1 = .corner)) := by
  subst h
  obtain ⟨k, s, l⟩ := t
  cases k <;> rfl

theorem exchanged_tokens {K : Str → Str → Prop} {a : Bool} {l l' : List Seen} (h : Exchanged K a l l') : ∀ {ts ts' : List Token},
    Each (fun x t => tokWord t = pieceWord x.piece ∧ tokCol t = x.col) l ts → Each (fun x t => tokWord t = pieceWord x.piece ∧ tokCol t = x.col) l' ts' →
      TokSwap K a ts ts' := by
  have hw : ∀ (w : Str), (decide ((pieceWord (.word w)).1 = .tee ∨ (pieceWord (.word w)).1 = .corner)) = false := by
    intro w
    have := word_not_branch w Span.default w
    rw [branch_of_word (x := pieceWord (.word w)) rfl] at this
    exact this
  induction h with
  | nil => intro ts ts' h1 h2; cases h1; cases h2; exact .nil
  | @glyph a f p c l l' hp _ ih =>
    intro ts ts' h1 h2
    cases h1 with
    | cons r1 h1 =>
      cases h2 with
      | cons r2 h2 =>
        refine .glyph ?_ (r2.1.trans r1.1.symm) (r2.2.trans r1.2.symm) (ih h1 h2)
        rw [branch_of_word r1.1]
        cases p <;> first | rfl | cases hp
  | @word a f w c c' l l' hn _ ih =>
    intro ts ts' h1 h2
    cases h1 with
    | cons r1 h1 =>
      cases h2 with
      | cons r2 h2 =>
        refine .word ?_ (r2.1.trans r1.1.symm) ?_ (ih h1 h2)
        · rw [branch_of_word r1.1]; exact hw w
        · have := congrArg Prod.snd r1.1
          simp only [tokWord, pieceWord] at this
          rw [this]; exact hn
  | @opener f w w' c c' l l' k1 k2 k3 _ ih =>
    intro ts ts' h1 h2
    cases h1 with
    | cons r1 h1 =>
      cases h2 with
      | cons r2 h2 =>
        have e1 := r1.1
        have e2 := r2.1
        simp only [tokWord, pieceWord, Prod.mk.injEq] at e1 e2
        refine .opener ?_ ?_ ?_ ?_ ?_ ?_ (ih h1 h2)
        · rw [branch_of_word r1.1]; exact hw w
        · rw [e1.1, e1.2]
        · rw [e2.1, e2.2]
        · rw [e1.2]; exact k1
        · rw [e2.2]; exact k2
        · rw [e1.2, e2.2]; exact k3

theorem condition_valid [LawfulUcd] {w : Str} (h : IsConditionWord w) : ¬ ∃ x ∈ w, isValidIdentChar x = false := by
  rcases h with h | h
  · exact keyword_valid (by decide) h
  · exact keyword_valid (by decide) h

theorem exchanged_run [LawfulUcd] {K : Str → Str → Prop} {a : Bool} {l l' : List Seen} (h : Exchanged K a l l') :
    ∀ {acc acc' : List (TokenKind × Str)} {mode : Bool} {out}, acc.getLast?.map (fun t => decide (t.1 = .tee ∨ t.1 = .corner)) = acc'.getLast?.map (fun t => decide (t.1 = .tee ∨ t.1 = .corner)) →
      seenRun acc mode (l.map (fun x => (x.fresh, x.piece))) = .ok out → ∃ out', seenRun acc' mode (l'.map (fun x => (x.fresh, x.piece))) = .ok out' := by
  induction h with
  | nil => intro acc acc' _ _ _ _; exact ⟨acc', rfl⟩
  | @glyph a f p c l l' hp _ ih =>
    intro acc acc' mode out hl hr
    cases p with
    | tee => exact ih (by simp) hr
    | corner => exact ih (by simp) hr
    | skip c => cases hp
    | brk c => cases hp
    | comment s => cases hp
    | word w => cases hp
  | @word a f w c c' l l' hn _ ih =>
    intro acc acc' mode out hl hr
    simp only [List.map_cons, seenRun] at hr ⊢
    split at hr
    · cases hr
    · rename_i hn
      rw [if_neg hn, ← hl]
      exact ih (by simp) hr
  | @opener f w w' c c' l l' k1 k2 k3 _ ih =>
    intro acc acc' mode out hl hr
    simp only [List.map_cons, seenRun] at hr ⊢
    rw [if_neg (fun h => condition_valid k1 h.2)] at hr
    rw [if_neg (fun h => condition_valid k2 h.2), ← hl]
    have c1 : (decide (wordKind w = .when) || decide (wordKind w = .given)) = true := by
      have := (wordKind_condition w).2 k1
      simpa using this
    have c2 : (decide (wordKind w' = .when) || decide (wordKind w' = .given)) = true := by
      have := (wordKind_condition w').2 k2
      simpa using this
    rw [c1] at hr
    rw [c2]
    have b : ∀ u : Str, decide (wordKind u = .tee ∨ wordKind u = .corner) = false := by
      intro u
      have := word_not_branch u Span.default u
      rw [branch_of_word (x := (wordKind u, u)) rfl] at this
      exact this
    refine ih ?_ hr
    rw [List.getLast?_concat, List.getLast?_concat, Option.map_some, Option.map_some, b, b]

theorem tokenize_exch [LawfulUcd] {K : Str → Str → Prop} {b b' : Str} (h : ExchangedText K b b') {toks : List Token} (ht : tokenize b = .ok toks) :
    ∃ toks', tokenize b' = .ok toks' ∧ TokSwap K false toks toks' := by
  obtain ⟨ps, ps', h1, h2, h3⟩ := h
  have hr := tokenize_seen h1
  rw [ht] at hr
  obtain ⟨out, ho⟩ := exchanged_run h3 (acc' := []) rfl hr.symm
  rw [← tokenize_seen h2] at ho
  cases ht' : tokenize b' with
  | err e => rw [ht'] at ho; cases ho
  | panic => rw [ht'] at ho; cases ho
  | ok toks' =>
    refine ⟨toks', rfl, ?_⟩
    rw [tokenize_ok_tokensOf h1 ht, tokenize_ok_tokensOf h2 ht']
    exact exchanged_tokens h3 (reading_tokens ps [] true) (reading_tokens ps' [] true)

/-! ## Headers -/

/-- Headers that differ only in the words opening conditions. -/
structure HeadSwap (K : Str → Str → Prop) (h h' : Header) : Prop where
  glyph : h'.glyph.kind = h.glyph.kind
  col : h'.col = h.col
  more : h'.more.map tokWord = h.more.map tokWord
  first : (tokWord h'.first = tokWord h.first ∧ ¬ IsConditionWord h.first.lexeme) ∨
    (h.first.kind = wordKind h.first.lexeme ∧ h'.first.kind = wordKind h'.first.lexeme ∧ IsConditionWord h.first.lexeme ∧ IsConditionWord h'.first.lexeme ∧
      K h.first.lexeme h'.first.lexeme)

theorem tokSwap_words {K : Str → Str → Prop} {m l l' : List Token} (hm : ∀ t ∈ m, t.isBranch = false) (h : TokSwap K false (m ++ l) l') :
    ∃ m' r, l' = m' ++ r ∧ m'.map tokWord = m.map tokWord ∧ TokSwap K false l r := by
  induction m generalizing l' with
  | nil => exact ⟨[], l', rfl, rfl, h⟩
  | cons t m ih =>
    rw [List.cons_append] at h
    cases h with
    | glyph hb _ _ _ => rw [hm t (by simp)] at hb; cases hb
    | @word _ _ t' _ _ _ e _ h =>
      obtain ⟨m', r, rfl, hm', hr⟩ := ih (fun t ht => hm t (by simp [ht])) h
      exact ⟨t' :: m', r, rfl, by simp [hm', e], hr⟩

theorem flat_exch {K : Str → Str → Prop} {hs : List Header} (ho : ∀ h ∈ hs, h.Ok) : ∀ {l : List Token}, TokSwap K false (flat hs) l →
    ∃ ps : List (Header × Header), hs = ps.map Prod.fst ∧ l = flat (ps.map Prod.snd) ∧ ∀ p ∈ ps, HeadSwap K p.1 p.2 := by
  induction hs with
  | nil =>
    intro l h
    have e : flat [] = [] := rfl
    rw [e] at h
    cases h
    exact ⟨[], rfl, rfl, by simp⟩
  | cons h hs ih =>
    intro l hr
    have e0 : flat (h :: hs) = h.glyph :: h.first :: (h.more ++ flat hs) := by simp [flat, Header.toks]
    rw [e0] at hr
    obtain ⟨o1, o2⟩ := header_ok_tokens (ho h (by simp))
    have o3 : h.first.isBranch = false := o2 _ (by simp [Header.words])
    have o4 : ∀ t ∈ h.more, t.isBranch = false := fun t ht => o2 t (by simp [Header.words, ht])
    obtain ⟨g, f, m⟩ := h
    cases hr with
    | word hb _ _ _ => rw [show g.isBranch = true from o1] at hb; cases hb
    | @glyph _ _ g' _ _ _ eg ec hr =>
      have hrest : ∀ {f' : Token} {l' : List Token}, TokSwap K false (m ++ flat hs) l' →
          ((tokWord f' = tokWord f ∧ ¬ IsConditionWord f.lexeme) ∨ (f.kind = wordKind f.lexeme ∧ f'.kind = wordKind f'.lexeme ∧ IsConditionWord f.lexeme ∧ IsConditionWord f'.lexeme ∧
            K f.lexeme f'.lexeme)) →
          ∃ ps : List (Header × Header), (⟨g, f, m⟩ :: hs : List Header) = ps.map Prod.fst ∧ g' :: f' :: l' = flat (ps.map Prod.snd) ∧ ∀ p ∈ ps, HeadSwap K p.1 p.2 := by
        intro f' l' hr hf
        obtain ⟨m', r, rfl, hm', hr2⟩ := tokSwap_words o4 hr
        obtain ⟨ps, rfl, rfl, hp⟩ := ih (fun x hx => ho x (by simp [hx])) hr2
        refine ⟨(⟨g, f, m⟩, ⟨g', f', m'⟩) :: ps, rfl, by simp [flat, Header.toks], ?_⟩
        intro p hp'
        rcases List.mem_cons.1 hp' with rfl | hp'
        · exact ⟨congrArg Prod.fst eg, ec, hm', hf⟩
        · exact hp p hp'
      generalize hfl : m ++ flat hs = tl at hr
      cases hr with
      | glyph hb _ _ _ => rw [show f.isBranch = false from o3] at hb; cases hb
      | word _ e n hr => subst hfl; exact hrest hr (.inl ⟨e, n rfl⟩)
      | opener _ k1 k2 k3 k4 k5 hr => subst hfl; exact hrest hr (.inr ⟨k1, k2, k3, k4, k5⟩)

section
variable {K : Str → Str → Prop}

theorem condition_wordLike [LawfulUcd] {w : Str} (h : IsConditionWord w) : (wordKind w).isWordLike = true := by
  rcases (wordKind_condition w).2 h with h | h <;> rw [h] <;> rfl

theorem HeadSwap.ok [LawfulUcd] {h h' : Header} (r : HeadSwap K h h') (hk : h.Ok) : h'.Ok := by
  refine ⟨r.glyph ▸ hk.1, ?_⟩
  intro t ht
  rcases List.mem_cons.1 ht with rfl | ht
  · rcases r.first with ⟨e, _⟩ | ⟨_, e, _, e', _⟩
    · have := congrArg Prod.fst e
      simp only [tokWord] at this
      rw [this]; exact hk.2 _ (by simp [Header.words])
    · rw [e]; exact condition_wordLike e'
  · have : tokWord t ∈ h.more.map tokWord := by rw [← r.more]; exact List.mem_map_of_mem ht
    obtain ⟨u, hu, he⟩ := List.mem_map.1 this
    have := hk.2 u (by simp [Header.words, hu])
    simp [tokWord] at he
    rw [← he.1]; exact this

theorem HeadSwap.more_ne {h h' : Header} (r : HeadSwap K h h') (hk : h.more ≠ []) : h'.more ≠ [] := by
  intro he
  have := r.more
  rw [he] at this
  exact hk (List.map_eq_nil_iff.1 this.symm)

/-- The words behind the first one, each with a space before it. -/
def tailText (ws : List Str) : Str := ws.flatMap (fun w => ' ' :: w)

theorem joinSep_tail (w : Str) (ws : List Str) : joinSep c!" " (w :: ws) = w ++ tailText ws := by
  induction ws generalizing w with
  | nil => simp [joinSep, tailText]
  | cons v ws ih =>
    have : joinSep c!" " (w :: v :: ws) = w ++ c!" " ++ joinSep c!" " (v :: ws) := by simp [joinSep]
    rw [this, ih]
    simp [tailText]

theorem tailText_cases (ws : List Str) : tailText ws = [] ∨ ∃ r, tailText ws = ' ' :: r := by
  cases ws with
  | nil => exact .inl rfl
  | cons w ws => exact .inr ⟨_, by simp only [tailText, List.flatMap_cons, List.cons_append]; rfl⟩

theorem title_tail (h : Header) : h.title = h.first.lexeme ++ tailText (h.more.map (·.lexeme)) := by
  simp only [Header.title, Header.words, List.map_cons, joinSep_tail]

theorem HeadSwap.tail {h h' : Header} (r : HeadSwap K h h') : tailText (h'.more.map (·.lexeme)) = tailText (h.more.map (·.lexeme)) := by
  rw [words_lexeme r.more]

end

/-! ## Nodes -/

/-- Words opening conditions that may be exchanged. -/
def Opener (K : Str → Str → Prop) (w w' : Str) : Prop := IsConditionWord w ∧ IsConditionWord w' ∧ K w w'

/-- The same nodes up to the words opening conditions, and up to places. -/
inductive Swaps (K : Str → Str → Prop) : List Ast → List Ast → Prop where
  | nil : Swaps K [] []
  | condition {s s' t t' ks ks' l l'} : TitleRel (Opener K) t t' → Swaps K ks ks' → Swaps K l l' → Swaps K (.condition s (sanitize t) ks :: l) (.condition s' (sanitize t') ks' :: l')
  | action {s s' t ds ds' l l'} : (∃ w x, t = w ++ x ∧ IsKeyword c!"it" w ∧ (x = [] ∨ ∃ r, x = ' ' :: r)) → (∀ d ∈ ds, ∃ s t, d = .description s t) →
      shapeAll id ds' = shapeAll id ds → Swaps K l l' → Swaps K (.action s t ds :: l) (.action s' t ds' :: l')

theorem swaps_len {K : Str → Str → Prop} {l l' : List Ast} (h : Swaps K l l') : l.length = l'.length := by
  induction h with
  | nil => rfl
  | condition _ _ _ _ ih => simp [ih]
  | action _ _ _ _ ih => simp [ih]

theorem swaps_append {K : Str → Str → Prop} {a a' b b' : List Ast} (h : Swaps K a a') (h' : Swaps K b b') : Swaps K (a ++ b) (a' ++ b') := by
  induction h with
  | nil => exact h'
  | condition t k _ _ ih => exact .condition t k ih
  | action t d e _ ih => exact .action t d e ih

theorem ends_exch {K : Str → Str → Prop} {c : Nat} {ps : List (Header × Header)} (hr : ∀ p ∈ ps, HeadSwap K p.1 p.2)
    (h : Ends c (ps.map Prod.fst)) : Ends c (ps.map Prod.snd) := by
  intro d r he
  cases ps with
  | nil => cases he
  | cons q ps =>
    simp only [List.map_cons, List.cons.injEq] at he
    rw [← he.1, (hr q (by simp)).col]
    exact h q.1 _ rfl

theorem items_exch [LawfulUcd] {K : Str → Str → Prop} {c : Nat} {hs : List Header} {asts : List Ast} (h : Items c hs asts) :
    ∀ {ps : List (Header × Header)}, hs = ps.map Prod.fst → (∀ p ∈ ps, HeadSwap K p.1 p.2) → KindsRight hs →
      ∃ asts', Items c (ps.map Prod.snd) asts' ∧ Swaps K asts asts' := by
  induction h with
  | nil =>
    intro ps he _ _
    have : ps = [] := List.map_eq_nil_iff.1 he.symm
    subst this
    exact ⟨[], .nil, .nil⟩
  | condition hok hc hcond hm hsub hends hrest ih1 ih2 =>
    intro ps he ha hkr
    obtain ⟨p, ps', rfl, rfl, hm0⟩ := List.map_eq_cons_iff.1 he.symm
    obtain ⟨ps1, ps2, rfl, rfl, rfl⟩ := List.map_eq_append_iff.1 hm0
    have hp := ha p (by simp)
    obtain ⟨kids', hk, hke⟩ := ih1 rfl (fun q hq => ha q (by simp [hq])) (fun q hq => hkr q (by simp at hq ⊢; simp [hq]))
    obtain ⟨asts', hr, hre⟩ := ih2 rfl (fun q hq => ha q (by simp [hq])) (fun q hq => hkr q (by simp at hq ⊢; simp [hq]))
    have hcw : IsConditionWord p.1.first.lexeme := (wordKind_condition _).1 (by rw [← hkr p.1 (by simp)]; exact hcond)
    rcases hp.first with ⟨_, hn⟩ | ⟨_, e', _, k2, k3⟩
    · exact absurd hcw hn
    · refine ⟨.condition (nodeSpan p.2 (ps1.map Prod.snd)) (sanitize p.2.title) kids' :: asts', ?_, ?_⟩
      · simp only [List.map_cons, List.map_append]
        refine .condition (hp.ok hok) (hp.col ▸ hc) ?_ (hp.more_ne hm) (hp.col ▸ hk) (hp.col ▸ ends_exch (fun q hq => ha q (by simp [hq])) hends) hr
        unfold Header.isCondition
        rw [e']; exact (wordKind_condition _).2 k2
      · refine .condition ⟨_, _, _, title_tail p.1, ?_, ⟨hcw, k2, k3⟩, tailText_cases _⟩ hke hre
        rw [title_tail p.2, hp.tail]
  | action hok hc hact hsub hends hrest ih =>
    intro ps he ha hkr
    obtain ⟨p, ps', rfl, rfl, hm0⟩ := List.map_eq_cons_iff.1 he.symm
    obtain ⟨ps1, ps2, rfl, rfl, rfl⟩ := List.map_eq_append_iff.1 hm0
    have hp := ha p (by simp)
    obtain ⟨asts', hr, hre⟩ := ih rfl (fun q hq => ha q (by simp [hq])) (fun q hq => hkr q (by simp at hq ⊢; simp [hq]))
    have hfirst : tokWord p.2.first = tokWord p.1.first := by
      rcases hp.first with ⟨e, _⟩ | ⟨e, _, k1, _⟩
      · exact e
      · have h1 := (wordKind_condition _).2 k1
        rw [← e, show p.1.first.kind = .it from hact] at h1
        rcases h1 with h1 | h1 <;> cases h1
    have hplain : ∀ q ∈ ps1, tokWord q.2.first = tokWord q.1.first := by
      intro q hq
      rcases (ha q (by simp [hq])).first with ⟨e, _⟩ | ⟨e, _, k1, _⟩
      · exact e
      · have h1 := (wordKind_condition _).2 k1
        rw [← e, (hsub q.1 (List.mem_map_of_mem hq)).2.2] at h1
        rcases h1 with h1 | h1 <;> cases h1
    have htitle : ∀ {q : Header × Header}, HeadSwap K q.1 q.2 → tokWord q.2.first = tokWord q.1.first → q.2.title = q.1.title := by
      intro q hq e
      have := congrArg Prod.snd e
      simp only [tokWord] at this
      rw [title_tail q.2, title_tail q.1, hq.tail, this]
    refine ⟨.action (nodeSpan p.2 (ps1.map Prod.snd)) p.2.title ((ps1.map Prod.snd).map (descAst p.2)) :: asts', ?_, ?_⟩
    · simp only [List.map_cons, List.map_append]
      refine .action (hp.ok hok) (hp.col ▸ hc) ?_ ?_ (hp.col ▸ ends_exch (fun q hq => ha q (by simp [hq])) hends) hr
      · have := congrArg Prod.fst hfirst
        simp only [tokWord] at this
        unfold Header.isAction
        rw [this]; exact hact
      · intro d hd
        obtain ⟨q, hq, rfl⟩ := List.mem_map.1 hd
        obtain ⟨h1, h2, h3⟩ := hsub q.1 (List.mem_map_of_mem hq)
        have hq' := ha q (by simp [hq])
        have := congrArg Prod.fst (hplain q hq)
        simp only [tokWord] at this
        exact ⟨hq'.ok h1, by rw [hp.col, hq'.col]; exact h2, this.trans h3⟩
    · rw [htitle hp hfirst]
      refine .action ⟨_, _, title_tail p.1, kind_it (by rw [← hkr p.1 (by simp)]; exact hact), tailText_cases _⟩ ?_ ?_ hre
      · intro d hd
        obtain ⟨q, _, rfl⟩ := List.mem_map.1 hd
        exact ⟨_, _, rfl⟩
      rw [shapeAll_map, shapeAll_map, List.map_map, List.map_map, List.map_map, List.map_map]
      apply List.map_congr_left
      intro q hq
      have hq' := ha q (by simp [hq])
      simp only [Function.comp, descAst, shape, hp.col, hq'.col, htitle hq' (hplain q hq)]

theorem rootItems_exch [LawfulUcd] {K : Str → Str → Prop} {hs : List Header} {asts : List Ast} (h : RootItems hs asts) :
    ∀ {ps : List (Header × Header)}, hs = ps.map Prod.fst → (∀ p ∈ ps, HeadSwap K p.1 p.2) → KindsRight hs →
      ∃ asts', RootItems (ps.map Prod.snd) asts' ∧ Swaps K asts asts' := by
  induction h with
  | nil =>
    intro ps he _ _
    have : ps = [] := List.map_eq_nil_iff.1 he.symm
    subst this
    exact ⟨[], .nil, .nil⟩
  | item hi hends hg hr ih =>
    intro ps he ha hkr
    obtain ⟨p, ps', rfl, rfl, hm0⟩ := List.map_eq_cons_iff.1 he.symm
    obtain ⟨ps1, ps2, rfl, rfl, rfl⟩ := List.map_eq_append_iff.1 hm0
    have hp := ha p (by simp)
    obtain ⟨as, hi', hie⟩ := items_exch hi (ps := p :: ps1) rfl (fun q hq => ha q (by
      rcases List.mem_cons.1 hq with rfl | hq <;> simp [*])) (fun q hq => hkr q (by
      simp only [List.mem_cons, List.mem_append] at hq ⊢; rcases hq with rfl | hq <;> simp [*]))
    obtain ⟨asts', hr', hre⟩ := ih rfl (fun q hq => ha q (by simp [hq])) (fun q hq => hkr q (by simp at hq ⊢; simp [hq]))
    obtain ⟨a', rfl⟩ := List.length_eq_one_iff.1 (swaps_len hie).symm
    refine ⟨a' :: asts', ?_, swaps_append hie hre⟩
    simp only [List.map_cons, List.map_append]
    refine .item hi' (hp.col ▸ ends_exch (fun q hq => ha q (by simp [hq])) hends) ?_ hr'
    rw [hp.glyph, hg]
    simp

theorem tree_exch [LawfulUcd] {K : Str → Str → Prop} {toks toks' : List Token} {ast : Ast} (h : Tree toks ast)
    (hr : TokSwap K false toks toks') (hk : ∀ t ∈ toks, t.isBranch = true ∨ t.kind = wordKind t.lexeme) :
    ∃ ast', Tree toks' ast' ∧ titleOf ast' = titleOf ast ∧ Swaps K (kids ast) (kids ast') := by
  obtain ⟨root, hs, ks, rfl, hw, hi, rfl⟩ := h
  have hok := rootItems_ok hi
  have hkinds : KindsRight hs := by
    intro h hh
    have hb := (header_ok_tokens (hok h hh)).2 h.first (by simp [Header.words])
    refine (hk h.first ?_).resolve_left (by simp [hb])
    refine List.mem_cons_of_mem _ (List.mem_flatMap.2 ⟨h, hh, ?_⟩)
    simp [Header.toks]
  generalize hfl : flat hs = tl at hr
  cases hr with
  | glyph hb _ _ _ => simp [Token.isBranch, hw] at hb
  | @word _ _ root' _ _ _ e _ hr =>
    subst hfl
    obtain ⟨ps, rfl, rfl, hp⟩ := flat_exch hok hr
    obtain ⟨ks', h1, h2⟩ := rootItems_exch hi rfl hp hkinds
    simp only [tokWord, Prod.mk.injEq] at e
    exact ⟨_, ⟨root', _, ks', rfl, e.1.trans hw, h1, rfl⟩, e.2, h2⟩

theorem parseTokens_exch [LawfulUcd] {K : Str → Str → Prop} {b b' : Str} (h : ExchangedText K b b') {toks : List Token} {ast : Ast}
    (ht : tokenize b = .ok toks) (hp : parseTokens toks = .ok ast) :
    ∃ toks' ast', tokenize b' = .ok toks' ∧ parseTokens toks' = .ok ast' ∧ titleOf ast' = titleOf ast ∧ Swaps K (kids ast) (kids ast') := by
  obtain ⟨toks', h1, h2⟩ := tokenize_exch h ht
  have hk : ∀ t ∈ toks, t.isBranch = true ∨ t.kind = wordKind t.lexeme := by
    obtain ⟨ps, hl⟩ := lexes_exists b
    rw [tokenize_ok_tokensOf hl ht]
    exact tokensOf_kinds ps []
  obtain ⟨ast', h3, h4, h5⟩ := tree_exch ((parseTokens_iff (tokenize_col ht) ast).1 hp) h2 hk
  exact ⟨toks', ast', h1, (parseTokens_iff (tokenize_col h1) ast').2 h3, h4, h5⟩

end
end Bulloak
