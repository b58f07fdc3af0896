import Verif.Lemmas.Draw
import Verif.Lemmas.Parse2
/-! # Drawing round trip: from lines to trees -/

set_option linter.unusedSectionVars false

namespace Bulloak
open Spec

section
variable [U : Ucd] [LawfulUcd]

def IndentOk (indent : Str) : Prop := ∀ c ∈ indent, c = ' ' ∨ c = '│'

theorem indentOk_deeper {i : Str} (h : IndentOk i) (last : Bool) : IndentOk (deeper i last) := by
  intro c hc
  unfold deeper at hc
  rcases List.mem_append.1 hc with hc | hc
  · exact h c hc
  · cases last <;> simp at hc
    · rcases hc with h | h
      · exact Or.inr h
      · exact Or.inl h
    · exact Or.inl hc

theorem deeper_length (i : Str) (last : Bool) : (deeper i last).length = i.length + 4 := by
  unfold deeper; cases last <;> simp

theorem kindOfWord_it {w : Str} (h : IsKeyword c!"it" w) : kindOfWord w = .it := by
  unfold IsKeyword at h
  unfold kindOfWord
  rw [h]; simp

theorem wordKind_it {w : Str} (h : IsKeyword c!"it" w) : wordKind w = .it := by
  rw [wordKind_eq]; exact kindOfWord_it h

theorem wordKind_plain {w : Str} (h : PlainWord w) : wordKind w = .word := by
  rw [wordKind_eq]
  obtain ⟨_, h1, h2, h3⟩ := h
  unfold IsKeyword at h1 h2 h3
  unfold kindOfWord
  rw [if_neg h1, if_neg h3, if_neg h2]

theorem wordKind_wordLike (w : Str) : (wordKind w).isWordLike = true := by
  rw [wordKind_eq]; unfold kindOfWord
  repeat' split
  all_goals rfl

/-- What is needed of the lines of a drawing. -/
def LinesOk (ls : List Line) : Prop := ∀ l ∈ ls, LineOk l ∧ LineGood l

theorem drawDescs_ok {ds : List (List Str)} (hd : ∀ d ∈ ds, LegalDescription d) {i : Str} (hi : IndentOk i) :
    LinesOk (drawDescs i ds) := by
  induction ds with
  | nil => intro l hl; simp [drawDescs] at hl
  | cons d ds ih =>
    intro l hl
    rcases List.mem_cons.1 hl with rfl | hl
    · obtain ⟨w, ws, rfl, hp, hw⟩ := hd d (by simp)
      refine ⟨⟨hi, by simp, ?_⟩, w, ws, rfl, ?_⟩
      · intro x hx
        rcases List.mem_cons.1 hx with rfl | hx
        · exact hp.1
        · exact hw x hx
      · rw [wordKind_plain hp]
        intro h; rcases h with h | h <;> cases h
    · exact ih (fun d hd' => hd d (by simp [hd'])) l hl

theorem drawNodes_ok_of {ns : List Node} (h : ∀ n ∈ ns, ∀ i last, IndentOk i → LinesOk (drawNode i last n)) :
    ∀ i, IndentOk i → LinesOk (drawNodes i ns) := by
  induction ns with
  | nil => intro i _ l hl; simp [drawNodes] at hl
  | cons n ns ih =>
    intro i hi l hl
    rw [drawNodes] at hl
    rcases List.mem_append.1 hl with hl | hl
    · exact h n (by simp) i _ hi l hl
    · exact ih (fun n hn => h n (by simp [hn])) i hi l hl

theorem drawNode_ok {n : Node} (h : Legal n) : ∀ i last, IndentOk i → LinesOk (drawNode i last n) := by
  induction h with
  | @condition w ws ks hc hne hw hk ih =>
    intro i last hi l hl
    rw [drawNode] at hl
    rcases List.mem_cons.1 hl with rfl | hl
    · refine ⟨⟨hi, by simp, fun x hx => (hw x hx).1⟩, w, ws, rfl, fun _ x hx => (hw x (by simp [hx])).2⟩
    · exact drawNodes_ok_of ih _ (indentOk_deeper hi last) l hl
  | @action w ws ds hc hw hd =>
    intro i last hi l hl
    rw [drawNode] at hl
    rcases List.mem_cons.1 hl with rfl | hl
    · refine ⟨⟨hi, by simp, hw⟩, w, ws, rfl, ?_⟩
      rw [wordKind_it hc]
      intro h; rcases h with h | h <;> cases h
    · exact drawDescs_ok hd (indentOk_deeper hi last) l hl

theorem each_split {α β : Type} {R : α → β → Prop} {l : List α} {a b : List β} (h : Each R l (a ++ b)) :
    ∃ l1 l2, l = l1 ++ l2 ∧ Each R l1 a ∧ Each R l2 b := by
  induction a generalizing l with
  | nil => exact ⟨[], l, rfl, .nil, h⟩
  | cons x a ih =>
    cases h with
    | cons h1 h2 =>
      obtain ⟨l1, l2, rfl, h3, h4⟩ := ih h2
      exact ⟨_ :: l1, l2, rfl, .cons h1 h3, h4⟩

theorem hl_ok {h : Header} {l : Line} (hh : HL h l) : h.Ok := by
  refine ⟨?_, ?_⟩
  · rw [hh.2.1]; cases l.last <;> rfl
  · intro t ht
    rw [hh.2.2.2 t ht]; exact wordKind_wordLike _

theorem hl_first {h : Header} {l : Line} (hh : HL h l) {w : Str} {ws : List Str} (hw : l.words = w :: ws) :
    h.first.kind = wordKind w ∧ h.title = joinSep c!" " (w :: ws) ∧ (ws ≠ [] → h.more ≠ []) := by
  have h1 := hh.2.2.1
  rw [hw] at h1
  simp only [Header.words, List.map_cons, List.cons.injEq] at h1
  refine ⟨?_, ?_, ?_⟩
  · rw [← h1.1]; exact hh.2.2.2 _ (by simp [Header.words])
  · simp only [Header.title, Header.words, List.map_cons, h1.1, h1.2]
  · intro hne he
    rw [he] at h1
    exact hne h1.2.symm

theorem drawNodes_head {n : Node} {ns : List Node} (i : Str) :
    ∃ l r, drawNodes i (n :: ns) = l :: r ∧ l.indent = i := by
  cases n with
  | condition ws ks => exact ⟨_, _, by rw [drawNodes, drawNode]; rfl, rfl⟩
  | action ws ds => exact ⟨_, _, by rw [drawNodes, drawNode]; rfl, rfl⟩

theorem ends_drawNodes {ns : List Node} {i : Str} {hs : List Header} (h : Each HL hs (drawNodes i ns)) :
    Ends (i.length + 1) hs := by
  intro d r he
  subst he
  cases ns with
  | nil => rw [drawNodes] at h; cases h
  | cons n ns =>
    obtain ⟨l, rr, e, hi⟩ := drawNodes_head (n := n) (ns := ns) i
    rw [e] at h
    cases h with
    | cons h1 _ => rw [h1.1, hi]; exact Nat.le_refl _

/-- The statement about single nodes. -/
def NodeParses (n : Node) : Prop := ∀ i last hs, Each HL hs (drawNode i last n) →
  ∃ h sub ast, hs = h :: sub ∧ h.col = i.length + 1 ∧ h.glyph.kind = (if last then .corner else .tee) ∧ Reads n ast ∧
    ∀ c, c ≤ i.length → ∀ rest asts, Ends h.col rest → Items c rest asts → Items c (h :: (sub ++ rest)) (ast :: asts)

theorem nodesParse {ns : List Node} (hn : ∀ n ∈ ns, NodeParses n) : ∀ i hs, Each HL hs (drawNodes i ns) →
    ∃ asts, Each Reads ns asts ∧ ∀ c, c ≤ i.length → Items c hs asts := by
  induction ns with
  | nil =>
    intro i hs h
    rw [drawNodes] at h
    cases h
    exact ⟨[], .nil, fun c _ => .nil⟩
  | cons n ns ih =>
    intro i hs h
    rw [drawNodes] at h
    obtain ⟨l1, l2, rfl, h1, h2⟩ := each_split h
    obtain ⟨hd, sub, ast, rfl, hcol, _, hreads, hitems⟩ := hn n (by simp) i _ l1 h1
    obtain ⟨asts, h3, h4⟩ := ih (fun n hn' => hn n (by simp [hn'])) i l2 h2
    refine ⟨ast :: asts, .cons hreads h3, ?_⟩
    intro c hc
    exact hitems c hc l2 asts (by rw [hcol]; exact ends_drawNodes h2) (h4 c hc)

theorem descs_parse {ds : List (List Str)} (hd : ∀ d ∈ ds, LegalDescription d) {i : Str} {hs : List Header}
    (h : Each HL hs (drawDescs i ds)) (hp : Header) (hcol : hp.col + 4 = i.length + 1) :
    (∀ d ∈ hs, d.Ok ∧ hp.col < d.col ∧ d.first.kind = .word) ∧
    Each (fun d a => ∃ s, a = Ast.description s (c!"    " ++ joinSep c!" " d)) ds (hs.map (descAst hp)) := by
  induction ds generalizing hs with
  | nil => rw [drawDescs] at h; cases h; exact ⟨by simp, .nil⟩
  | cons d ds ih =>
    rw [drawDescs] at h
    cases h with
    | @cons h0 _ hs' _ h1 h2 =>
      obtain ⟨i1, i2⟩ := ih (fun d hd' => hd d (by simp [hd'])) h2
      obtain ⟨w, ws, rfl, hpl, hw⟩ := hd d (by simp)
      obtain ⟨f1, f2, _⟩ := hl_first h1 rfl
      have hc : h0.col = i.length + 1 := h1.1
      refine ⟨?_, .cons ⟨⟨h0.glyph.span.start, h0.endPos⟩, ?_⟩ i2⟩
      · intro x hx
        rcases List.mem_cons.1 hx with rfl | hx
        · exact ⟨hl_ok h1, by omega, by rw [f1, wordKind_plain hpl]⟩
        · exact i1 x hx
      · rw [descAst, f2]
        have : h0.col - hp.col = 4 := by omega
        rw [this]; rfl

theorem nodeParses {n : Node} (h : Legal n) : NodeParses n := by
  induction h with
  | @condition w ws ks hc hne hw hk ih =>
    intro i last hs hE
    rw [drawNode] at hE
    cases hE with
    | @cons hd _ sub _ h1 h2 =>
      obtain ⟨asts, h3, h4⟩ := nodesParse ih _ _ h2
      obtain ⟨f1, f2, f3⟩ := hl_first h1 rfl
      have hcol : hd.col = i.length + 1 := h1.1
      refine ⟨hd, sub, .condition (nodeSpan hd sub) (sanitize (joinSep c!" " (w :: ws))) asts, rfl, hcol, h1.2.1, .condition h3, ?_⟩
      intro c hcc rest as hends hrest
      rw [← f2]
      refine .condition (hl_ok h1) (by omega) ?_ (f3 hne) (h4 _ (by rw [deeper_length]; omega)) hends hrest
      simp only [Header.isCondition, f1]
      exact (wordKind_condition w).2 hc
  | @action w ws ds hc hw hd =>
    intro i last hs hE
    rw [drawNode] at hE
    cases hE with
    | @cons hd' _ sub _ h1 h2 =>
      obtain ⟨f1, f2, _⟩ := hl_first h1 rfl
      have hcol : hd'.col = i.length + 1 := h1.1
      obtain ⟨g1, g2⟩ := descs_parse hd h2 hd' (by rw [deeper_length]; omega)
      refine ⟨hd', sub, .action (nodeSpan hd' sub) (joinSep c!" " (w :: ws)) (sub.map (descAst hd')), rfl, hcol, h1.2.1, .action g2, ?_⟩
      intro c hcc rest as hends hrest
      rw [← f2]
      refine .action (hl_ok h1) (by omega) ?_ g1 hends hrest
      simp only [Header.isAction, f1]
      exact wordKind_it hc

theorem rootParses {ns : List Node} (hn : ∀ n ∈ ns, NodeParses n) : ∀ hs, Each HL hs (drawNodes [] ns) →
    ∃ asts, Each Reads ns asts ∧ RootItems hs asts := by
  induction ns with
  | nil =>
    intro hs h
    rw [drawNodes] at h
    cases h
    exact ⟨[], .nil, .nil⟩
  | cons n ns ih =>
    intro hs h
    rw [drawNodes] at h
    obtain ⟨l1, l2, rfl, h1, h2⟩ := each_split h
    obtain ⟨hd, sub, ast, rfl, hcol, hg, hreads, hitems⟩ := hn n (by simp) [] _ l1 h1
    obtain ⟨asts, h3, h4⟩ := ih (fun n hn' => hn n (by simp [hn'])) l2 h2
    refine ⟨ast :: asts, .cons hreads h3, ?_⟩
    refine .item ?_ (by rw [hcol]; exact ends_drawNodes h2) ?_ h4
    · have := hitems 0 (by simp) [] [] (by intro d r h; cases h) .nil
      simpa using this
    · rw [hg]
      cases ns with
      | nil => rw [drawNodes] at h2; cases h2; simp
      | cons m ns =>
        obtain ⟨l, rr, e, _⟩ := drawNodes_head (n := m) (ns := ns) []
        rw [e] at h2
        cases h2; simp

theorem draw_parses {name : Str} {ns : List Node} (hname : PlainWord name) (hn : ∀ n ∈ ns, Legal n) :
    ∃ toks s asts, tokenize (draw name ns) = .ok toks ∧ parseTokens toks = .ok (.root s name asts) ∧ Each Reads ns asts := by
  have hlines := drawNodes_ok_of (fun n hn' => drawNode_ok (hn n hn')) [] (by intro c hc; simp at hc)
  obtain ⟨hl1, hl2⟩ := lexes_lines (fun l hl => (hlines l hl).1)
  have hlex : Lexes (draw name ns) (.word name :: (drawNodes [] ns).flatMap linePieces) :=
    lexes_word hname.1 (atWordEnd_of hl2) hl1
  obtain ⟨hs, h1, h2⟩ := lexRun_lines _ (fun l hl => (hlines l hl).1) (fun l hl => (hlines l hl).2)
    [⟨wordKind name, ⟨posOf [], posOf name.dropLast⟩, name⟩] false name
  have htok : tokenize (draw name ns) = .ok (⟨wordKind name, ⟨posOf [], posOf name.dropLast⟩, name⟩ :: flat hs) := by
    rw [tokenize_eq_lexRun hlex, lexRun]
    simp only [Bool.false_eq_true, false_and, if_false]
    simpa using h2
  obtain ⟨asts, h3, h4⟩ := rootParses (fun n hn' => nodeParses (hn n hn')) hs h1
  refine ⟨_, _, asts, htok, (parseTokens_iff (tokenize_col htok) _).2 ⟨_, hs, asts, rfl, wordKind_plain hname, h4, rfl⟩, h3⟩

end
end Bulloak
