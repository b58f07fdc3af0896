import Verif.Lemmas.Draw2
import Verif.Lemmas.Names
import Verif.Props.Semantics
import Verif.Props.Split
/-!
# C11: drawing a tree and parsing it gives the tree back
-/

set_option linter.unusedSectionVars false

namespace Bulloak
open Spec

section
variable [U : Ucd]

theorem reads_conds {n : Node} (hf : Filled n) : ∀ {a : Ast}, Reads n a →
    (conditionsOf [a]).map identOf = condIdents n ∧ (∀ c ∈ conditionsOf [a], kids c ≠ []) := by
  induction hf with
  | @action ws ds =>
    intro a h
    cases h with
    | @action _ _ s asts hd =>
      have hds : ∀ c ∈ asts, ∃ s' t', c = Ast.description s' t' := by
        intro c hc
        obtain ⟨d, _, s', h⟩ : ∃ d ∈ ds, ∃ s, c = Ast.description s (c!"    " ++ joinSep c!" " d) := by
          induction hd with
          | nil => simp at hc
          | cons h _ ih =>
            rcases List.mem_cons.1 hc with rfl | hc
            · exact ⟨_, by simp, h⟩
            · obtain ⟨d, h1, h2⟩ := ih hc
              exact ⟨d, by simp [h1], h2⟩
        exact ⟨_, _, h⟩
      rw [conditionsOf_action hds]
      simp [condIdents]
  | @condition ws ks hne hk ih =>
    intro a h
    cases h with
    | @condition _ _ s asts he =>
      rw [conditionsOf_condition]
      have hl : ∀ (ks : List Node) (asts : List Ast), Each Reads ks asts → (∀ k ∈ ks, ∀ {a : Ast}, Reads k a →
          (conditionsOf [a]).map identOf = condIdents k ∧ (∀ c ∈ conditionsOf [a], kids c ≠ [])) →
          (conditionsOf asts).map identOf = condsIdents ks ∧ (∀ c ∈ conditionsOf asts, kids c ≠ []) := by
        intro ks asts he
        induction he with
        | nil => intro _; simp [conditionsOf, preAll, condsIdents]
        | @cons k a ks asts h1 _ ih2 =>
          intro h
          obtain ⟨i1, i2⟩ := ih2 (fun k hk => h k (by simp [hk]))
          obtain ⟨j1, j2⟩ := h k (by simp) h1
          rw [conditionsOf_cons]
          refine ⟨by rw [List.map_append, i1, j1, condsIdents], ?_⟩
          intro c hc
          rcases List.mem_append.1 hc with hc | hc
          · exact j2 c hc
          · exact i2 c hc
      obtain ⟨h1, h2⟩ := hl ks asts he (fun k hk' => ih k hk')
      refine ⟨?_, ?_⟩
      · rw [List.map_cons, h1, condIdents]
        simp [identOf, titleOf, wordsIdent, sanitize_idem]
      · intro c hc
        rcases List.mem_cons.1 hc with rfl | hc
        · cases he with
          | nil => exact absurd rfl hne
          | cons => simp [kids]
        · exact h2 c hc

theorem reads_named {ns : List Node} {asts : List Ast} (h : Each Reads ns asts) (hf : ∀ n ∈ ns, Filled n) :
    (named asts).map identOf = allIdents ns ∧ (∀ c ∈ conditionsOf asts, kids c ≠ []) := by
  induction h with
  | nil => simp [named, allIdents, conditionsOf, preAll]
  | @cons n a ns asts h1 h2 ih =>
    obtain ⟨i1, i2⟩ := ih (fun n hn => hf n (by simp [hn]))
    obtain ⟨j1, j2⟩ := reads_conds (hf n (by simp)) h1
    have e : named (a :: asts) = named [a] ++ named asts := by simp [named]
    have e2 : allIdents (n :: ns) = allIdents [n] ++ allIdents ns := by simp [allIdents]
    refine ⟨?_, ?_⟩
    · rw [e, e2, List.map_append, i1]
      congr 1
      cases h1 with
      | condition =>
        simp only [named, allIdents, Ast.isAction, List.flatMap_cons, List.flatMap_nil, List.append_nil]
        simpa [condIdents] using j1
      | action => simp [named, allIdents, Ast.isAction, identOf, titleOf, wordsIdent]
    · rw [conditionsOf_cons]
      intro c hc
      rcases List.mem_append.1 hc with hc | hc
      · exact j2 c hc
      · exact i2 c hc

/-- **C11.** For every abstract tree with legal titles (any depth, any number of branches), parsing its
drawing succeeds and yields that tree: same titles, same nesting, same order. -/
theorem C11_draw_then_parse [LawfulUcd] {name : Str} {ns : List Node} (hname : PlainWord name) (hn : ∀ n ∈ ns, Legal n) :
    ∃ toks s asts, tokenize (draw name ns) = .ok toks ∧ parseTokens toks = .ok (.root s name asts) ∧ Each Reads ns asts :=
  draw_parses hname hn

/-- **C11**, including semantic analysis: the drawing of a tree without empty conditions and repeated
identifiers is accepted. -/
theorem C11_draw_accepted [LawfulUcd] {order : HashOrder} (ho : ∀ l, (order l).Perm l) {name : Str} {ns : List Node}
    (h : Accepted name ns) : ∃ s asts, parseOne order (draw name ns) = .ok (.root s name asts) ∧ Each Reads ns asts := by
  obtain ⟨toks, s, asts, h1, h2, h3⟩ := draw_parses h.name h.legal
  refine ⟨s, asts, ?_, h3⟩
  rw [C14_accepted_iff ho h1 h2]
  obtain ⟨h4, h5⟩ := reads_named h3 h.filled
  refine ⟨?_, h5, ?_⟩
  · simp only [kids]
    cases h3 with
    | nil => exact absurd rfl h.nonempty
    | cons => simp
  · simp only [kids]
    rw [h4]; exact h.distinct

theorem isWord_ends {w : Str} (h : IsWord w) : (∃ c r, w = c :: r ∧ isWs c = false) ∧ ∃ r c, w = r ++ [c] ∧ isWs c = false := by
  obtain ⟨c, s, rfl, _, _, _, _, _, h6⟩ := h
  refine ⟨⟨c, s, rfl, h6 c (by simp)⟩, ?_⟩
  rcases snoc_cases (c :: s) with h | ⟨r, d, h⟩
  · cases h
  · exact ⟨r, d, h, h6 d (by rw [h]; simp)⟩

theorem no_nl_word {w : Str} (h : IsWord w) : '\n' ∉ w := by
  obtain ⟨c, s, rfl, _, _, _, _, _, h6⟩ := h
  intro hm
  exact absurd (h6 _ hm) (by decide)

theorem no_nl_join {ws : List Str} (h : ∀ w ∈ ws, IsWord w) : '\n' ∉ joinSep c!" " ws := by
  induction ws with
  | nil => simp [joinSep]
  | cons w ws ih =>
    have hw := no_nl_word (h w (by simp))
    cases ws with
    | nil => simpa [joinSep] using hw
    | cons v ws =>
      have := ih (fun x hx => h x (by simp [hx]))
      rw [joinSep]
      simp only [List.mem_append, not_or]
      exact ⟨⟨hw, by decide⟩, this⟩

theorem no_nl_line {l : Line} (h : LineOk l) : '\n' ∉ l.text := by
  obtain ⟨h1, _, h3⟩ := h
  rw [Line.text]
  simp only [List.mem_append, not_or]
  refine ⟨⟨⟨?_, by cases l.last <;> decide⟩, by decide⟩, no_nl_join h3⟩
  intro hm
  rcases h1 _ hm with h | h <;> exact absurd h (by decide)

theorem line_last {l : Line} (h : LineOk l) : ∃ r c, l.text = r ++ [c] ∧ isWs c = false := by
  obtain ⟨_, h2, h3⟩ := h
  rcases snoc_cases l.words with he | ⟨ws, w, he⟩
  · exact absurd he h2
  · obtain ⟨r, c, hr, hc⟩ := (isWord_ends (h3 w (by rw [he]; simp))).2
    cases ws with
    | nil =>
      refine ⟨l.indent ++ (if l.last then c!"└" else c!"├") ++ c!"── " ++ r, c, ?_, hc⟩
      rw [Line.text, he, hr]; simp [joinSep]
    | cons v ws =>
      refine ⟨l.indent ++ (if l.last then c!"└" else c!"├") ++ c!"── " ++ (joinSep c!" " (v :: ws) ++ c!" " ++ r), c, ?_, hc⟩
      rw [Line.text, he, joinSep_snoc, hr]; simp

theorem line_ne {l : Line} : ∃ c r, l.text = c :: r := by
  rw [Line.text]
  cases hi : l.indent with
  | nil => cases l.last <;> exact ⟨_, _, rfl⟩
  | cons c r => exact ⟨c, _, rfl⟩

theorem infix_nl_append {a s : Str} (ha : '\n' ∉ a) (h : c!"\n\n" <:+: a ++ s) : c!"\n\n" <:+: s := by
  induction a with
  | nil => exact h
  | cons c a ih =>
    obtain ⟨x, y, hxy⟩ := h
    cases x with
    | nil => simp at hxy; exact absurd (by rw [hxy.1]; simp) ha
    | cons x0 x =>
      simp at hxy
      exact ih (fun hm => ha (by simp [hm])) ⟨x, y, by simp [hxy.2]⟩

theorem lines_solid {ls : List Line} (hl : ∀ l ∈ ls, LineOk l) : ¬ c!"\n\n" <:+: ls.flatMap (fun l => '\n' :: l.text) := by
  induction ls with
  | nil => rintro ⟨x, y, h⟩; simp at h
  | cons l ls ih =>
    intro h
    rw [List.flatMap_cons] at h
    have hok := hl l (by simp)
    have hnl := no_nl_line hok
    obtain ⟨c, r, hc⟩ := line_ne (l := l)
    rw [hc] at hnl
    apply ih (fun x hx => hl x (by simp [hx]))
    apply infix_nl_append hnl
    obtain ⟨x, y, hxy⟩ := h
    rw [hc] at hxy
    cases x with
    | nil =>
      simp at hxy
      exact absurd (by rw [hxy.1]; simp) hnl
    | cons x0 x =>
      simp at hxy
      exact ⟨x, y, by simp [hxy.2]⟩

theorem draw_block [LawfulUcd] {name : Str} {ns : List Node} (hname : PlainWord name) (hn : ∀ n ∈ ns, Legal n) :
    Block (draw name ns) ∧ ¬ OnlyComments (draw name ns) := by
  have hlines := drawNodes_ok_of (fun n hn' => drawNode_ok (hn n hn')) [] (by intro c hc; simp at hc)
  have hok : ∀ l ∈ drawNodes [] ns, LineOk l := fun l hl => (hlines l hl).1
  have hnl := no_nl_word hname.1
  obtain ⟨⟨c, r, he, hc⟩, hlast⟩ := isWord_ends hname.1
  refine ⟨⟨⟨c, _, by rw [draw, he]; rfl, hc⟩, ?_, ?_⟩, ?_⟩
  · unfold draw
    generalize drawNodes [] ns = ls at hok
    rcases snoc_cases ls with rfl | ⟨ls', l, rfl⟩
    · obtain ⟨r, c, h1, h2⟩ := hlast
      exact ⟨r, c, by simp [h1], h2⟩
    · obtain ⟨r, c, h1, h2⟩ := line_last (hok l (by simp))
      exact ⟨name ++ (ls'.flatMap (fun l => '\n' :: l.text) ++ '\n' :: r), c, by simp [h1], h2⟩
  · intro h
    exact lines_solid hok (infix_nl_append hnl h)
  · intro h
    obtain ⟨w, r', h1, h2⟩ := h name ⟨hnl, [], _, rfl, Or.inl rfl, by
      generalize drawNodes [] ns = ls
      cases ls with
      | nil => exact Or.inl rfl
      | cons l ls => exact Or.inr ⟨_, rfl⟩⟩
    obtain ⟨c', s, e, _, _, _, _, h5, h6⟩ := hname.1
    cases w with
    | nil =>
      rw [e] at h1
      simp at h1
      exact h5 ⟨h1.1, r', h1.2⟩
    | cons x w =>
      rw [e] at h1
      simp at h1
      have hw := h2 x (by simp)
      have := h6 c' (by rw [e]; simp)
      rw [h1.1] at this
      rw [hw] at this; cases this

/-- **C11**, files: any number of accepted trees drawn one after the other, separated by empty lines, parse
to exactly these trees. -/
theorem C11_draw_file [LawfulUcd] {order : HashOrder} (ho : ∀ l, (order l).Perm l) {text : Str}
    {ts : List (Str × List Node)} (h : DrawnFile text ts) (ha : ∀ t ∈ ts, Accepted t.1 t.2) :
    ∃ asts, parse order text = .ok asts ∧
      Each (fun t a => ∃ s as, a = Ast.root s t.1 as ∧ Each Reads t.2 as) ts asts := by
  have hb : Blocks text (ts.map (fun t => draw t.1 t.2)) := by
    induction h with
    | @last p t q hp hq =>
      exact .last hp (draw_block (ha t (by simp)).name (ha t (by simp)).legal).1 hq
    | @cons p t s rest ts hp hs hn _ ih =>
      exact .cons hp (draw_block (ha t (by simp)).name (ha t (by simp)).legal).1 hs hn (ih (fun t ht => ha t (by simp [ht])))
  have hsplit : splitTrees text = ts.map (fun t => draw t.1 t.2) := by
    obtain ⟨keep, h1, h2⟩ := (C12_split text).2.2 _ hb
    rw [h1, List.filter_eq_self]
    intro b hm
    rw [h2 b hm]
    obtain ⟨t, ht, rfl⟩ := List.mem_map.1 hm
    exact (draw_block (ha t ht).name (ha t ht).legal).2
  simp only [C13_parse_ok, hsplit]
  clear h hb hsplit
  induction ts with
  | nil => exact ⟨[], .nil, .nil⟩
  | cons t ts ih =>
    obtain ⟨asts, h1, h2⟩ := ih (fun t ht => ha t (by simp [ht]))
    obtain ⟨s, as, h3, h4⟩ := C11_draw_accepted ho (ha t (by simp))
    exact ⟨_ :: asts, .cons h3 h1, .cons ⟨s, as, rfl, h4⟩ h2⟩

end

/-! ## Non-vacuity -/
section
attribute [local instance] asciiUcd

local instance (kw w : Str) : Decidable (IsKeyword kw w) := inferInstanceAs (Decidable (_ = _))
local instance (w : Str) : Decidable (IsConditionWord w) := inferInstanceAs (Decidable (_ ∨ _))

/-- A tree with nested conditions, actions and descriptions. -/
private def sample : List Node :=
  [.action [c!"it", c!"works!"] [[c!"quite", c!"well"], [c!"and", c!"fast"]],
   .condition [c!"When", c!"a-b"] [.condition [c!"given", c!"c"] [.action [c!"It", c!"reverts"] []], .action [c!"it", c!"ok"] []]]

example : draw c!"Foo" sample =
    c!"Foo\n├── it works!\n│   ├── quite well\n│   └── and fast\n└── When a-b\n    ├── given c\n    │   └── It reverts\n    └── it ok" := by
  cbv

private theorem isWord_of {c : Char} {s : Str} (h : (c != '─' && c != '│' && c != '├' && c != '└' && !(c == '/' && s.head? == some '/') &&
    (c :: s).all (fun d => !isWs d)) = true) : IsWord (c :: s) := by
  simp only [Bool.and_eq_true, bne_iff_ne, List.all_eq_true, Bool.not_eq_true', Bool.and_eq_false_iff, beq_eq_false_iff_ne] at h
  obtain ⟨⟨⟨⟨⟨h1, h2⟩, h3⟩, h4⟩, h5⟩, h6⟩ := h
  refine ⟨c, s, rfl, h1, h2, h3, h4, ?_, h6⟩
  rintro ⟨e, s', rfl⟩
  rcases h5 with h5 | h5
  · exact h5 e
  · exact h5 rfl

example : Accepted c!"Foo" sample := by
  have hp : ∀ (c : Char) (s : Str), (c != '─' && c != '│' && c != '├' && c != '└' && !(c == '/' && s.head? == some '/') &&
    (c :: s).all (fun d => !isWs d)) = true → IsWord (c :: s) := fun c s h => isWord_of h
  refine ⟨⟨hp _ _ (by decide), by decide, by decide, by decide⟩, ?_, by simp [sample], ?_, by decide⟩
  · intro n hn
    simp only [sample, List.mem_cons, List.not_mem_nil, or_false] at hn
    rcases hn with rfl | rfl
    · refine .action (by decide) ?_ ?_
      · intro x hx
        simp only [List.mem_cons, List.not_mem_nil, or_false] at hx
        rcases hx with rfl | rfl <;> exact hp _ _ (by decide)
      · intro d hd
        simp only [List.mem_cons, List.not_mem_nil, or_false] at hd
        rcases hd with rfl | rfl <;>
        exact ⟨_, _, rfl, ⟨hp _ _ (by decide), by decide, by decide, by decide⟩, by
          intro x hx
          simp only [List.mem_cons, List.not_mem_nil, or_false] at hx
          rw [hx]; exact hp _ _ (by decide)⟩
    · have hc : ∀ (w : Str), (w.all (fun c => isAsciiAlnum c || c == '_' || c == '-' || c == '\'' || c == '"')) = true →
          ∀ c ∈ w, TitleChar c := by
        intro w h c hc
        have := List.all_eq_true.1 h c hc
        simp only [Bool.or_eq_true, beq_iff_eq, or_assoc] at this
        exact this
      refine .condition (Or.inl (by decide)) (by simp) ?_ ?_
      · intro x hx
        simp only [List.mem_cons, List.not_mem_nil, or_false] at hx
        rcases hx with rfl | rfl <;> exact ⟨hp _ _ (by decide), hc _ (by decide)⟩
      · intro k hk
        simp only [List.mem_cons, List.not_mem_nil, or_false] at hk
        rcases hk with rfl | rfl
        · refine .condition (Or.inr (by decide)) (by simp) ?_ ?_
          · intro x hx
            simp only [List.mem_cons, List.not_mem_nil, or_false] at hx
            rcases hx with rfl | rfl <;> exact ⟨hp _ _ (by decide), hc _ (by decide)⟩
          · intro k hk
            simp only [List.mem_cons, List.not_mem_nil, or_false] at hk
            subst hk
            refine .action (by decide) ?_ (by simp)
            intro x hx
            simp only [List.mem_cons, List.not_mem_nil, or_false] at hx
            rcases hx with rfl | rfl <;> exact hp _ _ (by decide)
        · refine .action (by decide) ?_ (by simp)
          intro x hx
          simp only [List.mem_cons, List.not_mem_nil, or_false] at hx
          rcases hx with rfl | rfl <;> exact hp _ _ (by decide)
  · intro n hn
    simp only [sample, List.mem_cons, List.not_mem_nil, or_false] at hn
    rcases hn with rfl | rfl
    · exact .action
    · refine .condition (by simp) ?_
      intro k hk
      simp only [List.mem_cons, List.not_mem_nil, or_false] at hk
      rcases hk with rfl | rfl
      · refine .condition (by simp) ?_
        intro k hk
        simp only [List.mem_cons, List.not_mem_nil, or_false] at hk
        subst hk; exact .action
      · exact .action

end
end Bulloak
