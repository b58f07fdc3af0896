import Verif.Lemmas.Parse2
import Verif.Lemmas.Lex3
import Verif.Spec.Shape
/-! # Consequences of the grammar -/

set_option linter.unusedSectionVars false

namespace Bulloak
open Spec

theorem preAll_append (a b : List Ast) : preAll (a ++ b) = preAll a ++ preAll b := by
  induction a with
  | nil => rfl
  | cons x a ih => simp [preAll, ih]

theorem each_append {α β : Type} {R : α → β → Prop} {a a' : List α} {b b' : List β} (h : Each R a b) (h' : Each R a' b') :
    Each R (a ++ a') (b ++ b') := by
  induction h with
  | nil => exact h'
  | cons hr _ ih => exact .cons hr ih

theorem each_mem {α β : Type} {R : α → β → Prop} {a : List α} {b : List β} (h : Each R a b) {x : α} (hx : x ∈ a) :
    ∃ y ∈ b, R x y := by
  induction h with
  | nil => simp at hx
  | @cons a b as bs hr _ ih =>
    rcases List.mem_cons.1 hx with rfl | hx
    · exact ⟨b, by simp, hr⟩
    · obtain ⟨y, h1, h2⟩ := ih hx
      exact ⟨y, by simp [h1], h2⟩

section
variable [U : Ucd]

theorem items_shape {c hs asts} (h : Items c hs asts) : ∀ a ∈ asts, ItemShape a := by
  induction h with
  | nil => simp
  | condition _ _ _ _ _ _ _ ih1 ih2 =>
    intro a ha
    rcases List.mem_cons.1 ha with rfl | ha
    · exact .condition ih1
    · exact ih2 a ha
  | @action c h sub rest asts _ _ _ _ _ _ ih =>
    intro a ha
    rcases List.mem_cons.1 ha with rfl | ha
    · refine .action ?_
      intro c hc
      obtain ⟨d, _, rfl⟩ := List.mem_map.1 hc
      exact ⟨_, _, rfl⟩
    · exact ih a ha

theorem rootItems_shape {hs asts} (h : RootItems hs asts) : ∀ a ∈ asts, ItemShape a := by
  induction h with
  | nil => simp
  | item hi _ _ _ ih =>
    intro a ha
    rcases List.mem_cons.1 ha with rfl | ha
    · exact items_shape hi a (by simp)
    · exact ih a ha

theorem descs_stand (h : Header) (sub : List Header)
    (hs : ∀ d ∈ sub, d.Ok ∧ h.col < d.col ∧ d.first.kind = .word) :
    Each Stands (preAll (sub.map (descAst h))) sub := by
  induction sub with
  | nil => exact .nil
  | cons d sub ih =>
    refine .cons ⟨rfl, (hs d (by simp)).2.2, _, rfl⟩ ?_
    exact ih (fun e he => hs e (List.mem_cons_of_mem _ he))

theorem items_stand {c hs asts} (h : Items c hs asts) : Each Stands (preAll asts) hs := by
  induction h with
  | nil => exact .nil
  | condition _ _ hc hm _ _ _ ih1 ih2 =>
    simp only [preAll, pre, List.cons_append]
    exact .cons ⟨rfl, hc, hm, rfl⟩ (each_append ih1 ih2)
  | action _ _ ha hs _ _ ih =>
    simp only [preAll, pre, List.cons_append]
    exact .cons ⟨rfl, ha, rfl⟩ (each_append (descs_stand _ _ hs) ih)

theorem rootItems_stand {hs asts} (h : RootItems hs asts) : Each Stands (preAll asts) hs := by
  induction h with
  | nil => exact .nil
  | item hi _ _ _ ih =>
    have := each_append (items_stand hi) ih
    simpa [preAll] using this

theorem stands_col {a : Ast} {h : Header} (hs : Stands a h) : colOf a = h.col := by
  simp [colOf, Header.col, hs.1]

theorem items_gt {c hs asts} (h : Items c hs asts) : ∀ d ∈ hs, c < d.col := by
  induction h with
  | nil => simp
  | condition _ hc _ _ _ _ _ ih1 ih2 =>
    intro d hd
    simp at hd
    rcases hd with rfl | hd | hd
    · exact hc
    · have := ih1 d hd; omega
    · exact ih2 d hd
  | action _ hc _ hs _ _ ih =>
    intro d hd
    simp at hd
    rcases hd with rfl | hd | hd
    · exact hc
    · have := (hs d hd).2.1; omega
    · exact ih d hd

theorem sibsLeft_cons {a : Ast} {as : List Ast} (h : SibsLeft as)
    (ha : ∀ x ∈ pre a, colOf a ≤ colOf x) (hn : ∀ b bs, as = b :: bs → colOf b ≤ colOf a)
    (hmono : as.Pairwise (fun x y => colOf y ≤ colOf x)) : SibsLeft (a :: as) := by
  intro A k B hA x hx
  cases A with
  | nil => simp [preAll] at hx
  | cons a' A =>
    simp only [List.cons_append, List.cons.injEq] at hA
    obtain ⟨rfl, hA⟩ := hA
    simp only [preAll, List.mem_append] at hx
    rcases hx with hx | hx
    · have h1 := ha x hx
      have h2 : colOf k ≤ colOf a := by
        cases as with
        | nil => simp at hA
        | cons b bs =>
          have h3 := hn b bs rfl
          have hk : k ∈ b :: bs := by rw [hA]; simp
          rcases List.mem_cons.1 hk with rfl | hk
          · exact h3
          · have := (List.pairwise_cons.1 hmono).1 k hk; omega
      omega
    · exact h A k B hA x hx

theorem colOf_condition {s t cs} : colOf (.condition s t cs) = s.start.column := rfl
theorem colOf_action {s t cs} : colOf (.action s t cs) = s.start.column := rfl
theorem colOf_desc {s t} : colOf (.description s t) = s.start.column := rfl

/-- The first node of the contents is the first header. -/
theorem items_head {c hs asts} (h : Items c hs asts) : ∀ b bs, asts = b :: bs → ∃ d r, hs = d :: r ∧ colOf b = d.col := by
  intro b bs hb
  cases h with
  | nil => simp at hb
  | condition => simp at hb; exact ⟨_, _, rfl, by rw [← hb.1]; rfl⟩
  | action => simp at hb; exact ⟨_, _, rfl, by rw [← hb.1]; rfl⟩

theorem items_cols {c hs asts} (h : Items c hs asts) :
    (∀ x ∈ preAll asts, c < colOf x) := by
  intro x hx
  obtain ⟨d, hd, hs⟩ := each_mem (items_stand h) hx
  rw [stands_col hs]; exact items_gt h d hd

theorem mono_cons {a : Ast} {as : List Ast} (hn : ∀ b bs, as = b :: bs → colOf b ≤ colOf a)
    (hm : as.Pairwise (fun x y => colOf y ≤ colOf x)) : (a :: as).Pairwise (fun x y => colOf y ≤ colOf x) := by
  refine List.pairwise_cons.2 ⟨?_, hm⟩
  intro k hk
  cases as with
  | nil => simp at hk
  | cons b bs =>
    have h3 := hn b bs rfl
    rcases List.mem_cons.1 hk with rfl | hk
    · exact h3
    · have := (List.pairwise_cons.1 hm).1 k hk; omega

theorem pre_ge_condition {s t cs} (h : ∀ x ∈ preAll cs, s.start.column < colOf x) :
    ∀ x ∈ pre (.condition s t cs), colOf (.condition s t cs) ≤ colOf x := by
  intro x hx
  simp only [pre, List.mem_cons] at hx
  rcases hx with rfl | hx
  · exact Nat.le_refl _
  · have := h x hx; simp only [colOf_condition]; omega

theorem pre_ge_action {s t cs} (h : ∀ x ∈ preAll cs, s.start.column < colOf x) :
    ∀ x ∈ pre (.action s t cs), colOf (.action s t cs) ≤ colOf x := by
  intro x hx
  simp only [pre, List.mem_cons] at hx
  rcases hx with rfl | hx
  · exact Nat.le_refl _
  · have := h x hx; simp only [colOf_action]; omega

theorem preAll_desc (h : Header) (l : List Header) : preAll (l.map (descAst h)) = l.map (descAst h) := by
  induction l with
  | nil => rfl
  | cons d l ih => simp [preAll, pre, descAst] at ih ⊢; exact ih

theorem mem_preAll {x : Ast} {l : List Ast} (h : x ∈ l) : x ∈ preAll l := by
  induction l with
  | nil => simp at h
  | cons a l ih =>
    simp only [preAll, List.mem_append]
    rcases List.mem_cons.1 h with rfl | h
    · left; cases x <;> simp [pre]
    · right; exact ih h

theorem nests_desc (h d : Header) : Nests (descAst h d) := by
  refine ⟨by simp [descAst, kids], ?_⟩
  intro _ A k B h; simp [kids, descAst] at h

theorem items_indented {c hs asts} (h : Items c hs asts) :
    SibsLeft asts ∧ asts.Pairwise (fun x y => colOf y ≤ colOf x) ∧ ∀ a ∈ preAll asts, Nests a := by
  induction h with
  | nil => exact ⟨by intro A k B h; simp at h, by simp, by simp [preAll]⟩
  | @condition c h sub kids' rest asts hok hc hcd hm hi he hr ih1 ih2 =>
    have hn : ∀ b bs, asts = b :: bs → colOf b ≤ colOf (.condition (nodeSpan h sub) (sanitize h.title) kids') := by
      intro b bs hb
      obtain ⟨d, r, h1, h2⟩ := items_head hr b bs hb
      rw [h2]; exact he d r h1
    refine ⟨?_, mono_cons hn ih2.2.1, ?_⟩
    · refine sibsLeft_cons ih2.1 ?_ hn ih2.2.1
      exact pre_ge_condition (items_cols hi)
    · intro a ha
      simp only [preAll, pre, List.cons_append, List.mem_cons, List.mem_append] at ha
      rcases ha with rfl | ha | ha
      · exact ⟨fun k hk => items_cols hi k (mem_preAll hk), fun _ => ih1.1⟩
      · exact ih1.2.2 a ha
      · exact ih2.2.2 a ha
  | @action c h sub rest asts hok hc ha' hs he hr ih =>
    have hn : ∀ b bs, asts = b :: bs → colOf b ≤ colOf (.action (nodeSpan h sub) h.title (sub.map (descAst h))) := by
      intro b bs hb
      obtain ⟨d, r, h1, h2⟩ := items_head hr b bs hb
      rw [h2]; exact he d r h1
    refine ⟨?_, mono_cons hn ih.2.1, ?_⟩
    · refine sibsLeft_cons ih.1 ?_ hn ih.2.1
      apply pre_ge_action
      intro x hx
      rw [preAll_desc] at hx
      obtain ⟨d, hd, rfl⟩ := List.mem_map.1 hx
      exact (hs d hd).2.1
    · intro a ha
      simp only [preAll, pre, List.cons_append, List.mem_cons, List.mem_append] at ha
      rcases ha with rfl | ha | ha
      · refine ⟨?_, by simp [Ast.isAction]⟩
        intro k hk
        obtain ⟨d, hd, rfl⟩ := List.mem_map.1 hk
        exact (hs d hd).2.1
      · rw [preAll_desc] at ha
        obtain ⟨d, hd, rfl⟩ := List.mem_map.1 ha
        exact nests_desc h d
      · exact ih.2.2 a ha

theorem rootItems_head {hs asts} (h : RootItems hs asts) :
    ∀ b bs, asts = b :: bs → ∃ d r, hs = d :: r ∧ colOf b = d.col := by
  intro b bs hb
  cases h with
  | nil => simp at hb
  | item hi =>
    simp at hb
    obtain ⟨d, r, h1, h2⟩ := items_head hi _ _ rfl
    simp at h1
    exact ⟨_, _, rfl, by rw [← hb.1, h2, h1.1]⟩

theorem items_single_ge {hd sub ast} (h : Items 0 (hd :: sub) [ast]) : ∀ x ∈ pre ast, colOf ast ≤ colOf x := by
  generalize hl : [ast] = l at h
  generalize hk : hd :: sub = k at h
  cases h with
  | nil => cases hl
  | condition _ _ _ _ hi _ hr =>
    cases hl
    exact pre_ge_condition (items_cols hi)
  | @action _ h' sub' _ _ _ _ _ hs _ hr =>
    cases hl
    apply pre_ge_action
    intro x hx
    rw [preAll_desc] at hx
    obtain ⟨d, hd, rfl⟩ := List.mem_map.1 hx
    exact (hs d hd).2.1

theorem rootItems_indented {hs asts} (h : RootItems hs asts) :
    SibsLeft asts ∧ asts.Pairwise (fun x y => colOf y ≤ colOf x) ∧ ∀ a ∈ preAll asts, Nests a := by
  induction h with
  | nil => exact ⟨by intro A k B h; simp at h, by simp, by simp [preAll]⟩
  | @item hd sub rest ast asts hi he hk hr ih =>
    obtain ⟨d0, r0, e1, e2⟩ := items_head hi _ _ rfl
    simp at e1
    have hn : ∀ b bs, asts = b :: bs → colOf b ≤ colOf ast := by
      intro b bs hb
      obtain ⟨d, r, h1, h2⟩ := rootItems_head hr b bs hb
      rw [h2, e2, ← e1.1]; exact he d r h1
    refine ⟨sibsLeft_cons ih.1 (items_single_ge hi) hn ih.2.1, mono_cons hn ih.2.1, ?_⟩
    intro a ha
    simp only [preAll, List.mem_append] at ha
    rcases ha with ha | ha
    · exact (items_indented hi).2.2 a (by simpa [preAll] using ha)
    · exact ih.2.2 a ha

/-! ## Spans -/

/-- Token offsets are increasing. -/
def TokSorted (toks : List Token) : Prop :=
  (∀ t ∈ toks, t.span.start.offset ≤ t.span.stop.offset) ∧
  toks.Pairwise (fun x y => x.span.stop.offset < y.span.start.offset)

theorem tokSorted_append {a b : List Token} : TokSorted (a ++ b) ↔
    TokSorted a ∧ TokSorted b ∧ ∀ x ∈ a, ∀ y ∈ b, x.span.stop.offset < y.span.start.offset := by
  simp only [TokSorted, List.pairwise_append, List.mem_append]
  constructor
  · rintro ⟨h1, h2, h3, h4⟩
    exact ⟨⟨fun t ht => h1 t (Or.inl ht), h2⟩, ⟨fun t ht => h1 t (Or.inr ht), h3⟩, h4⟩
  · rintro ⟨⟨h1, h2⟩, ⟨h3, h4⟩, h5⟩
    exact ⟨fun t ht => ht.elim (h1 t) (h3 t), h2, h4, h5⟩

theorem endPos_mem (h : Header) : ∃ t ∈ h.toks, h.endPos = t.span.stop ∧ t ∈ h.words := by
  obtain ⟨t, h1, h2⟩ := words_getLast h
  have := List.mem_of_getLast? h1
  exact ⟨t, by simp [Header.toks] ; right; simpa [Header.words] using this, h2, this⟩

theorem tokSorted_le {toks : List Token} (h : TokSorted toks) {x y : Token} {r : List Token} (hx : toks = x :: r)
    (hy : y ∈ toks) : x.span.start.offset ≤ y.span.stop.offset := by
  subst hx
  rcases List.mem_cons.1 hy with rfl | hy
  · exact h.1 _ (by simp)
  · have h1 := (List.pairwise_cons.1 h.2).1 y hy
    have h2 := h.1 x (by simp)
    have h3 := h.1 y (List.mem_cons_of_mem _ hy)
    omega

/-- Stop of the last token of a sorted list bounds every stop. -/
theorem tokSorted_last {toks : List Token} (h : TokSorted toks) {l y : Token} (hl : toks.getLast? = some l)
    (hy : y ∈ toks) : y.span.stop.offset ≤ l.span.stop.offset := by
  have hne : toks ≠ [] := by rintro rfl; simp at hl
  have e : toks = toks.dropLast ++ [l] := by
    have h2 := List.dropLast_concat_getLast hne
    rw [List.getLast?_eq_some_getLast hne] at hl
    simp only [Option.some.injEq] at hl
    rw [hl] at h2; exact h2.symm
  rw [e] at hy h
  obtain ⟨_, hb, hc⟩ := tokSorted_append.1 h
  rcases List.mem_append.1 hy with hy | hy
  · have h1 := hc y hy l (by simp)
    have h2 := hb.1 l (by simp)
    omega
  · simp at hy; rw [hy]; exact Nat.le_refl _

theorem flat_getLast (h : Header) (sub : List Header) :
    ∃ l, (flat (h :: sub)).getLast? = some l ∧ (nodeSpan h sub).stop = l.span.stop := by
  rcases snoc_cases sub with rfl | ⟨b, x, rfl⟩
  · obtain ⟨t, h1, h2⟩ := words_getLast h
    refine ⟨t, ?_, by simp [nodeSpan, h2]⟩
    simp only [flat_cons, flat_nil, List.append_nil, Header.toks]
    rw [List.getLast?_cons_cons]; exact h1
  · obtain ⟨t, h1, h2⟩ := words_getLast x
    refine ⟨t, ?_, by simp [nodeSpan, h2]⟩
    rw [← List.cons_append, flat_append, flat_cons x, flat_nil, List.append_nil, List.getLast?_append]
    have : x.toks.getLast? = some t := by
      simp only [Header.toks]; rw [List.getLast?_cons_cons]; exact h1
    simp [this]

/-- Every node of the contents spans tokens of its headers. -/
theorem items_span_tok {c hs asts} (h : Items c hs asts) : ∀ a ∈ asts,
    (∃ t ∈ flat hs, a.span.start = t.span.start) ∧ (∃ t ∈ flat hs, a.span.stop = t.span.stop) := by
  induction h with
  | nil => simp
  | @condition c h sub kids' rest asts _ _ _ _ _ _ _ _ ih2 =>
    intro a ha
    rcases List.mem_cons.1 ha with rfl | ha
    · refine ⟨⟨h.glyph, by simp [flat_cons, Header.toks], rfl⟩, ?_⟩
      obtain ⟨l, h1, h2⟩ := flat_getLast h sub
      refine ⟨l, ?_, h2⟩
      rw [← List.cons_append, flat_append]
      exact List.mem_append_left _ (List.mem_of_getLast? h1)
    · obtain ⟨⟨t, h1, h2⟩, ⟨u, h3, h4⟩⟩ := ih2 a ha
      rw [← List.cons_append, flat_append]
      exact ⟨⟨t, List.mem_append_right _ h1, h2⟩, ⟨u, List.mem_append_right _ h3, h4⟩⟩
  | @action c h sub rest asts _ _ _ _ _ _ ih2 =>
    intro a ha
    rcases List.mem_cons.1 ha with rfl | ha
    · refine ⟨⟨h.glyph, by simp [flat_cons, Header.toks], rfl⟩, ?_⟩
      obtain ⟨l, h1, h2⟩ := flat_getLast h sub
      refine ⟨l, ?_, h2⟩
      rw [← List.cons_append, flat_append]
      exact List.mem_append_left _ (List.mem_of_getLast? h1)
    · obtain ⟨⟨t, h1, h2⟩, ⟨u, h3, h4⟩⟩ := ih2 a ha
      rw [← List.cons_append, flat_append]
      exact ⟨⟨t, List.mem_append_right _ h1, h2⟩, ⟨u, List.mem_append_right _ h3, h4⟩⟩

theorem nodeSpan_le {h : Header} {sub : List Header} (hs : TokSorted (flat (h :: sub))) :
    (nodeSpan h sub).start.offset ≤ (nodeSpan h sub).stop.offset := by
  obtain ⟨l, h1, h2⟩ := flat_getLast h sub
  rw [h2]
  exact tokSorted_le hs (x := h.glyph) (r := h.first :: (h.more ++ flat sub)) (by simp [flat_cons, Header.toks])
    (List.mem_of_getLast? h1)

/-- Contents lie inside the parent's span. -/
theorem within_node {h : Header} {sub : List Header} (hs : TokSorted (flat (h :: sub))) {a : Ast}
    (h1 : ∃ t ∈ flat sub, a.span.start = t.span.start) (h2 : ∃ t ∈ flat sub, a.span.stop = t.span.stop) :
    (nodeSpan h sub).start.offset ≤ a.span.start.offset ∧ a.span.stop.offset ≤ (nodeSpan h sub).stop.offset := by
  obtain ⟨t, ht, e1⟩ := h1
  obtain ⟨u, hu, e2⟩ := h2
  obtain ⟨l, g1, g2⟩ := flat_getLast h sub
  rw [e1, e2, g2]
  constructor
  · rw [flat_cons] at hs
    obtain ⟨ha, hb, hc⟩ := tokSorted_append.1 hs
    have h3 := hc h.glyph (by simp [Header.toks]) t ht
    have h4 := ha.1 h.glyph (by simp [Header.toks])
    simp only [nodeSpan]; omega
  · exact tokSorted_last hs g1 (by rw [flat_cons]; exact List.mem_append_right _ hu)

theorem descs_spans (h : Header) (sub : List Header) (hs : TokSorted (flat sub)) :
    (∀ a ∈ sub.map (descAst h), SpansNest a) ∧
    (sub.map (descAst h)).Pairwise (fun x y => x.span.stop.offset < y.span.start.offset) := by
  induction sub with
  | nil => simp
  | cons d sub ih =>
    rw [flat_cons] at hs
    obtain ⟨ha, hb, hc⟩ := tokSorted_append.1 hs
    obtain ⟨t, ht, e, _⟩ := endPos_mem d
    constructor
    · intro a hm
      simp only [List.map_cons] at hm
      rcases List.mem_cons.1 hm with rfl | hm
      · refine .mk ?_ (by simp [kids, descAst]) (by simp [kids, descAst]) (by simp [kids, descAst])
        simp only [descAst, Ast.span, e]
        exact tokSorted_le ha (x := d.glyph) (r := d.first :: d.more) rfl ht
      · exact (ih hb).1 a hm
    · simp only [List.map_cons, List.pairwise_cons]
      refine ⟨?_, (ih hb).2⟩
      intro y hy
      obtain ⟨d', hd', rfl⟩ := List.mem_map.1 hy
      simp only [descAst, Ast.span, e]
      exact hc t ht d'.glyph (List.mem_flatMap.2 ⟨d', hd', by simp [Header.toks]⟩)

theorem items_spans {c hs asts} (h : Items c hs asts) (hs' : TokSorted (flat hs)) :
    (∀ a ∈ asts, SpansNest a) ∧ asts.Pairwise (fun x y => x.span.stop.offset < y.span.start.offset) := by
  induction h with
  | nil => simp
  | @condition c h sub kids' rest asts _ _ _ _ hi _ hr ih1 ih2 =>
    rw [← List.cons_append, flat_append] at hs'
    obtain ⟨ha, hb, hc⟩ := tokSorted_append.1 hs'
    have hsub : TokSorted (flat sub) := by
      rw [flat_cons] at ha; exact (tokSorted_append.1 ha).2.1
    obtain ⟨i1, i2⟩ := ih1 hsub
    obtain ⟨j1, j2⟩ := ih2 hb
    constructor
    · intro a hm
      rcases List.mem_cons.1 hm with rfl | hm
      · refine .mk (nodeSpan_le ha) ?_ i2 i1
        intro k hk
        obtain ⟨h1, h2⟩ := items_span_tok hi k hk
        exact within_node ha h1 h2
      · exact j1 a hm
    · refine List.pairwise_cons.2 ⟨?_, j2⟩
      intro y hy
      obtain ⟨⟨t, ht, e⟩, _⟩ := items_span_tok hr y hy
      obtain ⟨l, g1, g2⟩ := flat_getLast h sub
      simp only [Ast.span, g2] at e ⊢
      rw [e]
      exact hc l (List.mem_of_getLast? g1) t ht
  | @action c h sub rest asts _ _ _ hs'' _ hr ih2 =>
    rw [← List.cons_append, flat_append] at hs'
    obtain ⟨ha, hb, hc⟩ := tokSorted_append.1 hs'
    have hsub : TokSorted (flat sub) := by
      rw [flat_cons] at ha; exact (tokSorted_append.1 ha).2.1
    obtain ⟨i1, i2⟩ := descs_spans h sub hsub
    obtain ⟨j1, j2⟩ := ih2 hb
    constructor
    · intro a hm
      rcases List.mem_cons.1 hm with rfl | hm
      · refine .mk (nodeSpan_le ha) ?_ i2 i1
        intro k hk
        obtain ⟨d, hd, rfl⟩ := List.mem_map.1 hk
        obtain ⟨t, ht, e, _⟩ := endPos_mem d
        exact within_node ha ⟨d.glyph, List.mem_flatMap.2 ⟨d, hd, by simp [Header.toks]⟩, rfl⟩
          ⟨t, List.mem_flatMap.2 ⟨d, hd, ht⟩, e⟩
      · exact j1 a hm
    · refine List.pairwise_cons.2 ⟨?_, j2⟩
      intro y hy
      obtain ⟨⟨t, ht, e⟩, _⟩ := items_span_tok hr y hy
      obtain ⟨l, g1, g2⟩ := flat_getLast h sub
      simp only [Ast.span, g2] at e ⊢
      rw [e]
      exact hc l (List.mem_of_getLast? g1) t ht

theorem rootItems_span_tok {hs asts} (h : RootItems hs asts) : ∀ a ∈ asts,
    (∃ t ∈ flat hs, a.span.start = t.span.start) ∧ (∃ t ∈ flat hs, a.span.stop = t.span.stop) := by
  induction h with
  | nil => simp
  | @item h sub rest ast asts hi _ _ _ ih =>
    intro a ha
    rw [← List.cons_append, flat_append]
    rcases List.mem_cons.1 ha with rfl | ha
    · obtain ⟨⟨t, h1, h2⟩, ⟨u, h3, h4⟩⟩ := items_span_tok hi a (by simp)
      exact ⟨⟨t, List.mem_append_left _ h1, h2⟩, ⟨u, List.mem_append_left _ h3, h4⟩⟩
    · obtain ⟨⟨t, h1, h2⟩, ⟨u, h3, h4⟩⟩ := ih a ha
      exact ⟨⟨t, List.mem_append_right _ h1, h2⟩, ⟨u, List.mem_append_right _ h3, h4⟩⟩

theorem rootItems_spans {hs asts} (h : RootItems hs asts) (hs' : TokSorted (flat hs)) :
    (∀ a ∈ asts, SpansNest a) ∧ asts.Pairwise (fun x y => x.span.stop.offset < y.span.start.offset) := by
  induction h with
  | nil => simp
  | @item h sub rest ast asts hi _ _ hr ih =>
    rw [← List.cons_append, flat_append] at hs'
    obtain ⟨ha, hb, hc⟩ := tokSorted_append.1 hs'
    obtain ⟨i1, i2⟩ := items_spans hi ha
    obtain ⟨j1, j2⟩ := ih hb
    constructor
    · intro a hm
      rcases List.mem_cons.1 hm with rfl | hm
      · exact i1 _ (by simp)
      · exact j1 a hm
    · refine List.pairwise_cons.2 ⟨?_, j2⟩
      intro y hy
      obtain ⟨⟨t, ht, e⟩, _⟩ := rootItems_span_tok hr y hy
      obtain ⟨_, ⟨u, hu, e2⟩⟩ := items_span_tok hi ast (by simp)
      rw [e, e2]
      exact hc u hu t ht

theorem flat_last_word {h : Header} {sub : List Header} (ho : ∀ d ∈ h :: sub, d.Ok) :
    ∃ l ∈ flat (h :: sub), l.kind.isWordLike = true ∧ (nodeSpan h sub).stop = l.span.stop := by
  have hw : ∀ d : Header, d.Ok → ∃ t ∈ d.toks, t.kind.isWordLike = true ∧ d.endPos = t.span.stop := by
    intro d hd
    obtain ⟨t, h1, h2⟩ := words_getLast d
    have hm := List.mem_of_getLast? h1
    exact ⟨t, List.mem_cons_of_mem _ hm, hd.2 t hm, h2⟩
  rcases snoc_cases sub with rfl | ⟨b, x, rfl⟩
  · obtain ⟨t, h1, h2, h3⟩ := hw h (ho h (by simp))
    exact ⟨t, List.mem_flatMap.2 ⟨h, by simp, h1⟩, h2, by simp [nodeSpan, h3]⟩
  · obtain ⟨t, h1, h2, h3⟩ := hw x (ho x (by simp))
    exact ⟨t, List.mem_flatMap.2 ⟨x, by simp, h1⟩, h2, by simp [nodeSpan, h3]⟩

theorem desc_last_word {h : Header} {sub : List Header} (ho : ∀ d ∈ sub, d.Ok) : ∀ a ∈ preAll (sub.map (descAst h)),
    ∃ t ∈ flat sub, t.kind.isWordLike = true ∧ a.span.stop = t.span.stop := by
  induction sub with
  | nil => simp [preAll]
  | cons d sub ih =>
    intro a ha
    simp only [List.map_cons, preAll, descAst, pre, List.cons_append, List.nil_append] at ha
    rcases List.mem_cons.1 ha with rfl | ha
    · obtain ⟨l, h1, h2, h3⟩ := flat_last_word (h := d) (sub := []) (by simpa using ho d (by simp))
      refine ⟨l, ?_, h2, by simpa [nodeSpan, Ast.span] using h3⟩
      rw [flat_cons]; rw [flat_cons, flat_nil, List.append_nil] at h1
      exact List.mem_append_left _ h1
    · obtain ⟨t, h1, h2⟩ := ih (fun d hd => ho d (List.mem_cons_of_mem _ hd)) a ha
      exact ⟨t, by rw [flat_cons]; exact List.mem_append_right _ h1, h2⟩

/-- Every node, at any depth, ends with a word. -/
theorem items_last_word {c hs asts} (h : Items c hs asts) : ∀ a ∈ preAll asts,
    ∃ t ∈ flat hs, t.kind.isWordLike = true ∧ a.span.stop = t.span.stop := by
  induction h with
  | nil => simp [preAll]
  | @condition c h sub kids' rest asts hok _ _ _ hi _ _ ih1 ih2 =>
    intro a ha
    simp only [preAll, pre, List.cons_append] at ha
    rw [← List.cons_append, flat_append]
    rcases List.mem_cons.1 ha with rfl | ha
    · obtain ⟨l, h1, h2⟩ := flat_last_word (h := h) (sub := sub) (by
        intro d hd
        rcases List.mem_cons.1 hd with rfl | hd
        · exact hok
        · exact items_ok hi d hd)
      exact ⟨l, List.mem_append_left _ h1, h2⟩
    · rcases List.mem_append.1 ha with ha | ha
      · obtain ⟨t, h1, h2⟩ := ih1 a ha
        exact ⟨t, List.mem_append_left _ (by rw [flat_cons]; exact List.mem_append_right _ h1), h2⟩
      · obtain ⟨t, h1, h2⟩ := ih2 a ha
        exact ⟨t, List.mem_append_right _ h1, h2⟩
  | @action c h sub rest asts hok _ _ hs' _ _ ih2 =>
    intro a ha
    simp only [preAll, pre, List.cons_append] at ha
    rw [← List.cons_append, flat_append]
    rcases List.mem_cons.1 ha with rfl | ha
    · obtain ⟨l, h1, h2⟩ := flat_last_word (h := h) (sub := sub) (by
        intro d hd
        rcases List.mem_cons.1 hd with rfl | hd
        · exact hok
        · exact (hs' d hd).1)
      exact ⟨l, List.mem_append_left _ h1, h2⟩
    · rcases List.mem_append.1 ha with ha | ha
      · obtain ⟨t, h1, h2⟩ := desc_last_word (fun d hd => (hs' d hd).1) a ha
        exact ⟨t, List.mem_append_left _ (by rw [flat_cons]; exact List.mem_append_right _ h1), h2⟩
      · obtain ⟨t, h1, h2⟩ := ih2 a ha
        exact ⟨t, List.mem_append_right _ h1, h2⟩

theorem rootItems_last_word {hs asts} (h : RootItems hs asts) : ∀ a ∈ preAll asts,
    ∃ t ∈ flat hs, t.kind.isWordLike = true ∧ a.span.stop = t.span.stop := by
  induction h with
  | nil => simp [preAll]
  | @item h sub rest ast asts hi _ _ _ ih =>
    intro a ha
    rw [← List.cons_append, flat_append]
    simp only [preAll] at ha
    rcases List.mem_append.1 ha with ha | ha
    · obtain ⟨t, h1, h2⟩ := items_last_word hi a (by simpa [preAll] using ha)
      exact ⟨t, List.mem_append_left _ h1, h2⟩
    · obtain ⟨t, h1, h2⟩ := ih a ha
      exact ⟨t, List.mem_append_right _ h1, h2⟩

/-! ## Tokens of a text -/

theorem posOf_offset_le (a b : Str) : (posOf a).offset ≤ (posOf (a ++ b)).offset := by
  simp [posOf]

theorem posOf_offset_lt (a b c : Str) (h : b ≠ []) : (posOf (a ++ b.dropLast)).offset < (posOf (a ++ b ++ c)).offset := by
  rcases snoc_cases b with rfl | ⟨b', x, rfl⟩
  · exact absurd rfl h
  · have := Char.utf8Size_pos x
    simp [posOf]; omega

theorem tiles_sorted {pre rest : Str} {toks : List Token} (h : Tiles pre rest toks) :
    TokSorted toks ∧ ∀ t ∈ toks, (posOf pre).offset ≤ t.span.start.offset := by
  induction h with
  | done => exact ⟨⟨by simp, by simp⟩, by simp⟩
  | @tok pre g rest t toks _ hne hs he _ ih =>
    obtain ⟨⟨i1, i2⟩, i3⟩ := ih
    have h1 : t.span.start.offset ≤ t.span.stop.offset := by
      rw [hs, he]; exact posOf_offset_le _ _
    have h2 : t.span.stop.offset < (posOf (pre ++ g ++ t.lexeme)).offset := by
      rw [he]
      have := posOf_offset_lt (pre ++ g) t.lexeme [] hne
      simpa using this
    refine ⟨⟨?_, ?_⟩, ?_⟩
    · intro x hx
      rcases List.mem_cons.1 hx with rfl | hx
      · exact h1
      · exact i1 x hx
    · refine List.pairwise_cons.2 ⟨?_, i2⟩
      intro y hy
      have := i3 y hy
      omega
    · intro x hx
      have h3 : (posOf pre).offset ≤ t.span.start.offset := by rw [hs]; exact posOf_offset_le _ _
      rcases List.mem_cons.1 hx with rfl | hx
      · exact h3
      · have := i3 x hx
        omega

theorem tokenize_sorted {text : Str} {toks : List Token} (h : tokenize text = .ok toks) : TokSorted toks := by
  obtain ⟨ps, hl⟩ := lexes_exists text
  rw [tokenize_ok_tokensOf hl h]
  exact (tiles_sorted (tiles_tokensOf hl [])).1

theorem tokenize_col {text : Str} {toks : List Token} (h : tokenize text = .ok toks) :
    ∀ t ∈ toks, 0 < t.span.start.column := by
  obtain ⟨ps, hl⟩ := lexes_exists text
  rw [tokenize_ok_tokensOf hl h]
  suffices hg : ∀ (ps : List Piece) pre, ∀ t ∈ tokensOf pre ps, 0 < t.span.start.column from hg ps []
  intro ps
  induction ps with
  | nil => intro pre t ht; simp [tokensOf] at ht
  | cons p ps ih =>
    intro pre t ht
    have hp : 0 < (posOf pre).column := by simp only [posOf]; omega
    cases p with
    | tee => rcases List.mem_cons.1 ht with rfl | ht
             · exact hp
             · exact ih _ t ht
    | corner => rcases List.mem_cons.1 ht with rfl | ht
                · exact hp
                · exact ih _ t ht
    | word w => rcases List.mem_cons.1 ht with rfl | ht
                · exact hp
                · exact ih _ t ht
    | skip c => exact ih _ t ht
    | brk c => exact ih _ t ht
    | comment s => exact ih _ t ht

theorem lexRun_ne_panic (ps : List Piece) : ∀ (toks : List Token) (mode : Bool) (pre : Str),
    lexRun toks mode pre ps ≠ .panic := by
  induction ps with
  | nil => intro toks mode pre; simp [lexRun]
  | cons p ps ih =>
    intro toks mode pre
    cases p with
    | word w =>
      rw [lexRun]
      split
      · simp
      · exact ih _ _ _
    | _ => exact ih _ _ _

theorem tokenize_ne_panic (text : Str) : tokenize text ≠ .panic := by
  obtain ⟨ps, hl⟩ := lexes_exists text
  rw [tokenize_eq_lexRun hl]
  exact lexRun_ne_panic ps _ _ _

end
end Bulloak
