import Verif.Spec.Layout
import Verif.Props.Parse
import Verif.Lemmas.Combine2
import Verif.Props.Semantics
/-! # Texts that differ in layout only -/

namespace Bulloak
open Spec
set_option linter.unusedSectionVars false

/-- The headers read the same. -/
def SameHeader (h h' : Header) : Prop :=
  tokWord h.glyph = tokWord h'.glyph ∧ tokWord h.first = tokWord h'.first ∧ h.more.map tokWord = h'.more.map tokWord

/-- Pairs of headers that read the same and are indented alike. -/
structure Alike (D : Str → Str) (ps : List (Header × Header)) : Prop where
  same : ∀ p ∈ ps, SameHeader p.1 p.2
  indent : ∀ p ∈ ps, ∀ q ∈ ps, (p.1.col < q.1.col ↔ p.2.col < q.2.col)
  desc : ∀ p ∈ ps, ∀ q ∈ ps, ∀ t, D (spaces (q.1.col - p.1.col) ++ t) = D (spaces (q.2.col - p.2.col) ++ t)

theorem Alike.sub {D : Str → Str} {ps qs : List (Header × Header)} (h : Alike D ps) (hs : ∀ p ∈ qs, p ∈ ps) : Alike D qs :=
  ⟨fun p hp => h.same p (hs p hp), fun p hp q hq => h.indent p (hs p hp) q (hs q hq), fun p hp q hq => h.desc p (hs p hp) q (hs q hq)⟩

theorem words_lexeme {l l' : List Token} (h : l.map tokWord = l'.map tokWord) : l.map (·.lexeme) = l'.map (·.lexeme) := by
  have := congrArg (List.map Prod.snd) h
  simpa [tokWord, Function.comp_def] using this

theorem SameHeader.words {h h' : Header} (s : SameHeader h h') : h.words.map tokWord = h'.words.map tokWord := by
  simp [Header.words, s.2.1, s.2.2]

theorem SameHeader.title {h h' : Header} (s : SameHeader h h') : h.title = h'.title := by
  unfold Header.title; rw [words_lexeme s.words]

theorem SameHeader.firstKind {h h' : Header} (s : SameHeader h h') : h.first.kind = h'.first.kind := by
  have := s.2.1; simp [tokWord] at this; exact this.1

theorem SameHeader.glyphKind {h h' : Header} (s : SameHeader h h') : h.glyph.kind = h'.glyph.kind := by
  have := s.1; simp [tokWord] at this; exact this.1

theorem SameHeader.ok {h h' : Header} (s : SameHeader h h') (hk : h.Ok) : h'.Ok := by
  refine ⟨s.glyphKind ▸ hk.1, ?_⟩
  intro t ht
  have : tokWord t ∈ h.words.map tokWord := by rw [s.words]; exact List.mem_map_of_mem ht
  obtain ⟨u, hu, he⟩ := List.mem_map.1 this
  have := hk.2 u hu
  simp [tokWord] at he
  rw [← he.1]; exact this

theorem SameHeader.more {h h' : Header} (s : SameHeader h h') (hk : h.more ≠ []) : h'.more ≠ [] := by
  intro he
  have := s.2.2
  rw [he] at this
  exact hk (List.map_eq_nil_iff.1 this)

theorem ends_alike {D : Str → Str} {p : Header × Header} {ps : List (Header × Header)} (ha : Alike D (p :: ps))
    (h : Ends p.1.col (ps.map Prod.fst)) : Ends p.2.col (ps.map Prod.snd) := by
  intro d r he
  cases ps with
  | nil => cases he
  | cons q ps =>
    simp only [List.map_cons, List.cons.injEq] at he
    have h1 := h q.1 _ rfl
    have := ha.indent p (by simp) q (by simp)
    rw [← he.1]
    omega

section
variable [U : Ucd]

theorem shapeAll_append (D : Str → Str) (A B : List Ast) : shapeAll D (A ++ B) = shapeAll D A ++ shapeAll D B := by
  induction A with
  | nil => rfl
  | cons a A ih => simp [shapeAll, ih]

theorem shapeAll_map (D : Str → Str) (A : List Ast) : shapeAll D A = A.map (shape D) := by
  induction A with
  | nil => rfl
  | cons a A ih => simp [shapeAll, ih]

theorem descs_alike {D : Str → Str} {p : Header × Header} {ps : List (Header × Header)} (ha : Alike D (p :: ps)) :
    shapeAll D ((ps.map Prod.fst).map (descAst p.1)) = shapeAll D ((ps.map Prod.snd).map (descAst p.2)) := by
  rw [shapeAll_map, shapeAll_map]
  simp only [List.map_map]
  apply List.map_congr_left
  intro q hq
  simp only [Function.comp, descAst, shape]
  rw [ha.desc p (by simp) q (by simp [hq]), (ha.same q (by simp [hq])).title]

theorem items_alike {D : Str → Str} {c : Nat} {hs : List Header} {asts : List Ast} (h : Items c hs asts) :
    ∀ (ps : List (Header × Header)) (c' : Nat), hs = ps.map Prod.fst → Alike D ps → (∀ p ∈ ps, c < p.1.col ↔ c' < p.2.col) →
      ∃ asts', Items c' (ps.map Prod.snd) asts' ∧ shapeAll D asts = shapeAll D asts' := by
  induction h with
  | nil =>
    intro ps c' he _ _
    have : ps = [] := List.map_eq_nil_iff.1 he.symm
    subst this
    exact ⟨[], .nil, rfl⟩
  | condition hok hc hcond hm hsub hends hrest ih1 ih2 =>
    intro ps c' he ha hcs
    obtain ⟨p, ps', rfl, rfl, hm0⟩ := List.map_eq_cons_iff.1 he.symm
    obtain ⟨ps1, ps2, rfl, rfl, rfl⟩ := List.map_eq_append_iff.1 hm0
    have hs := ha.same p (by simp)
    obtain ⟨kids', hk, hke⟩ := ih1 ps1 p.2.col rfl (ha.sub (by simp +contextual)) (fun q hq => ha.indent p (by simp) q (by simp [hq]))
    obtain ⟨asts', hr, hre⟩ := ih2 ps2 c' rfl (ha.sub (by simp +contextual)) (fun q hq => hcs q (by simp [hq]))
    have he2 := ends_alike (D := D) (p := p) (ps := ps2) (ha.sub (by simp +contextual)) hends
    refine ⟨.condition (nodeSpan p.2 (ps1.map Prod.snd)) (sanitize p.2.title) kids' :: asts', ?_, ?_⟩
    · simp only [List.map_cons, List.map_append]
      refine .condition (hs.ok hok) ((hcs p (by simp)).1 hc) ?_ (hs.more hm) hk he2 hr
      unfold Header.isCondition
      rw [← hs.firstKind]; exact hcond
    · simp [shapeAll, shape, hke, hre, hs.title]
  | action hok hc hact hsub hends hrest ih =>
    intro ps c' he ha hcs
    obtain ⟨p, ps', rfl, rfl, hm0⟩ := List.map_eq_cons_iff.1 he.symm
    obtain ⟨ps1, ps2, rfl, rfl, rfl⟩ := List.map_eq_append_iff.1 hm0
    have hs := ha.same p (by simp)
    obtain ⟨asts', hr, hre⟩ := ih ps2 c' rfl (ha.sub (by simp +contextual)) (fun q hq => hcs q (by simp [hq]))
    have he2 := ends_alike (D := D) (p := p) (ps := ps2) (ha.sub (by simp +contextual)) hends
    refine ⟨.action (nodeSpan p.2 (ps1.map Prod.snd)) p.2.title ((ps1.map Prod.snd).map (descAst p.2)) :: asts', ?_, ?_⟩
    · simp only [List.map_cons, List.map_append]
      refine .action (hs.ok hok) ((hcs p (by simp)).1 hc) ?_ ?_ he2 hr
      · unfold Header.isAction
        rw [← hs.firstKind]; exact hact
      · intro d hd
        obtain ⟨q, hq, rfl⟩ := List.mem_map.1 hd
        obtain ⟨h1, h2, h3⟩ := hsub q.1 (List.mem_map_of_mem hq)
        have hsq := ha.same q (by simp [hq])
        exact ⟨hsq.ok h1, (ha.indent p (by simp) q (by simp [hq])).1 h2, hsq.firstKind ▸ h3⟩
    · simp only [shapeAll, shape, hre, hs.title]
      rw [descs_alike (D := D) (p := p) (ps := ps1) (ha.sub (by simp +contextual))]

theorem rootItems_alike {D : Str → Str} {hs : List Header} {asts : List Ast} (h : RootItems hs asts) :
    ∀ (ps : List (Header × Header)), hs = ps.map Prod.fst → Alike D ps → (∀ p ∈ ps, 0 < p.1.col ∧ 0 < p.2.col) →
      ∃ asts', RootItems (ps.map Prod.snd) asts' ∧ shapeAll D asts = shapeAll D asts' := by
  induction h with
  | nil =>
    intro ps he _ _
    have : ps = [] := List.map_eq_nil_iff.1 he.symm
    subst this
    exact ⟨[], .nil, rfl⟩
  | item hi hends hg hr ih =>
    intro ps he ha hcs
    obtain ⟨p, ps', rfl, rfl, hm0⟩ := List.map_eq_cons_iff.1 he.symm
    obtain ⟨ps1, ps2, rfl, rfl, rfl⟩ := List.map_eq_append_iff.1 hm0
    have hs := ha.same p (by simp)
    obtain ⟨as, hi', hie⟩ := items_alike (D := D) hi (p :: ps1) 0 rfl (ha.sub (by simp +contextual))
      (fun q hq => by have := hcs q (by simp at hq ⊢; rcases hq with h | h <;> simp [h]); omega)
    obtain ⟨asts', hr', hre⟩ := ih ps2 rfl (ha.sub (by simp +contextual)) (fun q hq => hcs q (by simp [hq]))
    have he2 := ends_alike (D := D) (p := p) (ps := ps2) (ha.sub (by simp +contextual)) hends
    have hlen := congrArg List.length hie
    rw [shapeAll_map, shapeAll_map, List.length_map, List.length_map] at hlen
    obtain ⟨a', rfl⟩ := List.length_eq_one_iff.1 hlen.symm
    refine ⟨a' :: asts', ?_, ?_⟩
    · simp only [List.map_cons, List.map_append]
      refine .item hi' he2 ?_ hr'
      rw [← hs.glyphKind, hg]
      simp
    · simp only [shapeAll, List.cons.injEq, and_true] at hie ⊢
      exact ⟨hie, hre⟩
end

theorem flat_pairs (hs : List Header) : ∀ (l : List Token), (flat hs).map tokWord = l.map tokWord →
    ∃ ps : List (Header × Header), hs = ps.map Prod.fst ∧ l = flat (ps.map Prod.snd) ∧ (∀ p ∈ ps, SameHeader p.1 p.2) ∧
      ∀ p ∈ ps, (p.1.glyph, p.2.glyph) ∈ (flat hs).zip l := by
  induction hs with
  | nil =>
    intro l h
    have : l = [] := by simpa [flat] using h.symm
    subst this
    exact ⟨[], rfl, rfl, by simp, by simp⟩
  | cons h hs ih =>
    intro l he
    have e0 : flat (h :: hs) = h.glyph :: h.first :: (h.more ++ flat hs) := by simp [flat, Header.toks]
    rw [e0] at he
    simp only [List.map_cons, List.map_append] at he
    obtain ⟨g, l, rfl, hg, he⟩ := List.map_eq_cons_iff.1 he.symm
    obtain ⟨f, l, rfl, hf, he⟩ := List.map_eq_cons_iff.1 he
    obtain ⟨m, r, rfl, hm, he⟩ := List.map_eq_append_iff.1 he
    obtain ⟨ps, rfl, rfl, h1, h2⟩ := ih r he.symm
    have hlen : h.more.length = m.length := by simpa using (congrArg List.length hm).symm
    refine ⟨(h, ⟨g, f, m⟩) :: ps, rfl, by simp [flat, Header.toks], ?_, ?_⟩
    · intro p hp
      rcases List.mem_cons.1 hp with rfl | hp
      · exact ⟨hg.symm, hf.symm, hm.symm⟩
      · exact h1 p hp
    · intro p hp
      rw [e0]
      simp only [List.zip_cons_cons, List.mem_cons]
      rcases List.mem_cons.1 hp with rfl | hp
      · exact .inl rfl
      · right; right
        rw [List.zip_append hlen]
        exact List.mem_append_right _ (h2 p hp)

section
variable [U : Ucd]

/-- The trees of alike token sequences. -/
theorem tree_alike {D : Str → Str} {toks toks' : List Token} {ast : Ast} (hw : toks.map tokWord = toks'.map tokWord)
    (hi : ∀ p ∈ toks.zip toks', ∀ q ∈ toks.zip toks', p.1.isBranch = true → q.1.isBranch = true →
      (tokCol p.1 < tokCol q.1 ↔ tokCol p.2 < tokCol q.2))
    (hd : ∀ p ∈ toks.zip toks', ∀ q ∈ toks.zip toks', p.1.isBranch = true → q.1.isBranch = true → ∀ t,
      D (spaces (tokCol q.1 - tokCol p.1) ++ t) = D (spaces (tokCol q.2 - tokCol p.2) ++ t))
    (hc : ∀ t ∈ toks, 0 < tokCol t) (hc' : ∀ t ∈ toks', 0 < tokCol t) (h : Tree toks ast) :
    ∃ ast', Tree toks' ast' ∧ shape D ast = shape D ast' := by
  obtain ⟨root, hs, kids, rfl, hk, hr, rfl⟩ := h
  obtain ⟨root', l, rfl, hroot, he⟩ := List.map_eq_cons_iff.1 hw.symm
  obtain ⟨ps, rfl, rfl, h1, h2⟩ := flat_pairs hs l he.symm
  have hroot' : root'.kind = root.kind ∧ root'.lexeme = root.lexeme := by simpa [tokWord] using hroot
  have hz : ∀ p ∈ ps, (p.1.glyph, p.2.glyph) ∈ (root :: flat (ps.map Prod.fst)).zip (root' :: flat (ps.map Prod.snd)) := by
    intro p hp; rw [List.zip_cons_cons]; exact List.mem_cons_of_mem _ (h2 p hp)
  have hok : ∀ p ∈ ps, p.1.glyph.isBranch = true := by
    intro p hp
    have : ∀ {hs asts}, RootItems hs asts → ∀ h ∈ hs, h.Ok := by
      intro hs asts hr
      have hitems : ∀ {c hs asts}, Items c hs asts → ∀ h ∈ hs, h.Ok := by
        intro c hs asts hi
        induction hi with
        | nil => simp
        | condition hok _ _ _ _ _ _ ih1 ih2 =>
          intro h hh
          simp only [List.mem_cons, List.mem_append] at hh
          rcases hh with rfl | hh | hh
          · exact hok
          · exact ih1 h hh
          · exact ih2 h hh
        | action hok _ _ hsub _ _ ih =>
          intro h hh
          simp only [List.mem_cons, List.mem_append] at hh
          rcases hh with rfl | hh | hh
          · exact hok
          · exact (hsub h hh).1
          · exact ih h hh
      induction hr with
      | nil => simp
      | item hi _ _ _ ih =>
        intro h hh
        rw [← List.cons_append, List.mem_append] at hh
        rcases hh with hh | hh
        · exact hitems hi h hh
        · exact ih h hh
    have := (this hr p.1 (List.mem_map_of_mem hp)).1
    unfold TokenKind.isBranch at this
    unfold Token.isBranch
    split at this <;> simp_all
  have ha : Alike D ps := ⟨h1, fun p hp q hq => hi _ (hz p hp) _ (hz q hq) (hok p hp) (hok q hq),
    fun p hp q hq => hd _ (hz p hp) _ (hz q hq) (hok p hp) (hok q hq)⟩
  obtain ⟨kids', hr', hre⟩ := rootItems_alike (D := D) hr ps rfl ha (by
    intro p hp
    have := hz p hp
    exact ⟨hc _ (List.of_mem_zip this).1, hc' _ (List.of_mem_zip this).2⟩)
  refine ⟨_, ⟨root', _, kids', rfl, hroot'.1.trans hk, hr', rfl⟩, ?_⟩
  simp [shape, hre, hroot'.2]
end

end Bulloak
