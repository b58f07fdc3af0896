import Verif.Lemmas.Split
/-! # Lemmas about lines and comment blocks -/

namespace Bulloak
open Spec

theorem lineOf_nonl {s l : Str} (hs : '\n' ∉ s) : LineOf s l ↔ l = s := by
  constructor
  · rintro ⟨_, before, after, h, hb, ha⟩
    have h1 : before = [] := by
      rcases hb with h1 | ⟨x, rfl⟩
      · exact h1
      · exact absurd (by rw [h]; simp) hs
    have h2 : after = [] := by
      rcases ha with h2 | ⟨x, rfl⟩
      · exact h2
      · exact absurd (by rw [h]; simp) hs
    rw [h, h1, h2]; simp
  · rintro rfl
    exact ⟨hs, [], [], by simp, Or.inl rfl, Or.inl rfl⟩

theorem append_nl_inj {a b : Str} {x y : Str} (ha : '\n' ∉ a) (hb : '\n' ∉ b) (h : a ++ '\n' :: x = b ++ '\n' :: y) :
    a = b ∧ x = y := by
  induction a generalizing b with
  | nil =>
    cases b with
    | nil => simpa using h
    | cons c b => simp at h; exact absurd (by rw [h.1]; simp) hb
  | cons c a ih =>
    cases b with
    | nil => simp at h; exact absurd (by rw [h.1]; simp) ha
    | cons d b =>
      simp at h
      have := ih (b := b) (fun hm => ha (by simp [hm])) (fun hm => hb (by simp [hm])) h.2
      exact ⟨by rw [h.1, this.1], this.2⟩

theorem lineOf_cons {cur r l : Str} (hcur : '\n' ∉ cur) : LineOf (cur ++ '\n' :: r) l ↔ l = cur ∨ LineOf r l := by
  constructor
  · rintro ⟨hl, before, after, h, hb, ha⟩
    rcases hb with rfl | ⟨x, rfl⟩
    · left
      rcases ha with rfl | ⟨y, rfl⟩
      · simp at h
        exact absurd (by rw [← h]; simp) hl
      · simp only [List.nil_append, List.cons_append] at h
        exact (append_nl_inj hcur hl h).1.symm
    · right
      have h' : (cur ++ c!"\n") ++ r = (x ++ c!"\n") ++ (l ++ after) := by simpa using h
      rcases List.append_eq_append_iff.1 h' with ⟨z, e1, e2⟩ | ⟨z, e1, e2⟩
      · refine ⟨hl, z, after, by rw [e2]; simp, ?_, ha⟩
        rcases snoc_cases z with rfl | ⟨z', c, rfl⟩
        · exact Or.inl rfl
        · right
          rw [← List.append_assoc] at e1
          have := (List.append_inj' e1 rfl).2
          exact ⟨z', by rw [this]⟩
      · rcases snoc_cases z with rfl | ⟨z', c, rfl⟩
        · exact ⟨hl, [], after, by simpa using e2.symm, Or.inl rfl, ha⟩
        · exfalso
          rw [← List.append_assoc] at e1
          have := (List.append_inj' e1 rfl).1
          exact hcur (by rw [this]; simp)
  · rintro (rfl | ⟨hl, before, after, rfl, hb, ha⟩)
    · exact ⟨hcur, [], '\n' :: r, by simp, Or.inl rfl, Or.inr ⟨r, rfl⟩⟩
    · refine ⟨hl, cur ++ '\n' :: before, after, by simp, Or.inr ?_, ha⟩
      rcases hb with rfl | ⟨x, rfl⟩
      · exact ⟨cur, by simp⟩
      · exact ⟨cur ++ '\n' :: x, by simp⟩

theorem mem_splitNlAux (s : Str) : ∀ cur, '\n' ∉ cur → ∀ l, l ∈ splitNlAux cur s ↔ LineOf (cur ++ s) l := by
  induction s with
  | nil =>
    intro cur hcur l
    rw [List.append_nil, lineOf_nonl hcur]
    simp [splitNlAux]
  | cons c s ih =>
    intro cur hcur l
    rw [splitNlAux]
    split
    · rename_i hc
      subst hc
      rw [lineOf_cons hcur, List.mem_cons, ih [] (by simp), List.nil_append]
    · rename_i hc
      rw [ih (cur ++ [c]) (by simp; exact ⟨hcur, fun h => hc h.symm⟩)]
      simp

theorem splitNlAux_ne (s : Str) : ∀ cur, splitNlAux cur s ≠ [] := by
  induction s with
  | nil => intro cur; simp [splitNlAux]
  | cons c s ih =>
    intro cur
    rw [splitNlAux]
    split
    · simp
    · exact ih _

theorem splitNlAux_snoc (s : Str) (c : Char) (hc : c ≠ '\n') : ∀ cur, ∃ L x, splitNlAux cur (s ++ [c]) = L ++ [x ++ [c]] := by
  induction s with
  | nil => intro cur; exact ⟨[], cur, by simp [splitNlAux, hc]⟩
  | cons d s ih =>
    intro cur
    rw [List.cons_append, splitNlAux]
    split
    · obtain ⟨L, x, h⟩ := ih []
      exact ⟨cur :: L, x, by rw [h]; rfl⟩
    · exact ih _

theorem stripPrefix_eq {p s r : Str} : stripPrefix p s = some r ↔ s = p ++ r := by
  induction p generalizing s with
  | nil => simp [stripPrefix]
  | cons a p ih =>
    cases s with
    | nil => simp [stripPrefix]
    | cons b s =>
      rw [stripPrefix]
      split
      · rename_i h; subst h; rw [ih]; simp
      · rename_i h; simp; intro h'; exact absurd h'.symm h

theorem trim_stripCr (l : Str) : trim (stripCr l) = trim l := by
  unfold stripCr
  split
  · rename_i h
    rcases snoc_cases l with rfl | ⟨l', x, rfl⟩
    · rfl
    · simp at h
      subst h
      rw [List.dropLast_concat, trim_blank_right (q := c!"\r")]
      intro c hc; simp at hc; rw [hc]; decide
  · rfl

theorem comment_line {l : Str} : (stripPrefix c!"//" (trim l)).isSome = true ↔ ∃ w r, l = w ++ c!"//" ++ r ∧ Blank w := by
  constructor
  · intro h
    obtain ⟨r, hr⟩ := Option.isSome_iff_exists.1 h
    rw [stripPrefix_eq] at hr
    rcases blank_or l with hb | ⟨p, c, s, rfl, hp, hc⟩
    · rw [trim_blank hb] at hr; simp at hr
    · rw [trim_blank_left hp] at hr
      obtain ⟨b, q, e, hq, ⟨c', r', hf, hfw⟩, ⟨r'', c'', hl, hlw⟩⟩ := split_trailing c s hc
      rw [e, trim_blank_right hq] at hr
      have : trim b = b := by
        have h1 : trimStart b = b := by rw [hf]; exact trimStart_first hfw
        rw [trim, h1, hl, trimEnd_last hlw]
      rw [this] at hr
      exact ⟨p, r ++ q, by rw [e, hr]; simp, hp⟩
  · rintro ⟨w, r, rfl, hw⟩
    rw [List.append_assoc, trim_blank_left hw]
    have hs : isWs '/' = false := by decide
    obtain ⟨b, q, e, hq, ⟨c', r', hf, hfw⟩, ⟨r'', c'', hl, hlw⟩⟩ := split_trailing '/' ('/' :: r) hs
    have hr' : c!"//" ++ r = b ++ q := e
    rw [hr', trim_blank_right hq]
    have : trim b = b := by
      have h1 : trimStart b = b := by rw [hf]; exact trimStart_first hfw
      rw [trim, h1, hl, trimEnd_last hlw]
    rw [this]
    subst hf
    have e1 : c' = '/' := by simp at e; exact e.1.symm
    subst e1
    cases r' with
    | nil =>
      simp at e
      have := hq '/' (by rw [← e]; simp)
      rw [hs] at this; cases this
    | cons d r' =>
      simp at e
      rw [← e.1]
      simp [stripPrefix]

theorem notOnlyComments_iff {b : Str} (hb : Block b) : notOnlyComments b = true ↔ ¬ OnlyComments b := by
  obtain ⟨r, c, rfl, hc⟩ := hb.last
  have hcn : c ≠ '\n' := by rintro rfl; exact absurd hc (by decide)
  obtain ⟨L, x, hL⟩ := splitNlAux_snoc r c hcn []
  have hlines : lines (r ++ [c]) = L.map stripCr ++ [x ++ [c]] := by
    simp only [lines, hL, List.dropLast_concat, List.getLast?_concat]
    cases x <;> rfl
  have key : (lines (r ++ [c])).all (fun l => (stripPrefix c!"//" (trim l)).isSome) = true ↔ OnlyComments (r ++ [c]) := by
    rw [hlines]
    simp only [List.all_append, List.all_map, List.all_cons, List.all_nil, Bool.and_true, Bool.and_eq_true, List.all_eq_true,
      Function.comp, trim_stripCr]
    have hm := mem_splitNlAux (r ++ [c]) [] (by simp)
    rw [hL] at hm
    simp only [List.nil_append, List.mem_append, List.mem_singleton] at hm
    constructor
    · rintro ⟨h1, h2⟩ l hl
      rcases (hm l).2 hl with hl | rfl
      · exact comment_line.1 (h1 l hl)
      · exact comment_line.1 h2
    · intro h
      exact ⟨fun l hl => comment_line.2 (h l ((hm l).1 (Or.inl hl))), comment_line.2 (h _ ((hm _).1 (Or.inr rfl)))⟩
  unfold notOnlyComments
  rw [Bool.not_eq_true', ← Bool.not_eq_true, key]

theorem blocks_mem {text : Str} {bs : List Str} (h : Blocks text bs) : ∀ b ∈ bs, Block b := by
  induction h with
  | last _ hb _ => intro b hm; simp at hm; rw [hm]; exact hb
  | cons _ hb _ _ _ ih =>
    intro b hm
    rcases List.mem_cons.1 hm with rfl | hm
    · exact hb
    · exact ih b hm

theorem splitTrees_blocks {text : Str} {bs : List Str} (h : Blocks text bs) : splitTrees text = bs.filter notOnlyComments := by
  have hnb : ¬ trim text = [] := fun ht => blocks_not_blank h (trim_eq_nil.1 ht)
  rw [splitTrees, if_neg hnb]
  have := pieces_blocks h
  unfold pieces at this
  rw [this]

end Bulloak
