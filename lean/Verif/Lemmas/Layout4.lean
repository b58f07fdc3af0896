import Verif.Lemmas.Layout3
/-! # Texts that differ in layout only: comments and line endings -/

namespace Bulloak
open Spec
set_option linter.unusedSectionVars false

section
variable [U : Ucd]

theorem col_append {p q : Str} (h : (posOf p).column = (posOf q).column) (s : Str) :
    (posOf (p ++ s)).column = (posOf (q ++ s)).column := by
  induction s generalizing p q with
  | nil => simpa using h
  | cons c s ih =>
    have := ih (p := p ++ [c]) (q := q ++ [c]) (by
      rw [← posOf_snoc, ← posOf_snoc]
      unfold Position.advance
      by_cases hc : c = '\n' <;> simp [hc, h])
    simpa using this

theorem col_nl (p : Str) : (posOf (p ++ ['\n'])).column = 1 := by
  rw [← posOf_snoc]; rfl

theorem reading_congr (ps : List Piece) : ∀ {pre pre' : Str} {e : Bool}, (posOf pre).column = (posOf pre').column →
    reading pre e ps = reading pre' e ps := by
  induction ps with
  | nil => intro pre pre' e h; rfl
  | cons p ps ih =>
    intro pre pre' e h
    cases p <;> simp only [reading, h] <;> rw [ih (col_append h _)]

theorem reading_remove (A : List Piece) : ∀ {B : List Piece} {s text : Str} (_ : Lexes text (A ++ .comment s :: B))
    {e : Bool} {pre : Str}, reading pre e (A ++ .comment s :: B) = reading pre e (A ++ B) := by
  induction A with
  | nil =>
    intro B s text h e pre
    cases h with
    | @comment _ r _ hs hr hl =>
      rcases hr with rfl | ⟨r', rfl⟩
      · rw [lexes_nonempty_rest hl rfl]; rfl
      · cases hl with
        | skip hc => simp [IsSkip] at hc
        | word hc => exact absurd (Or.inl rfl) hc.2.1
        | brk hc hl =>
          simp only [List.nil_append, reading]
          exact reading_congr _ (by rw [col_nl, col_nl])
  | cons p A ih =>
    intro B s text h e pre
    cases h with
    | skip hc h => exact ih h
    | brk hc h => exact ih h
    | tee h => simp only [List.cons_append, reading, ih h]
    | corner h => simp only [List.cons_append, reading, ih h]
    | comment hs hr h => simp only [List.cons_append, reading, ih h]
    | word hc hw hr h => simp only [List.cons_append, reading, ih h]

theorem same_of_reading {b b' : Str} {ps ps' : List Piece} (h : Lexes b ps) (h' : Lexes b' ps')
    (hr : reading [] true ps = reading [] true ps') : SameColumns b b' := by
  refine ⟨ps, ps', h, h', by rw [hr], ?_⟩
  rw [hr]
  intro p hp _
  have : ∀ (l : List Seen), ∀ p ∈ l.zip l, p.1 = p.2 := by
    intro l
    induction l with
    | nil => simp
    | cons a l ih =>
      intro p hp
      rw [List.zip_cons_cons, List.mem_cons] at hp
      rcases hp with rfl | hp
      · rfl
      · exact ih p hp
  rw [this _ p hp]

/-! ## Windows line endings -/

theorem crlf_append (a b : Str) : crlf (a ++ b) = crlf a ++ crlf b := by simp [crlf]

theorem crlf_cons (c : Char) (r : Str) : crlf (c :: r) = (if c = '\n' then c!"\r\n" else [c]) ++ crlf r := rfl

theorem crlf_id {s : Str} (h : '\n' ∉ s) : crlf s = s := by
  induction s with
  | nil => rfl
  | cons c s ih =>
    simp at h
    rw [crlf_cons, if_neg (fun e => h.1 e.symm), ih h.2]; rfl

theorem crlf_mem {s : Str} : '\n' ∈ crlf s ↔ '\n' ∈ s := by
  induction s with
  | nil => simp [crlf]
  | cons c s ih =>
    rw [crlf_cons, List.mem_append, ih, List.mem_cons]
    by_cases hc : c = '\n'
    · subst hc; simp
    · rw [if_neg hc]; simp

theorem crlf_split : ∀ {b A B : Str}, crlf b = A ++ '\n' :: B →
    ∃ a c, b = a ++ '\n' :: c ∧ A = crlf a ++ c!"\r" ∧ B = crlf c := by
  intro b
  induction b with
  | nil => intro A B h; simp [crlf] at h
  | cons x b ih =>
    intro A B h
    rw [crlf_cons] at h
    by_cases hx : x = '\n'
    · rw [if_pos hx] at h
      subst hx
      cases A with
      | nil => simp at h
      | cons y A =>
        simp at h
        cases A with
        | nil =>
          simp at h
          exact ⟨[], b, rfl, by rw [← h.1]; rfl, h.2.symm⟩
        | cons z A =>
          simp at h
          obtain ⟨a, c, rfl, rfl, rfl⟩ := ih h.2.2
          exact ⟨'\n' :: a, c, rfl, by rw [crlf_cons, ← h.1, ← h.2.1]; rfl, rfl⟩
    · rw [if_neg hx] at h
      cases A with
      | nil => simp at h; exact absurd h.1 hx
      | cons y A =>
        simp at h
        obtain ⟨a, c, rfl, rfl, rfl⟩ := ih h.2
        refine ⟨x :: a, c, rfl, ?_, rfl⟩
        rw [crlf_cons, if_neg hx, ← h.1]; rfl

theorem isWs_r : isWs '\r' = true := by decide
theorem isWs_n : isWs '\n' = true := by decide

theorem crlf_lex (n : Nat) : ∀ {b : Str} {ps : List Piece}, b.length ≤ n → Lexes b ps →
    ∃ ps', Lexes (crlf b) ps' ∧ ∀ pre pre' e, (posOf pre).column = (posOf pre').column → reading pre e ps = reading pre' e ps' := by
  induction n with
  | zero =>
    intro b ps hn h
    have : b = [] := List.eq_nil_of_length_eq_zero (by omega)
    subst this
    rw [lexes_nonempty_rest h rfl]
    exact ⟨[], .nil, fun _ _ _ _ => rfl⟩
  | succ n ih =>
    intro b ps hn h
    cases h with
    | nil => exact ⟨[], .nil, fun _ _ _ _ => rfl⟩
    | @skip c r ps hc h =>
      obtain ⟨ps', h1, h2⟩ := ih (by simp at hn; omega) h
      have hne : c ≠ '\n' := by rintro rfl; simp [IsSkip] at hc
      refine ⟨.skip c :: ps', ?_, ?_⟩
      · rw [crlf_cons, if_neg hne]; exact .skip hc h1
      · intro pre pre' e he; exact h2 _ _ _ (col_append he _)
    | @brk c r ps hc h =>
      obtain ⟨ps', h1, h2⟩ := ih (by simp at hn; omega) h
      by_cases hne : c = '\n'
      · subst hne
        refine ⟨.brk '\r' :: .brk '\n' :: ps', ?_, ?_⟩
        · rw [crlf_cons, if_pos rfl]; exact .brk (by simp [IsBreak]) (.brk hc h1)
        · intro pre pre' e he
          simp only [reading]
          exact h2 _ _ _ (by rw [col_nl, col_nl])
      · refine ⟨.brk c :: ps', ?_, ?_⟩
        · rw [crlf_cons, if_neg hne]; exact .brk hc h1
        · intro pre pre' e he; exact h2 _ _ _ (col_append he _)
    | @tee r ps h =>
      obtain ⟨ps', h1, h2⟩ := ih (by simp at hn; omega) h
      refine ⟨.tee :: ps', ?_, ?_⟩
      · rw [crlf_cons, if_neg (by decide)]; exact .tee h1
      · intro pre pre' e he; simp only [reading, he, h2 _ _ _ (col_append he _)]
    | @corner r ps h =>
      obtain ⟨ps', h1, h2⟩ := ih (by simp at hn; omega) h
      refine ⟨.corner :: ps', ?_, ?_⟩
      · rw [crlf_cons, if_neg (by decide)]; exact .corner h1
      · intro pre pre' e he; simp only [reading, he, h2 _ _ _ (col_append he _)]
    | @word c s r ps hc hs hr h =>
      obtain ⟨ps', h1, h2⟩ := ih (by simp at hn; omega) h
      have hne : c ≠ '\n' := by rintro rfl; exact hc.2.1 (.inl rfl)
      have hsn : '\n' ∉ s := fun hm => by have := hs _ hm; rw [isWs_n] at this; cases this
      refine ⟨.word (c :: s) :: ps', ?_, ?_⟩
      · rw [crlf_cons, if_neg hne, crlf_append, crlf_id hsn]
        refine .word ⟨hc.1, hc.2.1, hc.2.2.1, hc.2.2.2.1, ?_⟩ hs ?_ h1
        · rintro ⟨rfl, r', hr'⟩
          apply hc.2.2.2.2
          refine ⟨rfl, ?_⟩
          cases s with
          | cons d s => simp at hr'; exact ⟨s ++ r, by rw [hr'.1]; rfl⟩
          | nil =>
            cases r with
            | nil => simp [crlf] at hr'
            | cons d r =>
              rw [List.nil_append, crlf_cons] at hr'
              by_cases hd : d = '\n'
              · rw [if_pos hd] at hr'; simp at hr'
              · rw [if_neg hd] at hr'; simp at hr'; exact ⟨r, by rw [hr'.1]; rfl⟩
        · rcases hr with rfl | ⟨d, r', rfl, hd⟩
          · exact .inl rfl
          · right
            by_cases hdn : d = '\n'
            · subst hdn; exact ⟨'\r', '\n' :: crlf r', by rw [crlf_cons, if_pos rfl]; rfl, isWs_r⟩
            · exact ⟨d, crlf r', by rw [crlf_cons, if_neg hdn]; rfl, hd⟩
      · intro pre pre' e he; simp only [reading, he, h2 _ _ _ (col_append he _)]
    | @comment s r ps hs hr h =>
      have hcr : crlf ('/' :: '/' :: (s ++ r)) = '/' :: '/' :: (s ++ crlf r) := by
        rw [crlf_cons, if_neg (by decide), crlf_cons, if_neg (by decide), crlf_append, crlf_id hs]; rfl
      rw [hcr]
      rcases hr with rfl | ⟨r', rfl⟩
      · rw [lexes_nonempty_rest h rfl]
        exact ⟨[.comment s], .comment hs (.inl rfl) .nil, fun _ _ _ _ => rfl⟩
      · cases h with
        | skip hc => simp [IsSkip] at hc
        | word hc => exact absurd (Or.inl rfl) hc.2.1
        | @brk _ _ ps hc hl =>
          obtain ⟨ps', h1, h2⟩ := ih (by simp at hn; omega) hl
          refine ⟨.comment (s ++ c!"\r") :: .brk '\n' :: ps', ?_, ?_⟩
          · rw [crlf_cons, if_pos rfl]
            have := Lexes.comment (s := s ++ c!"\r") (r := '\n' :: crlf r') (ps := .brk '\n' :: ps')
              (by simp [hs]) (.inr ⟨_, rfl⟩) (.brk hc h1)
            simpa using this
          · intro pre pre' e he
            simp only [reading]
            exact h2 _ _ _ (by rw [col_nl, col_nl])

theorem crlf_same (b : Str) : SameColumns b (crlf b) := by
  obtain ⟨ps, h⟩ := lexes_exists b
  obtain ⟨ps', h1, h2⟩ := crlf_lex b.length (Nat.le_refl _) h
  exact same_of_reading h h1 (h2 _ _ _ rfl)

theorem blank_crlf {s : Str} (h : Blank s) : Blank (crlf s) := by
  intro c hc
  unfold crlf at hc
  obtain ⟨d, hd, hm⟩ := List.mem_flatMap.1 hc
  split at hm
  · simp at hm
    rcases hm with rfl | rfl
    · exact isWs_r
    · exact isWs_n
  · simp at hm; subst hm; exact h _ hd

theorem crlf_solid (b : Str) : ¬ c!"\n\n" <:+: crlf b := by
  rintro ⟨x, y, h⟩
  have h' : crlf b = (x ++ ['\n']) ++ '\n' :: y := by rw [← h]; simp
  obtain ⟨a, c, _, h2, _⟩ := crlf_split h'
  have := congrArg List.getLast? h2
  simp at this

theorem crlf_block {p b q : Str} (hp : Blank p) (hf : ∃ c r, b = c :: r ∧ isWs c = false) (hl : ∃ r c, b = r ++ [c] ∧ isWs c = false)
    (hq : Blank q) : Blocks (crlf (p ++ b ++ q)) [crlf b] := by
  rw [crlf_append, crlf_append]
  refine .last (blank_crlf hp) ⟨?_, ?_, crlf_solid b⟩ (blank_crlf hq)
  · obtain ⟨c, r, rfl, hc⟩ := hf
    refine ⟨c, crlf r, ?_, hc⟩
    rw [crlf_cons, if_neg]
    · rfl
    · rintro rfl; rw [isWs_n] at hc; cases hc
  · obtain ⟨r, c, rfl, hc⟩ := hl
    refine ⟨crlf r, c, ?_, hc⟩
    rw [crlf_append, crlf_cons, if_neg]
    · rfl
    · rintro rfl; rw [isWs_n] at hc; cases hc

theorem onlyComments_crlf (b : Str) : OnlyComments (crlf b) ↔ OnlyComments b := by
  constructor
  · rintro h l ⟨hl, x, y, rfl, hx, hy⟩
    have hx' : crlf x = [] ∨ ∃ z, crlf x = z ++ c!"\n" := by
      rcases hx with rfl | ⟨z, rfl⟩
      · exact .inl rfl
      · exact .inr ⟨crlf z ++ c!"\r", by rw [crlf_append]; simp [crlf]⟩
    rcases hy with rfl | ⟨z, rfl⟩
    · exact h l ⟨hl, crlf x, [], by rw [crlf_append, crlf_append, crlf_id hl]; rfl, hx', .inl rfl⟩
    · obtain ⟨w, r, he, hw⟩ := h (l ++ c!"\r") ⟨by simp [hl], crlf x, c!"\n" ++ crlf z, by
        rw [crlf_append, crlf_append, crlf_id hl, crlf_append]; simp [crlf], hx', .inr ⟨_, rfl⟩⟩
      rcases List.eq_nil_or_concat r with rfl | ⟨r', d, rfl⟩
      · have := congrArg List.getLast? he
        simp at this
      · refine ⟨w, r', ?_, hw⟩
        have h2 : l ++ c!"\r" = (w ++ c!"//" ++ r') ++ [d] := by rw [he]; simp
        exact (List.append_inj' h2 rfl).1
  · rintro h l ⟨hl, x, y, he, hx, hy⟩
    have key : ∃ x0 rest, b = x0 ++ rest ∧ crlf rest = l ++ y ∧ (x0 = [] ∨ ∃ z, x0 = z ++ c!"\n") := by
      rcases hx with rfl | ⟨z, rfl⟩
      · exact ⟨[], b, rfl, by rw [he]; rfl, .inl rfl⟩
      · obtain ⟨a, c, rfl, _, h3⟩ := crlf_split (b := b) (A := z) (B := l ++ y) (by rw [he]; simp)
        exact ⟨a ++ c!"\n", c, by simp, h3.symm, .inr ⟨a, rfl⟩⟩
    obtain ⟨x0, rest, rfl, h1, h2⟩ := key
    rcases hy with rfl | ⟨z, rfl⟩
    · rw [List.append_nil] at h1
      have : '\n' ∉ rest := fun hm => by have := crlf_mem.2 hm; rw [h1] at this; exact hl this
      rw [crlf_id this] at h1
      subst h1
      exact h rest ⟨this, x0, [], by simp, h2, .inl rfl⟩
    · obtain ⟨a, c, rfl, h3, h4⟩ := crlf_split (b := rest) (A := l) (B := z) (by rw [h1]; rfl)
      have han : '\n' ∉ a := fun hm => hl (by rw [h3]; simp [crlf_mem.2 hm])
      rw [crlf_id han] at h3
      obtain ⟨w, r, hw, hb⟩ := h a ⟨han, x0, c!"\n" ++ c, by simp, h2, .inr ⟨_, rfl⟩⟩
      exact ⟨w, r ++ c!"\r", by rw [h3, hw]; simp, hb⟩

/-! ## Computing the decomposition of a text (for examples) -/

/-- The decomposition of a text of at most the given length. -/
def lexF : Nat → Str → List Piece
  | 0, _ => []
  | _, [] => []
  | n + 1, c :: r =>
    if IsSkip c then .skip c :: lexF n r
    else if IsBreak c then .brk c :: lexF n r
    else if c = '├' then .tee :: lexF n r
    else if c = '└' then .corner :: lexF n r
    else if c = '/' ∧ r.head? = some '/' then
      .comment (r.tail.takeWhile (· ≠ '\n')) :: lexF n (r.tail.dropWhile (· ≠ '\n'))
    else .word (c :: r.takeWhile (fun c => !isWs c)) :: lexF n (r.dropWhile (fun c => !isWs c))

theorem lexF_spec (n : Nat) : ∀ {text : Str}, text.length ≤ n → Lexes text (lexF n text) := by
  induction n with
  | zero =>
    intro text h
    have : text = [] := List.eq_nil_of_length_eq_zero (by omega)
    subst this; exact .nil
  | succ n ih =>
    intro text h
    cases text with
    | nil => exact .nil
    | cons c r =>
      simp only [List.length_cons] at h
      have hr : Lexes r (lexF n r) := ih (by omega)
      rw [lexF]
      split
      · rename_i h1; exact .skip h1 hr
      rename_i h1
      split
      · rename_i h2; exact .brk h2 hr
      rename_i h2
      split
      · rename_i h3; subst h3; exact .tee hr
      rename_i h3
      split
      · rename_i h4; subst h4; exact .corner hr
      rename_i h4
      split
      · rename_i h5
        obtain ⟨rfl, h5⟩ := h5
        cases r with
        | nil => simp at h5
        | cons d r' =>
          simp at h5
          subst h5
          have hlen : (r'.dropWhile (· ≠ '\n')).length ≤ r'.length := (List.dropWhile_sublist _).length_le
          have hn := ih (text := r'.dropWhile (· ≠ '\n')) (by simp at h hlen ⊢; omega)
          have := Lexes.comment (takeWhile_ne_mem r') (atLineEnd_dropWhile r') hn
          rw [List.takeWhile_append_dropWhile] at this
          exact this
      · rename_i h5
        have hlen : (r.dropWhile (fun c => !isWs c)).length ≤ r.length := (List.dropWhile_sublist _).length_le
        have hn := ih (text := r.dropWhile (fun c => !isWs c)) (by omega)
        have := Lexes.word (c := c) (s := r.takeWhile (fun c => !isWs c))
          (by
            rw [List.takeWhile_append_dropWhile]
            refine ⟨h1, h2, h3, h4, ?_⟩
            rintro ⟨rfl, r', rfl⟩
            exact h5 ⟨rfl, rfl⟩)
          (by intro d hd
              have := (List.all_eq_true.1 (List.all_takeWhile (p := fun c : Char => !isWs c))) d hd
              simpa using this)
          (atWordEnd_dropWhile r) hn
        rw [List.takeWhile_append_dropWhile] at this
        exact this

theorem trees_one {p b q : Str} (hp : Blank p) (hb : Block b) (hq : Blank q) (hc : ¬ OnlyComments b) : Trees (p ++ b ++ q) [b] :=
  .inr ⟨[b], .last hp hb hq, by rw [List.filter_cons_of_pos (by simpa using hc)]; rfl⟩

end
end Bulloak
