import Verif.Spec.Split
import Verif.Model.Syntax
import Verif.Lemmas.ListExtra
/-! # Lemmas about splitting and trimming -/

namespace Bulloak
open Spec

/-! ## Trimming -/

theorem dropWhile_blank {p : Str} (hp : Blank p) (s : Str) : (p ++ s).dropWhile isWs = s.dropWhile isWs := by
  induction p with
  | nil => rfl
  | cons c p ih =>
    have := hp c (by simp)
    simp only [List.cons_append, List.dropWhile_cons, this, if_true]
    exact ih (fun x hx => hp x (List.mem_cons_of_mem _ hx))

theorem trimStart_blank {p : Str} (hp : Blank p) (s : Str) : trimStart (p ++ s) = trimStart s := dropWhile_blank hp s

theorem blank_reverse {p : Str} (hp : Blank p) : Blank p.reverse := fun c hc => hp c (by simpa using hc)

theorem trimEnd_blank {q : Str} (hq : Blank q) (s : Str) : trimEnd (s ++ q) = trimEnd s := by
  simp only [trimEnd, List.reverse_append]
  rw [dropWhile_blank (blank_reverse hq)]

theorem trimStart_first {c : Char} {r : Str} (h : isWs c = false) : trimStart (c :: r) = c :: r := by
  simp [trimStart, List.dropWhile_cons, h]

theorem trimEnd_last {c : Char} {r : Str} (h : isWs c = false) : trimEnd (r ++ [c]) = r ++ [c] := by
  simp [trimEnd, List.dropWhile_cons, h]

theorem trim_blank {p : Str} (hp : Blank p) : trim p = [] := by
  have h1 : trimStart p = [] := by
    have := trimStart_blank hp []
    simpa [trimStart] using this
  simp [trim, h1, trimEnd]

theorem trim_blank_left {p : Str} (hp : Blank p) (s : Str) : trim (p ++ s) = trim s := by
  simp [trim, trimStart_blank hp]

theorem trim_blank_right {q : Str} (hq : Blank q) (s : Str) : trim (s ++ q) = trim s := by
  by_cases hs : Blank s
  · rw [trim_blank hs, trim_blank]
    intro c hc
    rcases List.mem_append.1 hc with hc | hc
    · exact hs c hc
    · exact hq c hc
  · have : ∃ p c r, s = p ++ c :: r ∧ Blank p ∧ isWs c = false := by
      clear hq
      induction s with
      | nil => exact absurd (by intro c hc; simp at hc) hs
      | cons c s ih =>
        by_cases hc : isWs c = true
        · have hs' : ¬ Blank s := by
            intro hb
            exact hs (fun x hx => (List.mem_cons.1 hx).elim (fun e => e ▸ hc) (hb x))
          obtain ⟨p, d, r, h1, h2, h3⟩ := ih hs'
          refine ⟨c :: p, d, r, by simp [h1], ?_, h3⟩
          exact fun x hx => (List.mem_cons.1 hx).elim (fun e => e ▸ hc) (h2 x)
        · exact ⟨[], c, s, rfl, by intro c hc; simp at hc, by simpa using hc⟩
    obtain ⟨p, c, r, rfl, hp, hc⟩ := this
    rw [List.append_assoc, trim_blank_left hp, trim_blank_left hp]
    simp only [trim, List.cons_append, trimStart_first hc]
    rw [← List.cons_append, trimEnd_blank hq]

theorem trim_block {b : Str} (hb : Block b) : trim b = b := by
  obtain ⟨c, r, e, hc⟩ := hb.first
  obtain ⟨r', c', e', hc'⟩ := hb.last
  have h1 : trimStart b = b := by rw [e]; exact trimStart_first hc
  rw [trim, h1, e', trimEnd_last hc']

theorem trim_padded {p b q : Str} (hp : Blank p) (hb : Block b) (hq : Blank q) : trim (p ++ b ++ q) = b := by
  rw [trim_blank_right hq, trim_blank_left hp, trim_block hb]

theorem block_ne {b : Str} (hb : Block b) : b ≠ [] := by
  obtain ⟨c, r, e, _⟩ := hb.first
  rw [e]; simp

/-- A string is white space or decomposes at its first and last other character. -/
theorem blank_or (s : Str) : Blank s ∨ ∃ p c r, s = p ++ c :: r ∧ Blank p ∧ isWs c = false := by
  induction s with
  | nil => exact Or.inl (by intro c hc; simp at hc)
  | cons c s ih =>
    by_cases hc : isWs c = true
    · rcases ih with hb | ⟨p, d, r, h1, h2, h3⟩
      · exact Or.inl (fun x hx => (List.mem_cons.1 hx).elim (fun e => e ▸ hc) (hb x))
      · exact Or.inr ⟨c :: p, d, r, by simp [h1], fun x hx => (List.mem_cons.1 hx).elim (fun e => e ▸ hc) (h2 x), h3⟩
    · exact Or.inr ⟨[], c, s, rfl, by intro c hc; simp at hc, by simpa using hc⟩

theorem blank_or_end (s : Str) : Blank s ∨ ∃ r c q, s = r ++ [c] ++ q ∧ isWs c = false ∧ Blank q := by
  rcases blank_or s.reverse with h | ⟨p, c, r, h1, h2, h3⟩
  · exact Or.inl (by have := blank_reverse h; simpa using this)
  · refine Or.inr ⟨r.reverse, c, p.reverse, ?_, h3, blank_reverse h2⟩
    have := congrArg List.reverse h1
    simpa using this

theorem trim_eq_nil {s : Str} : trim s = [] ↔ Blank s := by
  constructor
  · intro h
    rcases blank_or s with hb | ⟨p, c, r, rfl, hp, hc⟩
    · exact hb
    · exfalso
      rw [trim_blank_left hp] at h
      rcases blank_or_end (c :: r) with hb | ⟨r', c', q, h1, h2, h3⟩
      · have := hb c (by simp)
        rw [hc] at this; cases this
      · simp only [trim, trimStart_first hc] at h
        rw [h1, trimEnd_blank h3, trimEnd_last h2] at h
        simp at h
  · exact trim_blank

/-! ## Splitting at empty lines -/

theorem splitBlankAux_cur (s : Str) : ∀ cur, ∃ h t, splitBlankAux [] s = h :: t ∧ splitBlankAux cur s = (cur ++ h) :: t := by
  suffices ∀ n, ∀ s : Str, s.length ≤ n → ∀ cur, ∃ h t, splitBlankAux [] s = h :: t ∧ splitBlankAux cur s = (cur ++ h) :: t from
    this s.length s (Nat.le_refl _)
  intro n
  induction n with
  | zero =>
    intro s hs cur
    have : s = [] := by cases s with | nil => rfl | cons => simp at hs
    subst this
    exact ⟨[], [], rfl, by simp [splitBlankAux]⟩
  | succ n ih =>
    intro s hs cur
    match s, hs with
    | [], _ => exact ⟨[], [], rfl, by simp [splitBlankAux]⟩
    | [c], _ => exact ⟨[c], [], rfl, by simp [splitBlankAux]⟩
    | c :: d :: r, hs =>
      rw [splitBlankAux, splitBlankAux]
      split
      · exact ⟨[], _, rfl, by simp⟩
      · simp only [List.nil_append]
        simp only [List.length_cons] at hs
        obtain ⟨h, t, h1, h2⟩ := ih (d :: r) (by simp; omega) [c]
        obtain ⟨h', t', h1', h2'⟩ := ih (d :: r) (by simp; omega) (cur ++ [c])
        rw [h1'] at h1
        simp only [List.cons.injEq] at h1
        obtain ⟨rfl, rfl⟩ := h1
        exact ⟨_, _, h2, by rw [h2']; simp⟩

/-- The non-empty trimmed pieces. -/
def pieces (s : Str) : List Str := ((splitBlank s).map trim).filter (fun s => !s.isEmpty)

theorem pieces_nil : pieces [] = [] := by
  simp [pieces, splitBlank, splitBlankAux, trim, trimEnd, trimStart]

theorem pieces_nlnl (r : Str) : pieces ('\n' :: '\n' :: r) = pieces r := by
  simp [pieces, splitBlank, splitBlankAux, trim, trimEnd, trimStart]

theorem pieces_ws (c : Char) (hc : isWs c = true) (s : Str) : pieces (c :: s) = pieces s := by
  suffices ∀ n, ∀ s : Str, s.length ≤ n → ∀ c, isWs c = true → pieces (c :: s) = pieces s from
    this s.length s (Nat.le_refl _) c hc
  intro n
  induction n with
  | zero =>
    intro s hs c hc
    have : s = [] := by cases s with | nil => rfl | cons => simp at hs
    subst this
    rw [pieces_nil]
    simp only [pieces, splitBlank, splitBlankAux, List.nil_append, List.map_cons, List.map_nil]
    rw [trim_blank (by intro x hx; simp at hx; rw [hx]; exact hc)]
    rfl
  | succ n ih =>
    intro s hs c hc
    match s, hs with
    | [], _ =>
      rw [pieces_nil]
      simp only [pieces, splitBlank, splitBlankAux, List.nil_append, List.map_cons, List.map_nil]
      rw [trim_blank (by intro x hx; simp at hx; rw [hx]; exact hc)]
      rfl
    | d :: r, hs =>
      by_cases h : c = '\n' ∧ d = '\n'
      · obtain ⟨rfl, rfl⟩ := h
        rw [pieces_nlnl]
        exact (ih r (by simpa using hs) _ (by decide)).symm
      · have : splitBlank (c :: d :: r) = splitBlankAux [c] (d :: r) := by
          rw [splitBlank, splitBlankAux, if_neg h]; rfl
        obtain ⟨x, t, h1, h2⟩ := splitBlankAux_cur (d :: r) [c]
        simp only [pieces, this, h2]
        rw [show splitBlank (d :: r) = x :: t from h1]
        simp only [List.map_cons]
        rw [trim_blank_left (p := [c]) (by intro x hx; simp at hx; rw [hx]; exact hc)]

theorem pieces_blank_left {p : Str} (hp : Blank p) (s : Str) : pieces (p ++ s) = pieces s := by
  induction p with
  | nil => rfl
  | cons c p ih =>
    rw [List.cons_append, pieces_ws c (hp c (by simp))]
    exact ih (fun x hx => hp x (List.mem_cons_of_mem _ hx))

theorem infix_cons_cons {a b : Char} {c d : Char} {r : Str} (h : ¬ [a, b] <:+: c :: d :: r) :
    ¬ (c = a ∧ d = b) ∧ ¬ [a, b] <:+: d :: r := by
  constructor
  · rintro ⟨rfl, rfl⟩
    exact h ⟨[], r, by simp⟩
  · rintro ⟨x, y, hxy⟩
    exact h ⟨c :: x, y, by rw [← hxy]; simp⟩

/-- Splitting at the first empty line. -/
theorem splitBlankAux_first (x y : Str) : ∀ cur, ¬ c!"\n\n" <:+: x ++ c!"\n" →
    splitBlankAux cur (x ++ c!"\n\n" ++ y) = (cur ++ x) :: splitBlankAux [] y := by
  induction x with
  | nil => intro cur _; simp [splitBlankAux]
  | cons c x ih =>
    intro cur h
    cases x with
    | nil =>
      have : c ≠ '\n' := by
        rintro rfl; exact h ⟨[], [], by simp⟩
      simp only [List.cons_append, List.nil_append]
      rw [splitBlankAux, if_neg (by simp [this])]
      have := ih (cur ++ [c]) (by
        rintro ⟨a, b, hab⟩
        have := congrArg List.length hab
        simp at this; omega)
      simpa using this
    | cons d x =>
      obtain ⟨h1, h2⟩ := infix_cons_cons (r := x ++ c!"\n") (by simpa using h)
      simp only [List.cons_append]
      rw [splitBlankAux, if_neg h1]
      have := ih (cur ++ [c]) (by simpa using h2)
      simpa using this

theorem splitBlankAux_none (x : Str) : ∀ cur, ¬ c!"\n\n" <:+: x → splitBlankAux cur x = [cur ++ x] := by
  induction x with
  | nil => intro cur _; simp [splitBlankAux]
  | cons c x ih =>
    intro cur h
    cases x with
    | nil => simp [splitBlankAux]
    | cons d x =>
      obtain ⟨h1, h2⟩ := infix_cons_cons h
      rw [splitBlankAux, if_neg h1, ih _ h2]
      simp

/-- A string has a first empty line or none. -/
theorem first_nlnl (s : Str) : ¬ c!"\n\n" <:+: s ∨ ∃ x y, s = x ++ c!"\n\n" ++ y ∧ ¬ c!"\n\n" <:+: x ++ c!"\n" := by
  induction s with
  | nil => exact Or.inl (by rintro ⟨a, b, h⟩; simp at h)
  | cons c s ih =>
    cases s with
    | nil =>
      refine Or.inl ?_
      rintro ⟨a, b, h⟩
      have := congrArg List.length h
      simp at this; omega
    | cons d s =>
      by_cases h : c = '\n' ∧ d = '\n'
      · obtain ⟨rfl, rfl⟩ := h
        refine Or.inr ⟨[], s, by simp, ?_⟩
        rintro ⟨a, b, h⟩
        have := congrArg List.length h
        simp at this; omega
      · rcases ih with hn | ⟨x, y, h1, h2⟩
        · refine Or.inl ?_
          rintro ⟨a, b, hab⟩
          cases a with
          | nil => simp at hab; exact h ⟨hab.1.symm, hab.2.1.symm⟩
          | cons a0 a => simp at hab; exact hn ⟨a, b, by simp [hab.2]⟩
        · refine Or.inr ⟨c :: x, y, by rw [h1]; simp, ?_⟩
          rintro ⟨a, b, hab⟩
          cases a with
          | nil =>
            simp at hab
            apply h
            refine ⟨hab.1.symm, ?_⟩
            cases x with
            | nil => simp at hab h1; exact h1.1
            | cons x0 x => simp at hab h1; rw [h1.1]; exact hab.2.1.symm
          | cons a0 a => simp at hab; exact h2 ⟨a, b, by simp [hab.2]⟩

/-- An occurrence of two line feeds in `b ++ s` lies in `s` if `b` is a block. -/
theorem block_append_solid {b s : Str} (hb : Block b) (h : c!"\n\n" <:+: b ++ s) : c!"\n\n" <:+: s := by
  obtain ⟨x, y, hxy⟩ := h
  obtain ⟨r, c, rfl, hc⟩ := hb.last
  have hc' : c ≠ '\n' := by rintro rfl; exact absurd hc (by decide)
  rw [List.append_assoc] at hxy
  rcases List.append_eq_append_iff.1 hxy with ⟨a', e1, e2⟩ | ⟨a', e1, e2⟩
  · -- x is a prefix of b
    rcases a' with _ | ⟨a0, _ | ⟨a1, a'⟩⟩
    · simp at e1 e2; subst e2; exact ⟨[], y, by simp⟩
    · simp at e2
      obtain ⟨rfl, e2⟩ := e2
      have := congrArg List.getLast? e1
      simp at this
      exact absurd this hc'
    · simp at e2
      obtain ⟨rfl, rfl, rfl⟩ := e2
      exact absurd ⟨x, a', by rw [e1]; simp⟩ hb.solid
  · exact ⟨a', y, by rw [e2]; simp⟩

theorem infix_snoc_nl {s : Str} (h : c!"\n\n" <:+: s ++ c!"\n") : c!"\n\n" <:+: s ∨ ∃ r, s = r ++ c!"\n" := by
  obtain ⟨x, y, hxy⟩ := h
  rcases snoc_cases y with rfl | ⟨y', c, rfl⟩
  · right
    refine ⟨x, ?_⟩
    have : (x ++ c!"\n") ++ c!"\n" = s ++ c!"\n" := by rw [← hxy]; simp
    exact (List.append_cancel_right this).symm
  · left
    have : (x ++ c!"\n\n" ++ y') ++ [c] = s ++ c!"\n" := by rw [← hxy]; simp
    exact ⟨x, y', (List.append_inj' this rfl).1⟩

theorem pieces_block {b s rest : Str} (hb : Block b) (hs : Blank s) (hn : c!"\n\n" <:+: s) :
    pieces (b ++ s ++ rest) = b :: pieces rest := by
  rcases first_nlnl s with h | ⟨x, y, rfl, hx⟩
  · exact absurd hn h
  · have hbx : Blank x := fun c hc => hs c (by simp [hc])
    have hby : Blank y := fun c hc => hs c (by simp [hc])
    have hfirst : ¬ c!"\n\n" <:+: (b ++ x) ++ c!"\n" := by
      intro h
      rw [List.append_assoc] at h
      exact hx (block_append_solid hb h)
    have e : b ++ (x ++ c!"\n\n" ++ y) ++ rest = (b ++ x) ++ c!"\n\n" ++ (y ++ rest) := by simp
    rw [e]
    have h1 := splitBlankAux_first (b ++ x) (y ++ rest) [] hfirst
    have h2 : pieces ((b ++ x) ++ c!"\n\n" ++ (y ++ rest)) = b :: pieces (y ++ rest) := by
      simp only [pieces, splitBlank, h1, List.nil_append, List.map_cons]
      rw [trim_blank_right hbx, trim_block hb]
      have : b.isEmpty = false := by
        cases b with
        | nil => exact absurd rfl (block_ne hb)
        | cons => rfl
      simp [this]
    rw [h2, pieces_blank_left hby]

theorem pieces_last {b q : Str} (hb : Block b) (hq : Blank q) : pieces (b ++ q) = [b] := by
  by_cases h : c!"\n\n" <:+: q
  · have := pieces_block (rest := []) hb hq h
    simpa [pieces_nil] using this
  · have hn : ¬ c!"\n\n" <:+: b ++ q := fun h' => h (block_append_solid hb h')
    simp only [pieces, splitBlank, splitBlankAux_none _ _ hn, List.nil_append, List.map_cons, List.map_nil]
    rw [trim_blank_right hq, trim_block hb]
    have : b.isEmpty = false := by
      cases b with
      | nil => exact absurd rfl (block_ne hb)
      | cons => rfl
    simp [this]

theorem pieces_blocks {text : Str} {bs : List Str} (h : Blocks text bs) : pieces text = bs := by
  induction h with
  | last hp hb hq =>
    rw [List.append_assoc, pieces_blank_left hp, pieces_last hb hq]
  | cons hp hb hs hn _ ih =>
    rw [List.append_assoc, List.append_assoc, pieces_blank_left hp, ← List.append_assoc, pieces_block hb hs hn, ih]

theorem blocks_not_blank {text : Str} {bs : List Str} (h : Blocks text bs) : ¬ Blank text := by
  intro hb
  cases h with
  | last _ hb' _ =>
    obtain ⟨c, r, rfl, hc⟩ := hb'.first
    have := hb c (by simp)
    rw [hc] at this; cases this
  | cons _ hb' _ _ _ =>
    obtain ⟨c, r, rfl, hc⟩ := hb'.first
    have := hb c (by simp)
    rw [hc] at this; cases this

/-- Trailing white space can be split off a string that starts with something else. -/
theorem split_trailing (c : Char) (r : Str) (hc : isWs c = false) :
    ∃ b q, c :: r = b ++ q ∧ Blank q ∧ (∃ c r, b = c :: r ∧ isWs c = false) ∧ (∃ r c, b = r ++ [c] ∧ isWs c = false) := by
  rcases blank_or_end (c :: r) with h | ⟨r', c', q, h1, h2, h3⟩
  · have := h c (by simp)
    rw [hc] at this; cases this
  · refine ⟨r' ++ [c'], q, h1, h3, ?_, r', c', rfl, h2⟩
    cases r' with
    | nil => exact ⟨c', [], rfl, h2⟩
    | cons x r' =>
      simp at h1
      exact ⟨x, r' ++ [c'], rfl, by rw [← h1.1]; exact hc⟩

theorem blocks_exist (text : Str) (hn : ¬ Blank text) : ∃ bs, Blocks text bs := by
  suffices ∀ n, ∀ text : Str, text.length ≤ n → ¬ Blank text → ∃ bs, Blocks text bs from
    this text.length text (Nat.le_refl _) hn
  intro n
  induction n with
  | zero =>
    intro text hl hb
    have : text = [] := by cases text with | nil => rfl | cons => simp at hl
    subst this
    exact absurd (by intro c hc; simp at hc) hb
  | succ n ih =>
    intro text hl hb
    rcases blank_or text with h | ⟨p, c, r, rfl, hp, hc⟩
    · exact absurd h hb
    · rcases first_nlnl (c :: r) with h | ⟨x, y, h1, h2⟩
      · obtain ⟨b, q, e, hq, hf, hlast⟩ := split_trailing c r hc
        refine ⟨[b], ?_⟩
        rw [e, ← List.append_assoc]
        refine .last hp ⟨hf, hlast, ?_⟩ hq
        intro hi; rw [e] at h
        obtain ⟨u, v, huv⟩ := hi
        exact h ⟨u, v ++ q, by rw [← huv]; simp⟩
      · cases x with
        | nil =>
          simp at h1
          rw [h1.1] at hc
          exact absurd hc (by decide)
        | cons c' x =>
          simp at h1
          obtain ⟨rfl, rfl⟩ := h1
          obtain ⟨b, q, e, hq, hf, hlast⟩ := split_trailing c x hc
          have hblock : Block b := by
            refine ⟨hf, hlast, ?_⟩
            rintro ⟨u, v, huv⟩
            exact h2 ⟨u, v ++ q ++ c!"\n", by rw [e, ← huv]; simp⟩
          have hsep : Blank (q ++ c!"\n\n") := by
            intro z hz
            rcases List.mem_append.1 hz with hz | hz
            · exact hq z hz
            · simp at hz; rw [hz]; decide
          by_cases hy : Blank y
          · refine ⟨[b], ?_⟩
            have : p ++ c :: (x ++ '\n' :: '\n' :: y) = p ++ b ++ ((q ++ c!"\n\n") ++ y) := by
              rw [← List.cons_append, e]; simp
            rw [this]
            refine .last hp hblock ?_
            intro z hz
            rcases List.mem_append.1 hz with hz | hz
            · exact hsep z hz
            · exact hy z hz
          · obtain ⟨bs, hbs⟩ := ih y (by simp at hl; omega) hy
            refine ⟨b :: bs, ?_⟩
            have : p ++ c :: (x ++ '\n' :: '\n' :: y) = p ++ b ++ (q ++ c!"\n\n") ++ y := by
              rw [← List.cons_append, e]; simp
            rw [this]
            exact .cons hp hblock hsep ⟨q, [], by simp⟩ hbs

end Bulloak
