import Verif.Spec.Chars
import Verif.Lemmas.Split
import Verif.Lemmas.Hir
/-!
# Characters and numbers (C121)

The specifications use white space, ASCII letters, trimming, joining and decimal numbers through the functions of the model; here these
functions are related to definitions that do not depend on the model.
-/

namespace Bulloak
open Spec

/-- **C121.** White space is what has the property `White_Space` in Unicode, no more and no less. -/
theorem C121_white_space (c : Char) : isWs c = true ↔ White c := by
  simp only [isWs, White, whiteSpace, Bool.or_eq_true, Bool.and_eq_true, decide_eq_true_eq, beq_iff_eq, List.mem_cons, List.not_mem_nil,
    or_false]
  omega

private theorem ascii_all {p : Char → Prop} (h : ∀ n < 128, p (Char.ofNat n)) {c : Char} (hc : c.toNat < 128) : p c := by
  have := h c.toNat hc
  rwa [Char.ofNat_toNat] at this

private theorem letters_small : ∀ d ∈ bigLetters ++ smallLetters ++ digits, d.toNat < 128 := by decide

private theorem not_ascii {c : Char} (hc : ¬ c.toNat < 128) : c ∉ bigLetters ∧ c ∉ smallLetters ∧ c ∉ digits := by
  refine ⟨fun h => hc (letters_small c ?_), fun h => hc (letters_small c ?_), fun h => hc (letters_small c ?_)⟩ <;> simp [h]

private instance (c d : Char) : Decidable (Lowers c d) :=
  decidable_of_iff ((∃ i < 26, bigLetters[i]? = some c ∧ smallLetters[i]? = some d) ∨ (c ∉ bigLetters ∧ d = c)) <| by
    unfold Lowers
    refine or_congr_left ⟨fun ⟨i, _, h⟩ => ⟨i, h⟩, fun ⟨i, h⟩ => ⟨i, ?_, h⟩⟩
    exact (List.getElem?_eq_some_iff.1 h.1).1

private instance (c d : Char) : Decidable (Raises c d) :=
  decidable_of_iff ((∃ i < 26, smallLetters[i]? = some c ∧ bigLetters[i]? = some d) ∨ (c ∉ smallLetters ∧ d = c)) <| by
    unfold Raises
    refine or_congr_left ⟨fun ⟨i, _, h⟩ => ⟨i, h⟩, fun ⟨i, h⟩ => ⟨i, ?_, h⟩⟩
    exact (List.getElem?_eq_some_iff.1 h.1).1

/-- **C121.** Ignoring the case of ASCII letters means: the letters `A` to `Z` are replaced by `a` to `z`, other characters stay; and the other
way round for capitals. -/
theorem C121_case (c : Char) : Lowers c (asciiLower c) ∧ Raises c (asciiUpper c) := by
  by_cases hc : c.toNat < 128
  · exact ascii_all (p := fun c => Lowers c (asciiLower c) ∧ Raises c (asciiUpper c)) (by decide +kernel) hc
  · obtain ⟨h1, h2, _⟩ := not_ascii hc
    refine ⟨Or.inr ⟨h1, ?_⟩, Or.inr ⟨h2, ?_⟩⟩
    · unfold asciiLower
      rw [if_neg]
      simp only [Bool.and_eq_true, decide_eq_true_eq]; omega
    · unfold asciiUpper
      rw [if_neg]
      simp only [Bool.and_eq_true, decide_eq_true_eq]; omega

/-- **C121.** ASCII letters and digits. -/
theorem C121_alnum (c : Char) : isAsciiAlnum c = true ↔ c ∈ bigLetters ∨ c ∈ smallLetters ∨ c ∈ digits := by
  by_cases hc : c.toNat < 128
  · exact ascii_all (p := fun c => isAsciiAlnum c = true ↔ c ∈ bigLetters ∨ c ∈ smallLetters ∨ c ∈ digits) (by decide +kernel) hc
  · obtain ⟨h1, h2, h3⟩ := not_ascii hc
    simp only [isAsciiAlnum, h1, h2, h3, or_false, iff_false, Bool.or_eq_true, Bool.and_eq_true, decide_eq_true_eq]
    omega

private theorem dropWhile_white (s : Str) : ∃ p, s = p ++ s.dropWhile isWs ∧ (∀ c ∈ p, White c) ∧
    ∀ c ∈ (s.dropWhile isWs).head?, ¬ White c := by
  induction s with
  | nil => exact ⟨[], rfl, by simp, by simp⟩
  | cons d s ih =>
    by_cases hd : isWs d = true
    · obtain ⟨p, h1, h2, h3⟩ := ih
      refine ⟨d :: p, ?_, ?_, ?_⟩
      · rw [List.dropWhile_cons_of_pos hd, List.cons_append, ← h1]
      · intro c hc
        rcases List.mem_cons.1 hc with rfl | hc
        · exact (C121_white_space c).1 hd
        · exact h2 c hc
      · rw [List.dropWhile_cons_of_pos hd]; exact h3
    · refine ⟨[], ?_, by simp, ?_⟩
      · rw [List.dropWhile_cons_of_neg hd]; rfl
      · rw [List.dropWhile_cons_of_neg hd]
        intro c hc
        simp only [List.head?_cons, Option.mem_def, Option.some.injEq] at hc
        subst hc
        exact fun h => hd ((C121_white_space _).2 h)

private theorem all_dropped {s : Str} (h : ∀ c ∈ s, isWs c = true) : s.dropWhile isWs = [] := by
  induction s with
  | nil => rfl
  | cons c s ih =>
    rw [List.dropWhile_cons_of_pos (h c (by simp))]
    exact ih fun d hd => h d (by simp [hd])

/-- **C121.** Trimming removes exactly the white space at both ends. -/
theorem C121_trim (s : Str) : Trims s (trim s) ∧ ∀ t, Trims s t → t = trim s := by
  have hT : Trims s (trim s) := by
    obtain ⟨p, h1, h2, h3⟩ := dropWhile_white s
    obtain ⟨q, h4, h5, h6⟩ := dropWhile_white (s.dropWhile isWs).reverse
    have e : s.dropWhile isWs = trim s ++ q.reverse := by
      unfold trim trimEnd trimStart
      rw [← List.reverse_append, ← h4, List.reverse_reverse]
    refine ⟨p, q.reverse, by rw [List.append_assoc, ← e]; exact h1, h2, by simpa using h5, ?_, ?_⟩
    · intro c hc
      apply h3 c
      rw [e]
      cases ht : trim s with
      | nil => rw [ht] at hc; simp at hc
      | cons x r => rw [ht] at hc; simpa using hc
    · intro c hc
      apply h6 c
      unfold trim trimEnd trimStart at hc
      simpa [List.getLast?_reverse] using hc
  refine ⟨hT, ?_⟩
  rintro t ⟨p, q, rfl, hp, hq, hh, hl⟩
  have hb : ∀ r : Str, (∀ c ∈ r, White c) → Blank r := fun r h c hc => (C121_white_space c).2 (h c hc)
  unfold trim trimEnd trimStart
  cases t with
  | nil =>
    have hall : ∀ c ∈ p ++ q, isWs c = true := by
      intro c hc
      rcases List.mem_append.1 hc with h | h
      · exact hb p hp c h
      · exact hb q hq c h
    have : (p ++ ([] : Str) ++ q).dropWhile isWs = [] := by
      rw [List.append_nil]; exact all_dropped hall
    rw [this]; rfl
  | cons x r =>
    have hx : ¬ isWs x = true := fun h => hh x (by simp) ((C121_white_space x).1 h)
    rw [List.append_assoc, dropWhile_blank (hb p hp), List.cons_append, List.dropWhile_cons_of_neg hx, ← List.cons_append, List.reverse_append,
      dropWhile_blank (fun c hc => hb q hq c (List.mem_reverse.1 hc))]
    cases hr : (x :: r).reverse with
    | nil => simp at hr
    | cons y r' =>
      have hlast : (x :: r).getLast? = some y := by rw [← List.head?_reverse, hr]; rfl
      have hy : ¬ isWs y = true := fun h => hl y (by rw [hlast]; rfl) ((C121_white_space y).1 h)
      rw [List.dropWhile_cons_of_neg hy, ← hr, List.reverse_reverse]

private theorem digit_char : ∀ k < 10, digits[k]? = some (Nat.digitChar k) := by decide

/-- **C121.** Numbers are shown in decimal digits without leading zeros. -/
theorem C121_number (n : Nat) : Decimal n (natToStr n) := by
  induction n using Nat.strongRecOn with
  | ind n ih =>
    unfold natToStr at ih ⊢
    by_cases h : n < 10
    · rw [Nat.toDigits_of_lt_base h]
      exact .digit (digit_char n h)
    · rw [Nat.toDigits_of_base_le (by omega) (by omega)]
      have := Decimal.more (k := n % 10) (by omega) (ih (n / 10) (by omega)) (digit_char (n % 10) (Nat.mod_lt _ (by omega)))
      rwa [Nat.div_add_mod] at this

/-- **C121.** Joining puts the separator between the parts, and only there. -/
theorem C121_join (sep : Str) (parts : List Str) : joinSep sep parts = sep.intercalate parts := by
  induction parts with
  | nil => rfl
  | cons x xs ih =>
    cases xs with
    | nil => simp [joinSep, List.intercalate]
    | cons y ys =>
      simp only [joinSep, ih]
      simp [List.intercalate]

/-- **C121.** Lengths in bytes are those of the UTF-8 encoding. -/
theorem C121_bytes (s : Str) : byteLen s = (String.ofList s).utf8ByteSize := by
  have key : ∀ s : Str, s.utf8Encode.size = byteLen s := by
    intro s
    induction s with
    | nil => rfl
    | cons c s ih =>
      rw [List.utf8Encode_cons, ByteArray.size_append, ih]
      simp [byteLen, List.utf8Encode]
  rw [← key s]
  rfl

/-- **C121.** The name made from a text is its words one after another, each with its first character in upper case; for conditions the first
character of the whole is in lower case. -/
theorem C121_name [U : Ucd] (s : Str) (ws : List Str) (h : Words s ws) :
    toPascal s = glue ws ∧ (∀ c r, toPascal s = c :: r → lowerFirst (toPascal s) = U.toLower c ++ r) := by
  refine ⟨?_, fun c r hr => by rw [hr]; rfl⟩
  rw [← words_iff.1 h]
  exact toPascal_eq s

/-- Beside C121: a no-break space and an ideographic space are white space, a zero-width space is not; letters keep their place in the alphabet;
white space inside a text stays; and numbers, joined parts and bytes. -/
example : White '\u00a0' ∧ White '\u3000' ∧ ¬ White '\u200b' ∧ asciiLower 'Q' = 'q' ∧ asciiLower 'É' = 'É' ∧ asciiUpper 'q' = 'Q' ∧
    trim c!"\t the owner\u3000\n" = c!"the owner" ∧ natToStr 1024 = c!"1024" ∧ joinSep c!", " [c!"a", c!"b", c!"c"] = c!"a, b, c" ∧
    byteLen c!"├── é" = 12 := by
  refine ⟨by unfold White; decide, by unfold White; decide, by unfold White; decide, ?_⟩
  decide +kernel

end Bulloak
