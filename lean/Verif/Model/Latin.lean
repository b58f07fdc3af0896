import Verif.Model.Ascii
/-!
# An instance of the Unicode tables with one accented letter

As `asciiUcd`, but knows the letters `é` and `É`; used to exhibit behaviour on non-ASCII identifiers.
-/

namespace Bulloak

/-- Letters and digits: ASCII and `é` / `É`. -/
def latinAlnum (c : Char) : Bool := isAsciiAlnum c || c == 'é' || c == 'É'

/-- Identifier characters: letters, digits and `_`. -/
def latinXid (c : Char) : Bool := isAsciiAlnum c || c == '_' || c == 'é' || c == 'É'

/-- Upper case. -/
def latinUpper (c : Char) : Str := if c = 'é' then ['É'] else [asciiUpper c]

/-- Lower case. -/
def latinLower (c : Char) : Str := if c = 'É' then ['é'] else asciiLowerS c

/-- ASCII plus `é` / `É`. -/
@[reducible] def latinUcd : Ucd where
  isAlnum := latinAlnum
  isXid := latinXid
  toUpper := latinUpper
  toLower := latinLower

theorem latin_not_plain {c : Char} (h : isPlain c = true) : c ≠ 'é' ∧ c ≠ 'É' := by
  constructor <;> (rintro rfl; exact absurd h (by decide))

theorem latin_ws (c : Char) (h : isWs c = true) : latinXid c = false := by
  have h1 := ascii_ws_not_xid c h
  have h2 : (c == 'é') = false := by
    rw [beq_eq_false_iff_ne]; rintro rfl; exact absurd h (by decide)
  have h3 : (c == 'É') = false := by
    rw [beq_eq_false_iff_ne]; rintro rfl; exact absurd h (by decide)
  rw [latinXid, h1, h2, h3]; rfl

theorem latin_upper_xid (c : Char) (h : latinXid c = true) (d : Char) (hd : d ∈ latinUpper c) : latinXid d = true := by
  unfold latinUpper at hd
  split at hd
  · rw [List.mem_singleton.1 hd]; decide
  · rw [List.mem_singleton.1 hd]
    rename_i h1
    by_cases h2 : c = 'É'
    · subst h2; decide
    · have h3 : (isAsciiAlnum c || c == '_') = true := by simpa [latinXid, h1, h2] using h
      rw [latinXid, ascii_upper_xid c h3]; rfl

theorem latin_lower_xid (c : Char) (h : latinXid c = true) (d : Char) (hd : d ∈ latinLower c) : latinXid d = true := by
  unfold latinLower at hd
  split at hd
  · rw [List.mem_singleton.1 hd]; decide
  · rename_i h1
    by_cases h2 : c = 'é'
    · subst h2
      have : asciiLowerS 'é' = ['é'] := by decide
      rw [this, List.mem_singleton] at hd
      subst hd; decide
    · have h3 : (isAsciiAlnum c || c == '_') = true := by simpa [latinXid, h1, h2] using h
      have h4 : (isAsciiAlnum d || d == '_') = true := lawful_ascii.lower_xid c h3 d hd
      rw [latinXid, h4]; rfl

theorem lawful_latin : @LawfulUcd latinUcd := by
  refine @LawfulUcd.mk latinUcd ?_ ?_ ?_ ?_ latin_ws latin_upper_xid latin_lower_xid ?_ ?_ ?_ ?_ ?_ ?_
  · intro c h
    show latinAlnum c = isAsciiAlnum c
    rw [latinAlnum, beq_eq_false_iff_ne.2 (latin_not_plain h).1, beq_eq_false_iff_ne.2 (latin_not_plain h).2, Bool.or_false, Bool.or_false]
  · intro c h
    show latinXid c = _
    rw [latinXid, beq_eq_false_iff_ne.2 (latin_not_plain h).1, beq_eq_false_iff_ne.2 (latin_not_plain h).2, Bool.or_false, Bool.or_false]
  · intro c h
    show latinUpper c = _
    simp [latinUpper, (latin_not_plain h).1]
  · intro c h
    show latinLower c = _
    rw [latinLower, if_neg (latin_not_plain h).2]
    exact ascii_lowerS_of_lt (isPlain_lt h).1 (isPlain_lt h).2
  · intro c
    show latinUpper c ≠ []
    unfold latinUpper; split <;> simp
  · intro c
    show latinLower c ≠ []
    unfold latinLower
    split
    · simp
    · exact lawful_ascii.lower_ne c
  · intro c d hc hw
    have hc : d ∈ latinUpper c := hc
    unfold latinUpper at hc
    split at hc
    · rw [List.mem_singleton.1 hc] at hw; exact absurd hw (by decide)
    · exact lawful_ascii.upper_ws c d hc hw
  · intro c d hd h
    have hd : d ∈ latinLower c := hd
    unfold latinLower at hd
    split at hd
    · rw [List.mem_singleton.1 hd] at h; exact absurd h (by decide)
    · exact ascii_lower_ascii c d hd h
  · decide
  · decide

end Bulloak
