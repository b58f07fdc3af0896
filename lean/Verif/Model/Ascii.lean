import Verif.Model.Unicode
/-!
# An ASCII instance of the Unicode tables

Used to evaluate the model on concrete inputs; it also shows that the laws of `LawfulUcd` are
satisfiable.
-/

namespace Bulloak

/-- Lower case of `c` in the ASCII tables (with U+212A and U+0130). -/
def asciiLowerS (c : Char) : Str :=
  if c.toNat = 0x212A then ['k']
  else if c.toNat = 0x130 then ['i', Char.ofNat 0x307]
  else [asciiLower c]

/-- Tables that know ASCII, U+212A and U+0130 only; every other character is not alphanumeric, not an
identifier character and caseless. -/
@[reducible] def asciiUcd : Ucd where
  isAlnum := isAsciiAlnum
  isXid c := isAsciiAlnum c || c == '_'
  toUpper c := [asciiUpper c]
  toLower := asciiLowerS

theorem char_ofNat_toNat (c : Char) : Char.ofNat c.toNat = c := by
  simp [Char.ofNat_toNat]

theorem toNat_ofNat_of_lt {n : Nat} (h : n < 0xd800) : (Char.ofNat n).toNat = n := by
  have hv : n.isValidChar := Or.inl (by omega)
  simp [Char.ofNat, hv, Char.toNat, Char.ofNatAux]

theorem isAsciiAlnum_lt {c : Char} (h : isAsciiAlnum c = true) : c.toNat < 128 := by
  simp [isAsciiAlnum] at h
  omega

theorem isPlain_lt {c : Char} (h : isPlain c = true) : c.toNat ≠ 0x212A ∧ c.toNat ≠ 0x130 := by
  simp [isPlain] at h
  rcases h with (((h | h) | h) | h) | h
  · omega
  all_goals subst h; decide

theorem ascii_us {c : Char} (h : c.toNat ≠ 95) : (c == '_') = false := by
  simp only [beq_eq_false_iff_ne, ne_eq]
  intro h'; subst h'; exact h (by decide)

theorem ascii_ws_not_xid (c : Char) (h : isWs c = true) : (isAsciiAlnum c || c == '_') = false := by
  simp only [isWs, Bool.or_eq_true, Bool.and_eq_true, decide_eq_true_eq, beq_iff_eq] at h
  rw [ascii_us (by omega), Bool.or_false]
  simp only [isAsciiAlnum, Bool.or_eq_false_iff, Bool.and_eq_false_iff, decide_eq_false_iff_not]
  omega

theorem ascii_upper_xid (c : Char) (h : (isAsciiAlnum c || c == '_') = true) :
    (isAsciiAlnum (asciiUpper c) || asciiUpper c == '_') = true := by
  by_cases hc : 97 ≤ c.toNat ∧ c.toNat ≤ 122
  · have h4 : (asciiUpper c).toNat = c.toNat - 32 := by
      simp only [asciiUpper, hc.1, hc.2, decide_true, Bool.and_self, if_true]
      exact toNat_ofNat_of_lt (by omega)
    have : isAsciiAlnum (asciiUpper c) = true := by
      simp only [isAsciiAlnum, h4, Bool.or_eq_true, Bool.and_eq_true, decide_eq_true_eq]
      omega
    simp [this]
  · have h5 : asciiUpper c = c := by
      simp only [asciiUpper]
      rw [if_neg (by simpa using hc)]
    rw [h5]; exact h

theorem ascii_lower_xid (c : Char) (h : (isAsciiAlnum c || c == '_') = true) :
    (isAsciiAlnum (asciiLower c) || asciiLower c == '_') = true := by
  by_cases hc : 65 ≤ c.toNat ∧ c.toNat ≤ 90
  · have h4 : (asciiLower c).toNat = c.toNat + 32 := by
      simp only [asciiLower, hc.1, hc.2, decide_true, Bool.and_self, if_true]
      exact toNat_ofNat_of_lt (by omega)
    have : isAsciiAlnum (asciiLower c) = true := by
      simp only [isAsciiAlnum, h4, Bool.or_eq_true, Bool.and_eq_true, decide_eq_true_eq]
      omega
    simp [this]
  · have h5 : asciiLower c = c := by
      simp only [asciiLower]
      rw [if_neg (by simpa using hc)]
    rw [h5]; exact h

theorem ascii_lowerS_of_lt {c : Char} (h1 : c.toNat ≠ 0x212A) (h2 : c.toNat ≠ 0x130) :
    asciiLowerS c = [asciiLower c] := by
  simp [asciiLowerS, h1, h2]

theorem ascii_lower_ascii (c d : Char) (hd : d ∈ asciiLowerS c) (h : isAsciiAlnum d = true) :
    c.toNat < 128 ∨ c.toNat = 0x212A ∨ c.toNat = 0x130 := by
  by_cases h1 : c.toNat = 0x212A
  · exact Or.inr (Or.inl h1)
  by_cases h2 : c.toNat = 0x130
  · exact Or.inr (Or.inr h2)
  left
  simp only [ascii_lowerS_of_lt h1 h2, List.mem_cons, List.not_mem_nil, or_false] at hd
  subst hd
  by_cases hc : 65 ≤ c.toNat ∧ c.toNat ≤ 90
  · omega
  · have h5 : asciiLower c = c := by
      simp only [asciiLower]
      rw [if_neg (by simpa using hc)]
    rw [h5] at h; exact isAsciiAlnum_lt h

theorem lawful_ascii : @LawfulUcd asciiUcd := by
  refine @LawfulUcd.mk asciiUcd ?_ ?_ ?_ ?_ ?_ ?_ ?_ ?_ ?_ ?_ ?_ ?_ ?_
  · intro c _; rfl
  · intro c _; rfl
  · intro c _; rfl
  · intro c h
    exact ascii_lowerS_of_lt (isPlain_lt h).1 (isPlain_lt h).2
  · exact ascii_ws_not_xid
  · intro c h d hd
    rw [List.mem_singleton.1 hd]
    exact ascii_upper_xid c h
  · intro c h d hd
    have hlt : c.toNat < 128 := by
      rcases Bool.or_eq_true_iff.1 h with h | h
      · exact isAsciiAlnum_lt h
      · rw [beq_iff_eq.1 h]; decide
    have hd : d ∈ asciiLowerS c := hd
    rw [ascii_lowerS_of_lt (by omega) (by omega)] at hd
    rw [List.mem_singleton.1 hd]
    exact ascii_lower_xid c h
  · intro c; exact List.cons_ne_nil _ _
  · intro c
    show asciiLowerS c ≠ []
    unfold asciiLowerS
    repeat' split
    all_goals simp
  · intro c d hd hw
    have hc : d = asciiUpper c := List.mem_singleton.1 hd
    by_cases h : 97 ≤ c.toNat ∧ c.toNat ≤ 122
    · have h4 : (asciiUpper c).toNat = c.toNat - 32 := by
        simp only [asciiUpper, h.1, h.2, decide_true, Bool.and_self, if_true]
        exact toNat_ofNat_of_lt (by omega)
      rw [← hc] at h4
      simp only [isWs, Bool.or_eq_true, Bool.and_eq_true, decide_eq_true_eq, beq_iff_eq] at hw
      omega
    · rw [hc, asciiUpper, if_neg (by simpa using h)]
  · exact ascii_lower_ascii
  · decide
  · decide

end Bulloak
