import Verif.Model.Basic
/-!
# Characters and numbers

Independent of the model: what white space, letters, digits and decimal numbers are.
-/

namespace Bulloak.Spec
open Bulloak

/-- The characters with the property `White_Space` of the Unicode character database. -/
def whiteSpace : List Nat :=
  [0x09, 0x0A, 0x0B, 0x0C, 0x0D, 0x20, 0x85, 0xA0, 0x1680, 0x2000, 0x2001, 0x2002, 0x2003, 0x2004, 0x2005, 0x2006, 0x2007, 0x2008,
   0x2009, 0x200A, 0x2028, 0x2029, 0x202F, 0x205F, 0x3000]

/-- The character is white space. -/
def White (c : Char) : Prop := c.toNat ∈ whiteSpace

def bigLetters : Str := c!"ABCDEFGHIJKLMNOPQRSTUVWXYZ"
def smallLetters : Str := c!"abcdefghijklmnopqrstuvwxyz"
def digits : Str := c!"0123456789"

/-- `d` is `c` with small letters `A` to `Z`. -/
def Lowers (c d : Char) : Prop := (∃ i : Nat, bigLetters[i]? = some c ∧ smallLetters[i]? = some d) ∨ (c ∉ bigLetters ∧ d = c)

/-- `d` is `c` with big letters `a` to `z`. -/
def Raises (c d : Char) : Prop := (∃ i : Nat, smallLetters[i]? = some c ∧ bigLetters[i]? = some d) ∨ (c ∉ smallLetters ∧ d = c)

/-- `ds` is the number `n` in decimal digits, without leading zeros. -/
inductive Decimal : Nat → Str → Prop where
  | digit {n : Nat} {d : Char} : digits[n]? = some d → Decimal n [d]
  | more {n k : Nat} {ds : Str} {d : Char} : n ≠ 0 → Decimal n ds → digits[k]? = some d → Decimal (10 * n + k) (ds ++ [d])

/-- `t` is `s` without white space at its ends. -/
def Trims (s t : Str) : Prop :=
  ∃ p q, s = p ++ t ++ q ∧ (∀ c ∈ p, White c) ∧ (∀ c ∈ q, White c) ∧ (∀ c ∈ t.head?, ¬ White c) ∧ ∀ c ∈ t.getLast?, ¬ White c

end Bulloak.Spec
