import Verif.Spec.Layout
import Verif.Spec.Recase
/-! # Specification: exchanging the words that open conditions -/

namespace Bulloak.Spec
open Bulloak

/-- `Exchanged K after l l'`: the same glyphs and words, except that words opening conditions may be replaced as `K` allows. The glyphs are in the same columns; `after` tells whether
a word would be the first one behind a glyph. -/
inductive Exchanged (K : Str → Str → Prop) : Bool → List Seen → List Seen → Prop where
  | nil {a} : Exchanged K a [] []
  | glyph {a f p c l l'} : p.isBranch = true → Exchanged K true l l' → Exchanged K a (⟨f, p, c⟩ :: l) (⟨f, p, c⟩ :: l')
  | word {a f w c c' l l'} : (a = true → ¬ IsConditionWord w) → Exchanged K false l l' → Exchanged K a (⟨f, .word w, c⟩ :: l) (⟨f, .word w, c'⟩ :: l')
  | opener {f w w' c c' l l'} : IsConditionWord w → IsConditionWord w' → K w w' → Exchanged K false l l' →
      Exchanged K true (⟨f, .word w, c⟩ :: l) (⟨f, .word w', c'⟩ :: l')

/-- Two trees that differ only in the words that open their conditions. -/
def ExchangedText (K : Str → Str → Prop) (b b' : Str) : Prop :=
  ∃ ps ps', Lexes b ps ∧ Lexes b' ps' ∧ Exchanged K false (reading [] true ps) (reading [] true ps')

/-- Any exchange, each time one likes. -/
def AnyOpener (_ _ : Str) : Prop := True

/-- Always `k` in the first tree and always `k'` in the second. -/
def Always (k k' : Str) (w w' : Str) : Prop := w = k ∧ w' = k'

/-- The second name is the first one with the word for opening conditions that follows `pre` replaced as `K` allows. In names, the first letter of the word may be small or capital. -/
def OpenerChanged (K : Str → Str → Prop) (pre n n' : Str) : Prop :=
  ∃ v v' w w' b, IsConditionWord v ∧ IsConditionWord v' ∧ K v v' ∧ FirstLetter v w ∧ FirstLetter v' w' ∧ n = pre ++ w ++ b ∧ n' = pre ++ w' ++ b

/-- The functions differ at most in their places and in such words: at the start of a modifier's name, behind `test_` or `test_Revert` in a test's name, and at the start of the names of
the modifiers a test has. -/
structure OpenersOnly (K : Str → Str → Prop) (f f' : HFn) : Prop where
  ty : f'.ty = f.ty
  children : f'.children = f.children
  modifier : f.ty = .modifier → OpenerChanged K [] f.identifier f'.identifier
  test : f.ty = .function → f'.identifier = f.identifier ∨ OpenerChanged K c!"test_" f.identifier f'.identifier ∨ OpenerChanged K c!"test_Revert" f.identifier f'.identifier
  modifiers : Each (OpenerChanged K []) (f.modifiers.getD []) (f'.modifiers.getD [])

end Bulloak.Spec
