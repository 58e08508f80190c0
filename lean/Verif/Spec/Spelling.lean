import Verif.Spec.Phrase

/-!
# How a word can be written

The words of the list are in lower-case ASCII.
-/

namespace Verif.Spec

/-- `Spells t w`: the bytes `t` (UTF-8) are a way to write the word `w`: letter by letter, in upper or lower case, or
with the Kelvin sign (U+212A) for a k or the capital I with a dot above (U+0130) for an i. -/
inductive Spells : Bytes → Bytes → Prop
  | nil : Spells [] []
  | letter {a b : Byte} {t w : Bytes} : sameLetter a b → Spells t w → Spells (a :: t) (b :: w)
  | kelvin {t w : Bytes} : Spells t w → Spells (0xE2 :: 0x84 :: 0xAA :: t) (0x6B :: w)
  | dotted {t w : Bytes} : Spells t w → Spells (0xC4 :: 0xB0 :: t) (0x69 :: w)

end Verif.Spec
