import Verif.Basic

/-! # The lines of a text, as a reader with a buffer of 65536 bytes finds them -/

namespace Verif.Spec

/-- A line without the carriage return at its end, if there is one -/
def LineText (l t : Bytes) : Prop := l = t ++ [0x0D] ∨ t = l ∧ ¬ [0x0D] <:+ l

/-- The lines of a text, up to the first one whose line feed is not among the 65536 bytes from its beginning. What is
behind the last line feed is a line too, unless there is nothing. -/
inductive LinesIn : Bytes → List Bytes → Prop where
  | none : LinesIn [] []
  | last {l t : Bytes} : l ≠ [] → 0x0A ∉ l → l.length < 65536 → LineText l t → LinesIn l [t]
  | next {l t rest : Bytes} {ls : List Bytes} : 0x0A ∉ l → l.length < 65536 → LineText l t → LinesIn rest ls →
    LinesIn (l ++ (0x0A :: rest)) (t :: ls)
  | long {l rest : Bytes} : 0x0A ∉ l → l.length = 65536 → LinesIn (l ++ rest) []

/-- What can be read before the end of the input, when it comes in pieces; an empty one is the end. -/
def beforeEnd (input : List Bytes) : Bytes := (input.takeWhile (· ≠ [])).flatten

/-- Lines as a terminal gives them, one at a time -/
def enteredLines (ls : List Bytes) : List Bytes := ls.map (· ++ [0x0A])

end Verif.Spec
