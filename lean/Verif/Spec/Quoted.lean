import Verif.Spec.Request

/-!
# Texts in quotes

As in string literals of Go (the specification of the language, "String literals"). Independent of the model.
-/

namespace Verif.Spec

/-- Characters that a terminal does not show but obeys -/
def Control (c : Nat) : Prop := c < 0x20 ∨ 0x7F ≤ c ∧ c < 0xA0

/-- Unicode scalar values -/
def Scalar (c : Nat) : Prop := c < 0xD800 ∨ 0xE000 ≤ c ∧ c < 0x110000

/-- `n` hexadecimal digits -/
def hexText : Nat → Nat → Bytes
  | 0, _ => []
  | n + 1, x => hexText n (x / 16) ++ [(str "0123456789abcdef").getD (x % 16) 0]

/-- The letters after a backslash, and the bytes they stand for -/
def escapes : List (Byte × Byte) :=
  [(0x22, 0x22), (0x5C, 0x5C), (0x61, 0x07), (0x62, 0x08), (0x66, 0x0C), (0x6E, 0x0A), (0x72, 0x0D), (0x74, 0x09),
   (0x76, 0x0B)]

/-- A piece of a text in quotes, and the bytes it stands for -/
inductive Piece : Bytes → Bytes → Prop where
  | char {c : Nat} : Scalar c → ¬ Control c → c ≠ 0x22 → c ≠ 0x5C → Piece (utf8 c) (utf8 c)
  | escape {letter b : Byte} : (letter, b) ∈ escapes → Piece [0x5C, letter] [b]
  | byte (b : Byte) : Piece (str "\\x" ++ hexText 2 b.toNat) [b]
  | short {c : Nat} : Scalar c → c < 0x10000 → Piece (str "\\u" ++ hexText 4 c) (utf8 c)
  | long {c : Nat} : Scalar c → Piece (str "\\U" ++ hexText 8 c) (utf8 c)

/-- A sequence of pieces, and the bytes it stands for -/
inductive Pieces : Bytes → Bytes → Prop where
  | nil : Pieces [] []
  | cons {a x b y : Bytes} : Piece a x → Pieces b y → Pieces (a ++ b) (x ++ y)

/-- A text in quotes, and the bytes it stands for -/
inductive Quoted : Bytes → Bytes → Prop where
  | intro {t s : Bytes} : Pieces t s → Quoted (str "\"" ++ t ++ str "\"") s

/-- A text that a terminal shows without obeying anything: it is made of characters, and none of them is a control
character. -/
def Harmless (t : Bytes) : Prop := ∃ cs : List Nat, (∀ c ∈ cs, Scalar c ∧ ¬ Control c) ∧ t = cs.flatMap utf8

/-- What is assumed of Go's strconv.IsPrint -/
structure PrintLawful (isPrint : Nat → Bool) : Prop where
  shown : ∀ c, isPrint c = true → ¬ Control c
  ascii : ∀ c, 0x20 ≤ c → c < 0x7F → isPrint c = true

end Verif.Spec
