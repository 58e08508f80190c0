import Verif.Basic

/-! # Bit strings (big-endian lists of bits) -/

namespace Verif.Spec

/-- The `n`-bit big-endian representation of `v` (modulo `2^n`). -/
def bits : Nat → Nat → List Bool
  | 0, _ => []
  | n + 1, v => bits n (v / 2) ++ [v % 2 == 1]

/-- The value of a big-endian bit string. -/
def val (l : List Bool) : Nat := l.foldl (fun a b => 2 * a + b.toNat) 0

/-- Cut into consecutive groups of `k` bits, `n` groups. -/
def groups (k : Nat) : Nat → List Bool → List (List Bool)
  | 0, _ => []
  | n + 1, l => l.take k :: groups k n (l.drop k)

/-- Big-endian bytes of a bit string; zero bits are added in front to fill the first byte. -/
def toBytes (l : List Bool) : Bytes :=
  let n := (l.length + 7) / 8
  (groups 8 n (List.replicate (8 * n - l.length) false ++ l)).map (fun g => UInt8.ofNat (val g))

end Verif.Spec
