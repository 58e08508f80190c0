import Verif.Spec.Bits

/-!
# CRC-32 as polynomial division, bit by bit

Textbook definition, independent of `Model/Crc32.lean`: a 32-bit shift register written as a list of
bits, highest power of `x` first. Message bytes enter with their least significant bit first; the
register starts with ones; the result is complemented and bit-reversed.
-/

namespace Verif.Spec

/-- x^32 + x^26 + x^23 + x^22 + x^16 + x^12 + x^11 + x^10 + x^8 + x^7 + x^5 + x^4 + x^2 + x + 1,
without the leading term. -/
def crcPoly : List Bool :=
  (List.range 32).map (fun i => decide (31 - i ∈ [26, 23, 22, 16, 12, 11, 10, 8, 7, 5, 4, 2, 1, 0]))

/-- Shift one message bit into the register. -/
def crcShift (reg : List Bool) (b : Bool) : List Bool :=
  let shifted := reg.tail ++ [false]
  if reg.headD false ^^ b then List.zipWith (· ^^ ·) shifted crcPoly else shifted

/-- CRC-32 of a byte string. -/
def crc32 (data : Bytes) : Nat :=
  let message := data.flatMap (fun x => (bits 8 x.toNat).reverse)
  val ((message.foldl crcShift (List.replicate 32 true)).map not).reverse

end Verif.Spec
