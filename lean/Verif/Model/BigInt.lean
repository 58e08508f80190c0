import Verif.Basic
import Mathlib.Data.Int.Bitwise
import Mathlib.Data.Nat.Size

/-!
# `math/big` operations used by the code

`*big.Int` is `Int`. Go documents And/Or/Xor/Rsh on negative values as two's complement, which is
what Mathlib's `Int.land`, `Int.lor`, `Int.xor` and `>>>` compute. These are library functions
(trusted contract); they are defined here as ordinary total functions.
-/

namespace Verif.Model

/-- `(*big.Int).BitLen`: length of the absolute value in bits. -/
def bitLen (x : Int) : Nat := x.natAbs.size

/-- `(*big.Int).Lsh`. -/
def lsh (x : Int) (n : Nat) : Int := x <<< n

/-- `(*big.Int).Rsh` (arithmetic shift: rounds toward negative infinity). -/
def rsh (x : Int) (n : Nat) : Int := x >>> n

/-- `(*big.Int).Uint64`: the low 64 bits of the absolute value. -/
def uint64 (x : Int) : Nat := x.natAbs % 2 ^ 64

/-- Big-endian bytes of `v`, exactly `n` of them (`v` taken modulo `256^n`). -/
def beBytes : Nat → Nat → Bytes
  | 0, _ => []
  | n + 1, v => beBytes n (v / 256) ++ [UInt8.ofNat v]

/-- `new(big.Int).SetBytes(b)`: big-endian value. -/
def setBytes (b : Bytes) : Nat := b.foldl (fun a x => a * 256 + x.toNat) 0

/-- `x.FillBytes(make([]byte, n))`: the absolute value as `n` big-endian bytes; panics if it does
not fit. -/
def fillBytes (x : Int) (n : Nat) : Res Bytes :=
  if x.natAbs < 256 ^ n then .ok (beBytes n x.natAbs) else .panic .fillBytes

/-- `(*big.Int).Bytes`: minimal-length big-endian bytes of the absolute value. -/
def intBytes (x : Int) : Bytes := beBytes ((bitLen x + 7) / 8) x.natAbs

/-- `crypto/rand.Int(random, max)`; `fuel` bounds the number of rejected draws. Reads
`k = ceil(bitLen(max-1)/8)` bytes with io.ReadFull, masks the first byte, retries while the value
is not below `max`. Returns the number and the unread rest of the source. -/
def randIntLoop (max k b : Nat) : Nat → Bytes → Res (Nat × Bytes)
  | 0, _ => .err .randomRead
  | fuel + 1, rnd =>
    if rnd.length < k then .err .randomRead
    else
      let bytes := rnd.take k
      let masked := match bytes with
        | [] => []
        | x :: xs => (x &&& UInt8.ofNat (2 ^ b - 1)) :: xs
      let n := setBytes masked
      if n < max then .ok (n, rnd.drop k) else randIntLoop max k b fuel (rnd.drop k)

/-- `crypto/rand.Int` (Go standard library, crypto/rand/util.go). Every round consumes `k >= 1`
bytes, so `rnd.length + 1` rounds always suffice. -/
def randInt (rnd : Bytes) (max : Nat) : Res (Nat × Bytes) :=
  if max = 0 then .panic .nonPositiveMax
  else
    let bl := (max - 1).size
    if bl = 0 then .ok (0, rnd)
    else
      let b := if bl % 8 = 0 then 8 else bl % 8
      randIntLoop max ((bl + 7) / 8) b (rnd.length + 1) rnd

end Verif.Model
