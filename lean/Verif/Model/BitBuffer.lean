import Verif.Model.BigInt

/-!
# `/repo/bit_buffer.go`

The buffer's mutable `value *big.Int` is passed and returned by value. Conversions between Go
`int` and `uint` are not modelled (sizes are far below `2^63`).
-/

namespace Verif.Model

/-- bit_buffer.go:10-13 -/
structure BitBuffer where
  value : Int
  nBits : Nat
  deriving DecidableEq, Repr

namespace BitBuffer

/-- bit_buffer.go:15-24 newBitBuffer -/
def new (value : Int) (nBits : Nat) : Res BitBuffer :=
  if bitLen value > nBits then .panic .bitBufferWidth
  else .ok { value := value, nBits := nBits }

/-- bit_buffer.go:28-51 PopTrailingBits -/
def popTrailingBits (bb : BitBuffer) (n : Nat) : Res (Int × BitBuffer) :=
  if n > bb.nBits then .panic .bitBufferBounds
  else
    let mask := lsh 1 n - 1
    let bits := Int.land mask bb.value
    .ok (bits, { value := rsh bb.value n, nBits := bb.nBits - n })

/-- bit_buffer.go:55-80 PopLeadingBits -/
def popLeadingBits (bb : BitBuffer) (n : Nat) : Res (Int × BitBuffer) :=
  if n > bb.nBits then .panic .bitBufferBounds
  else
    let mask := lsh 1 n - 1
    let bits := Int.land mask (rsh bb.value (bb.nBits - n))
    let mask' := lsh bits (bb.nBits - n)
    .ok (bits, { value := Int.xor bb.value mask', nBits := bb.nBits - n })

/-- bit_buffer.go:83-95 AppendLeadingBits -/
def appendLeadingBits (bb : BitBuffer) (value : Int) (nBits : Nat) : Res BitBuffer :=
  if bitLen value > nBits then .panic .bitBufferWidth
  else
    let mask := lsh value bb.nBits
    .ok { value := Int.lor bb.value mask, nBits := bb.nBits + nBits }

/-- bit_buffer.go:98-110 AppendTrailingBits -/
def appendTrailingBits (bb : BitBuffer) (value : Int) (nBits : Nat) : Res BitBuffer :=
  if bitLen value > nBits then .panic .bitBufferWidth
  else .ok { value := Int.lor (lsh bb.value nBits) value, nBits := bb.nBits + nBits }

/-- bit_buffer.go:115-117 Bytes -/
def bytes (bb : BitBuffer) : Res Bytes := fillBytes bb.value ((bb.nBits + 7) / 8)

/-- bit_buffer.go:120-122 Int -/
def int (bb : BitBuffer) : Int := bb.value

/-- bit_buffer.go:125-127 BitLen -/
def bitLength (bb : BitBuffer) : Nat := bb.nBits

end BitBuffer

end Verif.Model
