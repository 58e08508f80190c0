import Verif.Basic

/-!
# `hash/crc32.ChecksumIEEE`

Go's standard library function, modelled concretely: reflected CRC-32 with polynomial 0xEDB88320,
initial value and final XOR 0xFFFFFFFF. (Go uses tables; the bitwise definition is the textbook one.)
-/

namespace Verif.Model

/-- One bit of the reflected CRC register. -/
def crcBit (c : BitVec 32) : BitVec 32 :=
  if c.getLsbD 0 then (c >>> 1) ^^^ 0xEDB88320#32 else c >>> 1

/-- Eight register steps. -/
def crcStep8 (c : BitVec 32) : BitVec 32 :=
  crcBit (crcBit (crcBit (crcBit (crcBit (crcBit (crcBit (crcBit c)))))))

/-- Absorb one byte. -/
def crcByte (c : BitVec 32) (b : Byte) : BitVec 32 :=
  crcStep8 (c ^^^ BitVec.ofNat 32 b.toNat)

/-- `crc32.ChecksumIEEE(data)`. -/
def crc32 (data : Bytes) : BitVec 32 := ~~~ (data.foldl crcByte 0xFFFFFFFF#32)

end Verif.Model
