import Verif.Model.BigInt
import Verif.Model.Version

/-!
# `/repo/seed.go`
-/

namespace Verif.Model

/-- seed.go:18-21; `era` is also what Era returns (seed.go:49-51). -/
structure Seed where
  era : Int
  value : Int
  deriving DecidableEq, Repr

/-- seed.go:28-46 NewSeed (sharing of the argument's storage: `Model/Heap.lean`) -/
def newSeed (era : Int) (entropy : Int) : Res Seed := do
  eraCheck era
  if bitLen entropy > entropyBitCount then .err .entropyTooLarge
  else .ok { era := era, value := entropy }

/-- seed.go:54-56 Int -/
def Seed.int (s : Seed) : Int := s.value

/-- seed.go:59-61 Bytes -/
def Seed.bytes (s : Seed) : Res Bytes := fillBytes s.value ((entropyBitCount + 7) / 8)

/-- seed.go:66-77 GenerateSeed; also returns the unread rest of the random source. -/
def generateSeed (rnd : Bytes) : Res (Seed × Bytes) := do
  let (n, rest) ← randInt rnd (2 ^ entropyBitCount)
  let s ← newSeed eraLatest (n : Int)
  .ok (s, rest)

end Verif.Model
