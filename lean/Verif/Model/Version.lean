import Verif.Model.Wordlist

/-!
# `/repo/parameters.go` and `/repo/version.go`
-/

namespace Verif.Model

/-- parameters.go:21 -/
def mnemonicVersionLatest : Nat := 1
/-- parameters.go:24 -/
def eraLatest : Int := 0
/-- parameters.go:29 -/
def mnemonicVersionBitCount : Nat := 4
/-- parameters.go:32 -/
def creationOffsetBitCount : Nat := 31
/-- parameters.go:35 -/
def checksumBitCount : Nat := 5
/-- parameters.go:38 -/
def entropyBitCount : Nat := 128
/-- parameters.go:41 -/
def saltBitCount : Nat := 19
/-- parameters.go:44 -/
def encSeedVerifyBitCount : Nat := 5
/-- parameters.go:48 -/
def checksumMask : BitVec 32 := BitVec.ofNat 32 (2 ^ checksumBitCount - 1)
/-- parameters.go:49 -/
def encSeedVerifyMask : Byte := UInt8.ofNat (2 ^ encSeedVerifyBitCount - 1)

/-- version.go:30-35 Era.check -/
def eraCheck (era : Int) : Res Unit :=
  if era > eraLatest ∨ era < 0 then .err .invalidEra else .ok ()

/-- version.go:59-65 MnemonicVersion.Era -/
def versionEra (version : Nat) : Int :=
  match version with
  | 0 => 0
  | 1 => 0
  | _ => -1

/-- version.go:67-72 MnemonicVersion.check -/
def versionCheck (version : Nat) : Res Unit :=
  if version > mnemonicVersionLatest then .err .invalidVersion else .ok ()

/-- version.go:74-92 payloadBitCount -/
def payloadBitCount (version : Nat) : Nat :=
  match version with
  | 0 => mnemonicVersionBitCount + creationOffsetBitCount + checksumBitCount + entropyBitCount
  | 1 => mnemonicVersionBitCount + creationOffsetBitCount + checksumBitCount + entropyBitCount
          + saltBitCount + encSeedVerifyBitCount
  | _ => 0

/-- version.go:96-98 MnemonicSize -/
def mnemonicSize (version : Nat) : Nat := payloadBitCount version / bitsPerWord

/-- version.go:102-104 Encrypted -/
def versionEncrypted (version : Nat) : Bool := version == 1

end Verif.Model
