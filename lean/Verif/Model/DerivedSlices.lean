import Verif.Model.Mnemonikey
import Verif.Model.Pgp.Slices

/-!
# Storage of byte slices in `/repo/derive.go`

Like `Verif.Model.Pgp.Slices`. Simplified: the salt of Argon2 and `seed.Bytes()` are read once, right
after they are made, so that the root key is computed by value before it gets its array.
-/

namespace Verif.Model.Slices

open Verif.Model Verif.Model.Pgp

/-- derive.go:29-35 keyExpandInfoSubkey -/
def expandInfo (subkeyType : Bytes) (index : UInt16) : SM Slice := do
  let keyInfoPrefix := str "mnemonikey " ++ subkeyType ++ str " subkey"
  let info ← make (keyInfoPrefix.length + 2)
  put info 0 keyInfoPrefix
  put info keyInfoPrefix.length (beBytes 2 index.toNat)
  pure info

/-- derive.go:38-45 hkdfExpand -/
def hkdfExpand (C : Crypto) (rootKey : Slice) (size : Nat) (info : Slice) : SM Slice := do
  let keyOutput ← make size
  let root ← read rootKey
  let i ← read info
  put keyOutput 0 (C.hkdfExpand root i size)
  pure keyOutput

/-- derive.go:97-107 and 109-119: a subkey for authentication or signing, if it is wanted -/
def deriveEd (C : Crypto) (rootKey : Slice) (opts : KeyOptions) (subkeyType : Bytes) (index : UInt16)
    (creation expiry : Int) : SM (Option EdKeyRef) :=
  if opts.subkeyEnabled subkeyType then do
    let info ← expandInfo subkeyType index
    let seed ← hkdfExpand C rootKey 32 info
    let k ← newEdKey C seed creation expiry
    pure (some k)
  else pure none

/-- derive.go:85-95: the encryption subkey, if it is wanted -/
def deriveCurve (C : Crypto) (G : Growth) (rootKey : Slice) (opts : KeyOptions) (creation expiry : Int) :
    SM (Option CurveKeyRef) :=
  if opts.subkeyEnabled subkeyTypeEncryption then do
    let info ← expandInfo subkeyTypeEncryption opts.encryptionSubkeyIndex
    let seed ← hkdfExpand C rootKey 32 info
    let k ← newCurveKey C G seed creation expiry none
    pure (some k)
  else pure none

/-- derive.go:56-122 derivePGPKeySet -/
def derivePGPKeySet (C : Crypto) (G : Growth) (seed : Seed) (creation : Int) (opts : KeyOptions) :
    SM KeySetRef := do
  let expiry := expiryOf creation opts.ttl
  let root ← pureRes (rootKey C seed creation)
  let root ← alloc root 0
  let info ← fresh G keyExpandInfoMaster
  let masterKeySeed ← hkdfExpand C root 32 info
  let masterKey ← newEdKey C masterKeySeed creation expiry
  let encryption ← deriveCurve C G root opts creation expiry
  let authentication ← deriveEd C root opts subkeyTypeAuthentication opts.authenticationSubkeyIndex
    creation expiry
  let signing ← deriveEd C root opts subkeyTypeSigning opts.signingSubkeyIndex creation expiry
  pure { userID := { name := opts.name, email := opts.email }
         masterKey := masterKey
         encryptionSubkey := encryption
         authenticationSubkey := authentication
         signingSubkey := signing }

end Verif.Model.Slices
