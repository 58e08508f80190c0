import Verif.Model.Mnemonikey
import Verif.ToyCrypto

/-!
# The published test vectors

Tests of the model, not proofs about it. /repo/mnemonikey_test.go fixes three fingerprints of the key
of one seed. The tables hold the values of the real primitives on the inputs that occur; they
come from `tools/vectors/primitives.py`. A model that hashes, expands or encodes anything else finds no entry.
-/

namespace Verif.Vectors

open Verif.Model Verif.Instances

def hexDigit (c : Char) : Nat := if c.toNat < 58 then c.toNat - 48 else c.toNat - 87

def unhexLoop : List Char → Bytes
  | a :: b :: rest => UInt8.ofNat (hexDigit a * 16 + hexDigit b) :: unhexLoop rest
  | _ => []

def unhex (s : String) : Bytes := unhexLoop s.toList

def pick (table : List (Bytes × Bytes)) (x : Bytes) : Bytes :=
  ((table.find? fun e => e.1 = x).map Prod.snd).getD []

/-- first 16 octets of math/rand with source 0, mnemonikey_test.go:67 -/
def source : Bytes := unhex "0194fdc2fa2ffcc041d3ff12045b73c8"
def root : Bytes := unhex "2063c35e99cc3e11434e34282f75ca4c8896c0f574e2ed52b08fa4f09cc81cd8"
def master : Bytes := unhex "a9ae6a63071cabf8110fd28dc00111e08b596f4079298168480e265690133de9"
def masterPub : Bytes := unhex "299cc1c08d413520fe00a3b8f013294d8f6ed49435f18aa077b2741057ff1032"
def enc0 : Bytes := unhex "a81f223ef4975d91b4046b8c7be9888c6b22b521547e27dcd5613eb7c421255f"
def enc0Pub : Bytes := unhex "b54246272011952ce574cea3369b72e0e97de211bea6576f8562bcfa3ca4373f"
def enc1 : Bytes := unhex "d263ed7de6ca2bc354802c4e13e68274fb23eab6066d29abf9244add1343695d"
def enc1Pub : Bytes := unhex "ca539ab3dd4e036afe4f400d98d1e3ff26b7a30457f93419db7485237fd4856d"

def masterBody : Bytes := unhex "9900330463c4294016092b06010401da470f01010740" ++ masterPub
def encBody (pub : Bytes) : Bytes :=
  unhex "9900380463c42940120a2b060104019755010501010740" ++ pub ++ unhex "03010807"

/-- The primitives on the inputs that occur. -/
def crypto : Crypto :=
  { toyCrypto with
    argon2id := fun p s t m th n =>
      if p = source ∧ s = unhex "63c42940" ∧ t = 4 ∧ m = 524288 ∧ th = 2 ∧ n = 32 then root else []
    hkdfExpand := fun k info n =>
      if k = root ∧ n = 32 then
        pick [(str "mnemonikey master key", master),
          (str "mnemonikey encryption subkey" ++ [0, 0], enc0),
          (str "mnemonikey encryption subkey" ++ [0, 1], enc1)] info
      else []
    ed25519Pub := pick [(master, masterPub)]
    x25519Base := pick [(enc0, enc0Pub), (enc1, enc1Pub)]
    sha1 := pick [(masterBody, unhex "149ee476771dbd4e19d1fb0fc1a9ce93575ca7fa"),
      (encBody enc0Pub, unhex "c41193904f9cae4d48e2849d14cf1f4a2d4b2a41"),
      (encBody enc1Pub, unhex "de6ea42e75b134ffd28e5c9ad2001406aece41ea")] }

/-- mnemonikey_test.go:67-84; only the subkey whose fingerprint is published -/
def key (index : UInt16) : Res Mnemonikey := do
  let (seed, _) ← generateSeed source
  new crypto seed (1673800000 * second)
    (some { name := str "username", email := str "user@domain.com", ttl := 0,
            encryptionSubkeyIndex := index, authenticationSubkeyIndex := 0, signingSubkeyIndex := 0,
            subkeys := some [subkeyTypeEncryption] })

def fingerprints (r : Res Mnemonikey) : Option (Bytes × Option Bytes) :=
  match r with
  | .ok k => some (k.fingerprint crypto, k.subkeyFingerprint crypto subkeyTypeEncryption)
  | _ => none

-- mnemonikey_test.go:73-74
set_option maxRecDepth 100000 in
example : fingerprints (key 0) = some (unhex "149ee476771dbd4e19d1fb0fc1a9ce93575ca7fa",
    some (unhex "c41193904f9cae4d48e2849d14cf1f4a2d4b2a41")) := by decide +kernel

-- mnemonikey_test.go:162
set_option maxRecDepth 100000 in
example : fingerprints (key 1) = some (unhex "149ee476771dbd4e19d1fb0fc1a9ce93575ca7fa",
    some (unhex "de6ea42e75b134ffd28e5c9ad2001406aece41ea")) := by decide +kernel

-- README.md:835
example : crc32 (str "hey") % 32 = 16 := by decide +kernel

end Verif.Vectors
