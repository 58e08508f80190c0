import Verif.Model.Mnemonikey
import Verif.Model.Crc32
import Verif.Proofs.Armor
import Verif.Spec.Use

/-! Runs the model with real primitives (primitives.py). Started by run.py; not part of the proofs. -/

open Verif Verif.Model

def hexDigit (n : UInt8) : Char := if n < 10 then Char.ofNat (48 + n.toNat) else Char.ofNat (87 + n.toNat)
def hexOf (b : Bytes) : String :=
  b.foldl (fun (s : String) (x : UInt8) => (s.push (hexDigit (x >>> 4))).push (hexDigit (x &&& 15))) ""
def unhexDigit (c : Char) : UInt8 :=
  UInt8.ofNat (if c.toNat < 58 then c.toNat - 48 else c.toNat - 87)
def unhexL : List Char → Bytes
  | a :: b :: rest => (unhexDigit a * 16 + unhexDigit b) :: unhexL rest
  | _ => []
def unhex (s : String) : Bytes := unhexL s.toList

unsafe def oracleIO (name : String) (args : List Bytes) : IO Bytes := do
  let dir := (← IO.getEnv "VECDIR").getD "/tmp"
  let tool := (← IO.getEnv "PRIMITIVES").getD ""
  IO.FS.writeFile (dir ++ "/args") (String.intercalate "\n" (args.map hexOf) ++ "\n")
  let out ← IO.Process.run { cmd := "python3", args := #[tool, name, dir ++ "/args"] }
  return unhex out.trimAscii.toString
unsafe def oracleUnsafe (name : String) (args : List Bytes) : Bytes :=
  match unsafeIO (oracleIO name args) with
  | .ok b => b
  | .error _ => []
@[implemented_by oracleUnsafe] def oracle (_ : String) (_ : List Bytes) : Bytes := []

def realDh (s p : Bytes) : Bytes := oracle "x25519" [s, p]

def n4 (n : Nat) : Bytes := beBytes 4 n

def real : Crypto where
  argon2id p s t m th n := oracle "argon2id" [p, s, n4 t, n4 m, n4 th, n4 n]
  aesEnc k b := oracle "aesEnc" [k, b]
  aesDec k b := oracle "aesDec" [k, b]
  hkdfExpand k i n := oracle "hkdf" [k, i, n4 n]
  ed25519Pub s := oracle "ed25519pub" [s]
  ed25519Sign k m := oracle "ed25519sign" [k, m]
  ed25519Verify _ _ _ := true
  x25519Base s := oracle "x25519base" [s]
  sha1 m := oracle "sha1" [m]
  sha256 m := oracle "sha256" [m]
  sha384 m := oracle "sha384" [m]
  sha512 m := oracle "sha512" [m]
  aes256Enc k b := oracle "aesEnc" [k, b]
  shuffleDraw _ i := i / 2
  secondsU32 d := (d / 1000000000).toNat

/-- Stand-in for the word list: the decimal index in letters. -/
def letters (i : Nat) : Bytes := (Nat.toDigits 10 i).map fun c => UInt8.ofNat (c.toNat + 49)
def words : WordList where
  word := letters
  lookup w := (List.range 4096).find? (fun i => letters i = w)
  toLower w := w
  suffixes _ := []
  exactMatch _ := false

def orDie {α : Type} (what : String) : Res α → IO α
  | .ok a => pure a
  | .err e => throw (IO.userError s!"{what}: error {repr e}")
  | .panic p => throw (IO.userError s!"{what}: panic {repr p}")

def opts (ttl : Int) (enc : UInt16) (subkeys : Option (List Bytes)) : KeyOptions :=
  { name := str "username", email := str "user@domain.com", ttl := ttl, encryptionSubkeyIndex := enc,
    authenticationSubkeyIndex := 0, signingSubkeyIndex := 0, subkeys := subkeys }

def writeBytes (name : String) (b : Bytes) : IO Unit := do
  let dir := (← IO.getEnv "VECDIR").getD "/tmp"
  IO.FS.writeBinFile (dir ++ "/" ++ name) (ByteArray.mk b.toArray)

open Spec.OpenPGP in
/-- Keys and secrets that `importKey` finds: the primary key first -/
def keysIn (packets : Bytes) : List (PublicKey × Nat × Nat) :=
  match importKey real packets with
  | some info =>
    (match info.secret with | .clear n => [(info.key, n, 1)] | _ => []) ++
      info.subkeys.filterMap fun s => match s.secret with
        | .clear n => some (s.key, n, s.binding.flags)
        | _ => none
  | none => []

def main (args : List String) : IO Unit := do
  if let ["decrypt", keyFile, file] := args then
    let keys := keysIn (← IO.FS.readBinFile keyFile).toList
    let message := (← IO.FS.readBinFile file).toList
    for (key, n, flags) in keys do
      if flags = 12 then
        match Spec.OpenPGP.decryptWith real realDh key n message with
        | some data => IO.println s!"data {hexOf data}"
        | none => IO.println "data nothing"
    return
  if let [file] := args then
    let text ← IO.FS.readBinFile file
    match Spec.dearmor text.toList with
    | some packets => IO.println s!"dearmor {hexOf packets}"
    | none => IO.println "dearmor nothing"
    return
  -- the first 16 octets of math/rand with source 0
  let rnd := unhex "0194fdc2fa2ffcc041d3ff12045b73c8"
  let (seed, _) ← orDie "GenerateSeed" (generateSeed rnd)
  let now : Int := 1673800000 * 1000000000
  let subs := some [subkeyTypeEncryption, subkeyTypeSigning]
  let mnk ← orDie "New" (new real seed now (some (opts 0 0 subs)))
  IO.println s!"fpr {hexOf (mnk.fingerprint real)}"
  IO.println s!"enc {hexOf ((mnk.subkeyFingerprint real subkeyTypeEncryption).getD [])}"
  let phrase ← orDie "EncodeMnemonicPlaintext" (mnk.encodeMnemonicPlaintext words)
  let again ← orDie "RecoverPlaintext" (recoverPlaintext words real phrase (some (opts 0 1 none)))
  IO.println s!"enc1 {hexOf ((again.subkeyFingerprint real subkeyTypeEncryption).getD [])}"
  let salt := unhex "0badc0de0badc0de"
  let (ephrase, _) ← orDie "EncodeMnemonicEncrypted" (mnk.encodeMnemonicEncrypted words real (str "password123") salt)
  let back ← orDie "RecoverEncrypted" (recoverEncrypted words real ephrase (str "password123") (some (opts 0 0 subs)))
  IO.println s!"recovered {hexOf (back.fingerprint real)} words {phrase.length} {ephrase.length}"
  IO.println s!"hey {(crc32 (str "hey")).toNat % 32}"
  let (packets, _) ← orDie "EncodePGP" (mnk.encodePGP real [] [])
  writeBytes "plain.pgp" packets
  writeBytes "plain.asc" (Armor.goArmor packets)
  let literal : Bytes := Spec.OpenPGP.packetOf 11 ([0x62, 0, 0, 0, 0, 0] ++ str "hello")
  for padding in [5, 13, 197] do
    for (key, n, flags) in keysIn packets do
      if flags = 12 then
        let d : Spec.OpenPGP.Drawn := ⟨(List.range 32).map fun i => UInt8.ofNat (i * 7 + padding),
          (List.range 32).map fun i => UInt8.ofNat (i * 11 + padding),
          (List.range 16).map fun i => UInt8.ofNat (i * 13 + padding), padding⟩
        let message := (Spec.OpenPGP.encryptTo real realDh key d literal).getD []
        writeBytes s!"message{padding}" message
        let again := Spec.OpenPGP.decryptWith real realDh key n message == some literal
        IO.println s!"message{padding} {again}"
  for (key, n, flags) in keysIn packets do
    if flags = 2 then
      writeBytes "signature" (Spec.OpenPGP.packetOf 2 (Spec.OpenPGP.signWith real key n 0 1673900000 (str "hello")))
  for (name, years) in [("all", 50), ("century", 100)] do
    let all ← orDie "New" (new real seed now (some (opts (3600 * 24 * 365 * 1000000000 * years) 0 none)))
    let (packets, _) ← orDie "EncodePGP" (all.encodePGP real [] [])
    writeBytes (name ++ ".pgp") packets
  let (packets, _) ← orDie "EncodeSubkeysPGP" (again.encodeSubkeysPGP real [] true [])
  writeBytes "subkeys.pgp" packets
  let more := (List.range 400).map fun i => UInt8.ofNat (i * 37 + 11)
  let (packets, _) ← orDie "EncodePGP" (mnk.encodePGP real (str "secret pw") more)
  writeBytes "protected.pgp" packets
