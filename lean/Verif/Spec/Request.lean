import Verif.Spec.Export
import Verif.Spec.Flags
import Verif.Spec.Phrase
import Verif.Model.Cli.Commands

/-!
# What the options of generate and recover ask for

Independent of the model, except that the options come in its records.
-/

namespace Verif.Spec

open Verif.Model (Crypto)
open Verif.Model.Cli (KeyFlags Env)
open Verif.Spec.OpenPGP

/-- RFC 3629 -/
def utf8 (c : Nat) : Bytes :=
  if c < 0x80 then [UInt8.ofNat c]
  else if c < 0x800 then [UInt8.ofNat (0xC0 + c / 64), UInt8.ofNat (0x80 + c % 64)]
  else if c < 0x10000 then
    [UInt8.ofNat (0xE0 + c / 4096), UInt8.ofNat (0x80 + c / 64 % 64), UInt8.ofNat (0x80 + c % 64)]
  else
    [UInt8.ofNat (0xF0 + c / 262144), UInt8.ofNat (0x80 + c / 4096 % 64), UInt8.ofNat (0x80 + c / 64 % 64),
      UInt8.ofNat (0x80 + c % 64)]

/-- The code points with the Unicode property White_Space. -/
def whiteSpace : List Nat :=
  [0x09, 0x0A, 0x0B, 0x0C, 0x0D, 0x20, 0x85, 0xA0, 0x1680] ++ (List.range 11).map (0x2000 + ·) ++
    [0x2028, 0x2029, 0x202F, 0x205F, 0x3000]

/-- A text made of white space. -/
def Blank (t : Bytes) : Prop := ∃ cs : List Nat, (∀ c ∈ cs, c ∈ whiteSpace) ∧ t = cs.flatMap utf8

/-- `u` is `t` without the white space around it. -/
structure Trimmed (t u : Bytes) : Prop where
  around : ∃ a b, Blank a ∧ Blank b ∧ t = a ++ u ++ b
  start : ∀ c ∈ whiteSpace, ¬ utf8 c <+: u
  finish : ∀ c ∈ whiteSpace, ¬ utf8 c <:+ u

/-- The expiration that a text given for -ttl asks for, in seconds. -/
inductive Expiry : Bytes → Option Nat → Prop where
  | absent : Expiry [] none
  | zero {t : Bytes} {u : Nat} : IsTTL t 0 u → Expiry t none
  | after {t : Bytes} {q u : Nat} : IsTTL t q u → 0 < q → q * u < 2 ^ 32 → Expiry t (some (q * u))

/-- A text given for -only asks for the parts for which `part` holds. -/
inductive Parts : Bytes → (String → Prop) → Prop where
  | all : Parts [] (fun _ => True)
  | listed {t : Bytes} {elems : List Bytes} : t ≠ [] → IsList t elems →
    (∀ e ∈ elems, e ∈ ["master", "encryption", "authentication", "signing"].map str) →
    Parts t (fun type => str type ∈ elems)

/-- The options ask for this key, with these subkey indices. -/
structure AsksFor (f : KeyFlags) (enc auth sig : Nat) (w : Wanted) (master : Prop) : Prop where
  user : ∃ name email, Trimmed f.name name ∧ Trimmed f.email email ∧ w.userID = userID name email
  expires : Expiry f.ttl w.expires
  parts : ∃ part, Parts f.only part ∧ (master ↔ part "master") ∧
    (part "encryption" → w.encryption = some enc) ∧ (¬ part "encryption" → w.encryption = none) ∧
    (part "authentication" → w.authentication = some auth) ∧
    (¬ part "authentication" → w.authentication = none) ∧
    (part "signing" → w.signing = some sig) ∧ (¬ part "signing" → w.signing = none)

/-- The 16 bytes of the seed, and what is left of the system's random bytes: they are taken from there
unless -unsafe-entropy names another source. -/
inductive SeedBytes (env : Env) (rnd : Bytes) : Bytes → Bytes → Bytes → Prop where
  | system {e rest : Bytes} : e.length = 16 → rnd = e ++ rest → SeedBytes env rnd [] e rest
  | stdin {e more : Bytes} : e.length = 16 → env.stdin = e ++ more →
    SeedBytes env rnd (str "-") e rnd
  | file {path e more : Bytes} : path ≠ [] → path ≠ str "-" → e.length = 16 →
    env.fs.read path = some (e ++ more) → SeedBytes env rnd path e rnd

/-- What an OpenPGP reader who knows the password finds in the packets `key`: the wanted key, with the
master secret or with a stub in its place. -/
structure Contains (C : Crypto) (key password : Bytes) (seed second : Nat) (w : Wanted)
    (master cert : Prop) : Prop where
  imported : ∃ k subs, importKey C key = some k ∧
    k.key = edPublic C second (masterSeed C seed second) ∧ k.userID = w.userID ∧
    (master ∨ cert → k.cert = some (wantedCert second w)) ∧ (¬ master → ¬ cert → k.cert = none) ∧
    (master → openSecret C password k.secret = some (num (masterSeed C seed second))) ∧
    (¬ master → k.secret = .stub) ∧
    k.subkeys.mapM (unlockSubkey C password) = some subs ∧
    subs.Perm (wantedSubkeys C seed second w) ∧
    (password ≠ [] → (∀ s ∈ k.subkeys, Protected s.secret) ∧ (master → Protected k.secret)) ∧
    (password = [] → k.subkeys = subs ∧ (master → ∃ n, k.secret = .clear n))

/-- The words hold a seed and a creation offset: as they are, or for who knows the password. -/
def Holds (index : Bytes → Option Nat) (C : Model.PhraseCrypto) (words : List Bytes)
    (password : Option Bytes) (seed offset : Nat) : Prop :=
  match password with
  | none => readPhrase index words = .ok (.plaintext seed offset)
  | some p => ∃ e salt v, readPhrase index words = .ok (.encrypted e salt v offset) ∧
      decryptSeed C p e salt v offset = some seed

end Verif.Spec
