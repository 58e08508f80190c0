import Verif.Spec.Words

/-!
# When a command succeeds

Independent of the model, except that options and environment come in its records.
-/

namespace Verif.Spec

open Verif.Model (WordList PhraseCrypto)
open Verif.Model.Cli

/-- The options of generate and recover that can be wrong are right, and ask for these parts of the key. A
duration whose number of nanoseconds has its 64th bit set counts as negative. -/
structure GoodFlags (f : KeyFlags) (part : String → Prop) : Prop where
  ttl : f.ttl = [] ∨ ∃ q u, IsTTL f.ttl q u ∧ q * u * 10 ^ 9 % 2 ^ 64 < 2 ^ 63
  only : Parts f.only part

open Classical in
/-- Random bytes for the secret parts of a key under a password: 8 of salt and 16 of IV for each part asked
for, none without password. -/
noncomputable def randomForKey (protect : Bool) (part : String → Prop) : Nat :=
  if protect then
    24 * (["master", "encryption", "authentication", "signing"].filter (fun type => part type)).length
  else 0

/-- Random bytes for the 19 bits of salt of a phrase under a password. -/
def randomForPhrase (protect : Bool) : Nat := if protect then 3 else 0

/-- The passwords that a flag makes the user type: one or none. -/
def Asked (flag : Bool) (typed : List Bytes) : Prop := typed.length = if flag then 1 else 0

structure GenerateSucceeds (env : Env) (opts : GenerateOptions) (prompts : List (Res Bytes)) (rnd : Bytes) :
    Prop where
  clock : 1672531200 * 10 ^ 9 ≤ env.now ∧ env.now ≤ (1672531200 + (2 ^ 31 - 1)) * 10 ^ 9
  random : ∃ part seed left, GoodFlags opts.key part ∧ SeedBytes env rnd opts.unsafeEntropy seed left ∧
    randomForKey opts.key.encryptKeys part + randomForPhrase opts.encryptPhrase ≤ left.length
  passwords : ∃ forKey forPhrase more, Asked opts.key.encryptKeys forKey ∧
    Asked opts.encryptPhrase forPhrase ∧ prompts = (forKey ++ forPhrase).map .ok ++ more
  saved : opts.outputWordFile ≠ [] → env.save.statFails = false ∧
    env.fs.read opts.outputWordFile = none ∧ env.save.openFails = false ∧ env.save.writeFails = none
  shown : opts.outputWordFile = [] → 17 ≤ env.columns

/-- The passwords typed unlock the phrase: none for a plaintext phrase, any number of wrong ones and then the
right one for an encrypted phrase. -/
inductive Unlocks (index : Bytes → Option Nat) (C : PhraseCrypto) (words : List Bytes) : List Bytes → Prop where
  | plaintext {seed offset : Nat} : Holds index C words none seed offset → Unlocks index C words []
  | encrypted {wrong : List Bytes} {right : Bytes} {seed offset : Nat} :
    (∀ p ∈ wrong, ∀ s o, ¬ Holds index C words (some p) s o) →
    Holds index C words (some right) seed offset → Unlocks index C words (wrong ++ [right])

structure RecoverSucceeds (L : WordList) (offer : Bytes → Option Bytes) (index : Bytes → Option Nat)
    (C : PhraseCrypto) (env : Env) (opts : RecoverOptions) (prompts : List (Res Bytes)) (rnd : Bytes) : Prop where
  indices : opts.encIndex < 65536 ∧ opts.authIndex < 65536 ∧ opts.sigIndex < 65536
  random : ∃ part, GoodFlags opts.key part ∧ randomForKey opts.key.encryptKeys part ≤ rnd.length
  phrase : ∃ words unlocking forKey more, Gets L offer env opts.input words ∧
    Unlocks index C words unlocking ∧ Asked opts.key.encryptKeys forKey ∧
    prompts = (unlocking ++ forKey).map .ok ++ more

structure ConvertSucceeds (L : WordList) (offer : Bytes → Option Bytes) (index : Bytes → Option Nat)
    (C : PhraseCrypto) (env : Env) (opts : ConvertOptions) (prompts : List (Res Bytes)) (rnd : Bytes) : Prop where
  noFile : opts.input.inputWordFile = []
  random : randomForPhrase opts.encryptPhrase ≤ rnd.length
  phrase : ∃ words unlocking forPhrase more, Gets L offer env opts.input words ∧
    Unlocks index C words unlocking ∧ Asked opts.encryptPhrase forPhrase ∧
    prompts = (unlocking ++ forPhrase).map .ok ++ more
  shown : 17 ≤ env.columns

end Verif.Spec
