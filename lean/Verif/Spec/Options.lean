import Verif.Spec.Export
import Verif.Model.Mnemonikey

/-!
# Meaning of the key options

Uses only the record types `KeyOptions` and `Mnemonikey` of the model, none of its functions.
-/

namespace Verif.Spec

open Verif.Model (Crypto KeyOptions)

/-- No list of subkeys means all of them. -/
def Selected (opts : KeyOptions) (type : String) : Prop :=
  ∀ l, opts.subkeys = some l → str type ∈ l

instance (opts : KeyOptions) (type : String) : Decidable (Selected opts type) :=
  match h : opts.subkeys with
  | none => isTrue (by intro l hl; rw [h] at hl; cases hl)
  | some l =>
    if hm : str type ∈ l then isTrue (by intro l' hl; rw [h] at hl; cases hl; exact hm)
    else isFalse (fun hs => hm (hs l h))

/-- The documented defaults. -/
def noOptions : KeyOptions := ⟨[], [], 0, 0, 0, 0, none⟩

/-- The expiration field: the TTL in whole seconds, as converted by `uint32(d.Seconds())`. -/
def wantedExpires (C : Crypto) (ttl : Int) : Option Nat :=
  if ttl = 0 then none else some (C.secondsU32 (ttl / 10 ^ 9 * 10 ^ 9))

def wanted (C : Crypto) (opts : KeyOptions) : Wanted :=
  { userID := userID opts.name opts.email
    expires := wantedExpires C opts.ttl
    encryption :=
      if Selected opts "encryption" then some opts.encryptionSubkeyIndex.toNat else none
    authentication :=
      if Selected opts "authentication" then some opts.authenticationSubkeyIndex.toNat else none
    signing := if Selected opts "signing" then some opts.signingSubkeyIndex.toNat else none }

end Verif.Spec
