import Verif.Model.Pgp.Slices

/-!
# What it means that a value stands in memory and that a call leaves memory alone
-/

namespace Verif.Spec.Slices

open Verif.Model Verif.Model.Pgp Verif.Model.Slices

/-- The window, with its spare capacity, lies inside its array. -/
def Valid (m : Mem) (s : Slice) : Prop := s.len ≤ s.cap ∧ s.off + s.cap ≤ (contents m s.arr).length

/-- The slice has these bytes. -/
def Holds (m : Mem) (s : Slice) (b : Bytes) : Prop := Valid m s ∧ load m s = b

/-- A slice that may be nil -/
def OptR (m : Mem) : Option Slice → Option Bytes → Prop
  | none, none => True
  | some s, some b => Holds m s b
  | _, _ => False

/-- A key in memory. Its slices may share arrays with each other and with anything else. -/
structure ECKeyR (m : Mem) (key : ECKeyRef) (v : ECKey) : Prop where
  priv : Holds m key.privateSerialized v.privateSerialized
  pub : Holds m key.publicSerialized v.publicSerialized
  signing : OptR m key.privateSigning v.privateSigning
  publicSigning : OptR m key.publicSigning v.publicSigning
  creation : key.creation = v.creation
  algorithm : key.algorithm = v.algorithm
  oid : Holds m key.curveOID v.curveOID
  extra : OptR m key.extraPublicData v.extraPublicData

structure EdKeyR (m : Mem) (key : EdKeyRef) (v : EdKey) : Prop where
  base : ECKeyR m key.base v.base
  priv : Holds m key.priv v.priv
  pub : Holds m key.pub v.pub
  creation : key.creation = v.creation
  expiry : key.expiry = v.expiry

structure CurveKeyR (m : Mem) (key : CurveKeyRef) (v : CurveKey) : Prop where
  base : ECKeyR m key.base v.base
  priv : Holds m key.priv v.priv
  pub : Holds m key.pub v.pub
  creation : key.creation = v.creation
  expiry : key.expiry = v.expiry
  kdf : key.kdf = v.kdf

/-- A key set in memory -/
structure KeySetR (m : Mem) (ks : KeySetRef) (v : KeySet) : Prop where
  userID : ks.userID = v.userID
  master : EdKeyR m ks.masterKey v.masterKey
  encryption : Option.Rel (CurveKeyR m) ks.encryptionSubkey v.encryptionSubkey
  authentication : Option.Rel (EdKeyR m) ks.authenticationSubkey v.authenticationSubkey
  signing : Option.Rel (EdKeyR m) ks.signingSubkey v.signingSubkey

/-- Every array is as before and was not written to, not even with the bytes that it had. -/
def Unchanged (m m' : Mem) : Prop := ∀ (i : Nat) (a : Arr), m[i]? = some a → m'[i]? = some a

/-- The call returned the given bytes in an array of its own, or failed in the given way, used up the
random source as told, and did not write to any array that was there. -/
def Returns (m : Mem) (r : Res Slice × St) (v : Res (Bytes × Bytes)) : Prop :=
  Unchanged m r.2.mem ∧
  match v with
  | .ok (bs, rnd) => ∃ s, r.1 = .ok s ∧ Holds r.2.mem s bs ∧ m.length ≤ s.arr ∧ r.2.rnd = rnd
  | .err e => r.1 = .err e
  | .panic p => r.1 = .panic p

end Verif.Spec.Slices
