import Verif.Basic
import Mathlib.Data.Nat.Digits.Defs
import Mathlib.Data.List.Basic

/-!
# Meaning of flag values

Independent of the model.
-/

namespace Verif.Spec

/-- The digits `0` to `9`. -/
def IsDigit (c : Byte) : Prop := 48 ≤ c.toNat ∧ c.toNat ≤ 57

instance (c : Byte) : Decidable (IsDigit c) := inferInstanceAs (Decidable (_ ∧ _))

/-- The number written by decimal digits, most significant first. -/
def decimal (ds : Bytes) : Nat := Nat.ofDigits 10 (ds.reverse.map (fun c => c.toNat - 48))

/-- Seconds in a day, a week, a twelfth of 365 days, 365 days. -/
inductive UnitSeconds : Byte → Nat → Prop where
  | day : ∀ c ∈ str "dD", UnitSeconds c (24 * 60 * 60)
  | week : ∀ c ∈ str "wW", UnitSeconds c (7 * 24 * 60 * 60)
  | month : ∀ c ∈ str "mM", UnitSeconds c (365 * 24 * 60 * 60 / 12)
  | year : ∀ c ∈ str "yY", UnitSeconds c (365 * 24 * 60 * 60)

/-- The text is a 64-bit number followed by a unit: `quantity` units of `unit` seconds. -/
def IsTTL (input : Bytes) (quantity unit : Nat) : Prop :=
  ∃ ds c, input = ds ++ [c] ∧ ds ≠ [] ∧ (∀ d ∈ ds, IsDigit d) ∧ decimal ds = quantity ∧
    quantity < 2 ^ 64 ∧ UnitSeconds c unit

/-- The text is the comma-separated list of these elements. -/
def IsList (text : Bytes) (elems : List Bytes) : Prop :=
  elems ≠ [] ∧ (∀ e ∈ elems, (44 : Byte) ∉ e) ∧ text = List.intercalate [44] elems

/-- The text is the space-separated list of these words (empty words between adjacent spaces). -/
def IsSpaced (text : Bytes) (words : List Bytes) : Prop :=
  words ≠ [] ∧ (∀ w ∈ words, (32 : Byte) ∉ w) ∧ text = List.intercalate [32] words

end Verif.Spec
