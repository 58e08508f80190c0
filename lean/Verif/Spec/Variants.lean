import Verif.Basic
import Mathlib.Data.Set.Card

/-!
# Phrases that differ at some places

A phrase is the list of the numbers of its words.
-/

namespace Verif.Spec

/-- Numbers of words, of the same length as `is`, and the same except possibly at the places `S` -/
def AgreesOutside (S : Finset Nat) (is js : List Nat) : Prop :=
  js.length = is.length ∧ (∀ x ∈ js, x < 4096) ∧ ∀ p, p ∉ S → js[p]? = is[p]?

/-- The same, and other numbers at each of these places -/
def DiffersAt (S : Finset Nat) (is js : List Nat) : Prop :=
  js.length = is.length ∧ (∀ x ∈ js, x < 4096) ∧ ∀ p, js[p]? ≠ is[p]? ↔ p ∈ S

end Verif.Spec
