import Verif.Model.Heap

/-!
# What seeds and decoded phrases hold, given the integer cells
-/

namespace Verif.Spec.Heap

open Verif.Model Verif.Model.Heap

/-- The integer in a cell -/
abbrev val (h : Cells) (p : Nat) : Int := h.getD p 0

/-- The seed, read from the heap -/
def seedAt (h : Cells) (s : SeedRef) : Seed := ⟨s.era, val h s.value⟩

/-- The decoded phrase, read from the heap -/
def decodedAt (h : Cells) (d : DecodedRef) : DecodedMnemonic :=
  ⟨d.version, val h d.entropy, d.salt.map (val h), d.encSeedVerify, d.creationOffset⟩

/-- The outcomes correspond: both results related by `R`, or the same error, or the same panic. -/
def Agree {α β : Type} (x : Res α) (y : Res β) (R : α → β → Prop) : Prop :=
  match x, y with
  | .ok a, .ok b => R a b
  | .err e, .err e' => e = e'
  | .panic p, .panic p' => p = p'
  | _, _ => False

/-- The state after some calls -/
def run (L : WordList) (C : PhraseCrypto) (s : State) (cs : List Call) : State :=
  cs.foldl (fun s c => s.step L C c) s

/-- No call on the way overwrites an integer that had been passed to NewSeed. -/
def Careful (L : WordList) (C : PhraseCrypto) : State → List Call → Prop
  | _, [] => True
  | s, c :: cs => ¬ c.touchesGiven s.client ∧ Careful L C (s.step L C c) cs

end Verif.Spec.Heap
