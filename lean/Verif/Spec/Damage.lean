import Verif.Spec.Armor

/-!
# A copy with one wrong, missing or surplus character, or two that have changed places
-/

namespace Verif.Spec

/-- Exactly one octet of the text is another one in the copy. -/
def OneWrong (text copy : Bytes) : Prop :=
  text.length = copy.length ∧ ∃ i : Nat, text[i]? ≠ copy[i]? ∧ ∀ j : Nat, j ≠ i → text[j]? = copy[j]?

/-- The copy is the text without one of its octets, `x`. -/
def OneMissing (text : Bytes) (x : Byte) (copy : Bytes) : Prop :=
  ∃ A B, text = A ++ x :: B ∧ copy = A ++ B

/-- Two neighbouring octets of the text, `x` and `y`, have changed places in the copy. -/
def Swapped (text : Bytes) (x y : Byte) (copy : Bytes) : Prop :=
  ∃ A B, text = A ++ x :: y :: B ∧ copy = A ++ y :: x :: B

/-! A reader that is less strict than `dearmor`: in a group with padding the last character before the `=` has two or
four bits that stand for nothing. `radix64Read` wants them to be 0 as they are written, many programs ignore them. -/

def looseRead : Bytes → Option Bytes
  | [] => some []
  | [a, b, 0x3D, 0x3D] => do
    let x ← radix64Value a
    let y ← radix64Value b
    some [UInt8.ofNat (x * 4 + y / 16)]
  | [a, b, c, 0x3D] => do
    let x ← radix64Value a
    let y ← radix64Value b
    let z ← radix64Value c
    some [UInt8.ofNat (x * 4 + y / 16), UInt8.ofNat (y % 16 * 16 + z / 4)]
  | a :: b :: c :: d :: rest => do
    let x ← radix64Value a
    let y ← radix64Value b
    let z ← radix64Value c
    let w ← radix64Value d
    let tail ← looseRead rest
    some (UInt8.ofNat (x * 4 + y / 16) :: UInt8.ofNat (y % 16 * 16 + z / 4) :: UInt8.ofNat (z % 4 * 64 + w) :: tail)
  | _ => none

def looseBody (ls : List Bytes) : Option Bytes :=
  match (armorData ls).2 with
  | sum :: tail :: _ =>
    if tail = endPrivateKey then
      match looseRead (armorData ls).1 with
      | some data => if looseRead (sum.drop 1) = some (crc24Octets data) then some data else none
      | none => none
    else none
  | _ => none

def looseDearmor (text : Bytes) : Option Bytes :=
  match ((armorLines text).dropWhile (fun l => decide (l ≠ beginPrivateKey))).dropWhile
      (fun l => decide (l ≠ [])) with
  | [] => none
  | _ :: ls => looseBody ls

end Verif.Spec
