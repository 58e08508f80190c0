import Verif.Spec.Armor
import Mathlib.Data.Nat.Bitwise

/-! CRC-24 notices every change of up to three neighbouring octets. -/

namespace Verif.Armor

open Verif.Spec

theorem bit_odd (a : Nat) : ((a * 2) ^^^ 0x1864CFB) % 2 = 1 := by
  have h := Nat.xor_mod_two_pow (a := a * 2) (b := 0x1864CFB) (n := 1)
  rw [pow_one, Nat.mul_mod_left] at h
  rw [h]
  decide

theorem bit_inj {a b : Nat} (h : crc24Bit a = crc24Bit b) : a = b := by
  unfold crc24Bit at h
  split at h <;> split at h
  · omega
  · have := bit_odd b
    omega
  · have := bit_odd a
    omega
  · have := Nat.xor_left_injective h
    omega

/-- The register after the eight bits of an octet -/
def octet (crc : Nat) : Nat :=
  crc24Bit (crc24Bit (crc24Bit (crc24Bit (crc24Bit (crc24Bit (crc24Bit (crc24Bit crc)))))))

theorem octet_inj {a b : Nat} (h : octet a = octet b) : a = b :=
  bit_inj (bit_inj (bit_inj (bit_inj (bit_inj (bit_inj (bit_inj (bit_inj h)))))))

theorem bit_lt {a : Nat} (h : a < 2 ^ 24) : crc24Bit a < 2 ^ 24 := by
  unfold crc24Bit
  split
  · assumption
  · rename_i h'
    have h1 : a * 2 < 2 ^ 25 := by omega
    have h2 : ((a * 2) ^^^ 0x1864CFB) < 2 ^ 25 := Nat.xor_lt_two_pow h1 (by decide)
    have h3 := Nat.xor_div_two_pow (a := a * 2) (b := 0x1864CFB) (n := 24)
    rw [show a * 2 / 2 ^ 24 = 1 by omega] at h3
    have h4 : ((1 : Nat) ^^^ 0x1864CFB / 2 ^ 24) = 0 := by decide
    rw [h4] at h3
    omega

theorem octet_lt {a : Nat} (h : a < 2 ^ 24) : octet a < 2 ^ 24 :=
  bit_lt (bit_lt (bit_lt (bit_lt (bit_lt (bit_lt (bit_lt (bit_lt h)))))))

theorem bit_xor {a b : Nat} (ha : a < 2 ^ 24) (hb : b < 2 ^ 23) : crc24Bit (a ^^^ b) = crc24Bit a ^^^ (b * 2) := by
  have h1 : (a ^^^ b) * 2 = (a * 2) ^^^ (b * 2) := by
    have := Nat.shiftLeft_xor_distrib (a := a) (b := b) (i := 1)
    simpa [Nat.shiftLeft_eq] using this
  have h2 : (a ^^^ b) / 2 ^ 23 = a / 2 ^ 23 := by
    rw [Nat.xor_div_two_pow, Nat.div_eq_of_lt hb, Nat.xor_zero]
  unfold crc24Bit
  by_cases h : a * 2 < 2 ^ 24
  · rw [if_pos h, if_pos (by omega), h1]
  · rw [if_neg h, if_neg (by omega), h1, Nat.xor_assoc, Nat.xor_assoc, Nat.xor_comm (b * 2)]

theorem octet_xor {a b : Nat} (ha : a < 2 ^ 24) (hb : b < 2 ^ 16) : octet (a ^^^ b) = octet a ^^^ (b * 256) := by
  unfold octet
  have l1 := bit_lt ha
  have l2 := bit_lt l1
  have l3 := bit_lt l2
  have l4 := bit_lt l3
  have l5 := bit_lt l4
  have l6 := bit_lt l5
  have l7 := bit_lt l6
  rw [bit_xor ha (by omega), bit_xor l1 (by omega), bit_xor l2 (by omega), bit_xor l3 (by omega), bit_xor l4 (by omega),
    bit_xor l5 (by omega), bit_xor l6 (by omega), bit_xor l7 (by omega)]
  congr 1
  omega

def step (crc : Nat) (b : Byte) : Nat := octet (crc ^^^ (b.toNat * 2 ^ 16))

theorem step_eq (crc : Nat) (b : Byte) : step crc b = octet (crc ^^^ (b.toNat * 2 ^ 16)) := rfl

theorem crc24_eq (data : Bytes) : crc24 data = data.foldl step 0xB704CE := rfl

attribute [local irreducible] octet step

theorem step_inj {s s' : Nat} {b : Byte} (h : step s b = step s' b) : s = s' :=
  Nat.xor_left_injective (octet_inj (by rwa [step_eq, step_eq] at h))

theorem step_lt {s : Nat} (b : Byte) (h : s < 2 ^ 24) : step s b < 2 ^ 24 :=
  step_eq s b ▸ octet_lt (Nat.xor_lt_two_pow h (by have := b.toNat_lt; omega))

theorem fold_inj (b : Bytes) {s s' : Nat} (h : b.foldl step s = b.foldl step s') : s = s' := by
  induction b generalizing s s' with
  | nil => exact h
  | cons _ b ih => exact step_inj (ih h)

theorem fold_lt (b : Bytes) {s : Nat} (h : s < 2 ^ 24) : b.foldl step s < 2 ^ 24 := by
  induction b generalizing s with
  | nil => exact h
  | cons _ b ih => exact ih (step_lt _ h)

theorem crc24_lt (data : Bytes) : crc24 data < 2 ^ 24 := by
  rw [crc24_eq]
  exact fold_lt data (by decide)

theorem three (s : Nat) (hs : s < 2 ^ 24) (x y z : Byte) :
    [x, y, z].foldl step s =
      octet (octet (octet (s ^^^ (x.toNat * 2 ^ 16 ^^^ (y.toNat * 2 ^ 8 ^^^ z.toNat))))) := by
  have hx := x.toNat_lt
  have hy := y.toNat_lt
  have hz := z.toNat_lt
  have l1 : s ^^^ x.toNat * 2 ^ 16 < 2 ^ 24 := Nat.xor_lt_two_pow hs (by omega)
  have l2 : y.toNat * 2 ^ 8 ^^^ z.toNat < 2 ^ 16 := Nat.xor_lt_two_pow (by omega) (by omega)
  have l3 : octet (s ^^^ x.toNat * 2 ^ 16) ^^^ y.toNat * 2 ^ 16 < 2 ^ 24 := Nat.xor_lt_two_pow (octet_lt l1) (by omega)
  have h2 : (y.toNat * 2 ^ 8 ^^^ z.toNat) * 256 = y.toNat * 2 ^ 16 ^^^ z.toNat * 2 ^ 8 := by
    have := Nat.shiftLeft_xor_distrib (a := y.toNat * 2 ^ 8) (b := z.toNat) (i := 8)
    simp only [Nat.shiftLeft_eq, Nat.mul_assoc, ← pow_add] at this
    exact this
  rw [List.foldl_cons, List.foldl_cons, List.foldl_cons, List.foldl_nil, step_eq, step_eq, step_eq]
  rw [← Nat.xor_assoc s, octet_xor l1 l2, h2]
  generalize octet (s ^^^ x.toNat * 2 ^ 16) = t at l3 ⊢
  rw [← Nat.xor_assoc t]
  generalize t ^^^ y.toNat * 2 ^ 16 = t' at l3 ⊢
  rw [octet_xor l3 (show z.toNat * 2 ^ 8 < 2 ^ 16 by omega),
    Nat.mul_assoc, show 2 ^ 8 * 256 = 2 ^ 16 by decide]

theorem digits {x y z x' y' z' : Byte} (h : x.toNat * 2 ^ 16 ^^^ (y.toNat * 2 ^ 8 ^^^ z.toNat) =
    x'.toNat * 2 ^ 16 ^^^ (y'.toNat * 2 ^ 8 ^^^ z'.toNat)) : x = x' ∧ y = y' ∧ z = z' := by
  have two : ∀ a b : Nat, b < 2 ^ 8 → (a * 2 ^ 8 ^^^ b) = a * 2 ^ 8 + b := by
    intro a b hb
    rw [Nat.mul_comm a, Nat.two_pow_add_eq_or_of_lt hb, ]
    apply Nat.eq_of_testBit_eq
    intro i
    rw [Nat.testBit_xor, Nat.testBit_or, Nat.testBit_two_pow_mul]
    by_cases hi : i < 8
    · simp [Nat.not_le.2 hi]
    · rw [Nat.testBit_lt_two_pow (lt_of_lt_of_le hb (Nat.pow_le_pow_right (by decide) (by omega)))]
      simp
  have hx := x.toNat_lt
  have hy := y.toNat_lt
  have hz := z.toNat_lt
  have hx' := x'.toNat_lt
  have hy' := y'.toNat_lt
  have hz' := z'.toNat_lt
  have e : ∀ a b c : Byte, (a.toNat * 2 ^ 16 ^^^ (b.toNat * 2 ^ 8 ^^^ c.toNat)) =
      a.toNat * 2 ^ 16 + b.toNat * 2 ^ 8 + c.toNat := by
    intro a b c
    have hb := b.toNat_lt
    have hc := c.toNat_lt
    rw [← Nat.xor_assoc, show a.toNat * 2 ^ 16 = a.toNat * 2 ^ 8 * 2 ^ 8 by omega]
    have h2 : (a.toNat * 2 ^ 8 * 2 ^ 8 ^^^ b.toNat * 2 ^ 8) = (a.toNat * 2 ^ 8 ^^^ b.toNat) * 2 ^ 8 := by
      have := Nat.shiftLeft_xor_distrib (a := a.toNat * 2 ^ 8) (b := b.toNat) (i := 8)
      simp only [Nat.shiftLeft_eq] at this
      exact this.symm
    rw [h2, two _ _ hb, two _ _ hc]
    omega
  rw [e, e] at h
  exact ⟨UInt8.toNat_inj.1 (by omega), UInt8.toNat_inj.1 (by omega), UInt8.toNat_inj.1 (by omega)⟩

theorem crc24_change (a b u u' : Bytes) (hu : u.length = u'.length) (h3 : u.length ≤ 3)
    (h : crc24 (a ++ u ++ b) = crc24 (a ++ u' ++ b)) : u = u' := by
  rw [crc24_eq, crc24_eq, List.foldl_append (l := a ++ u), List.foldl_append (l := a ++ u')] at h
  have h := fold_inj b h
  rw [List.foldl_append, List.foldl_append] at h
  have hs := fold_lt a (show 0xB704CE < 2 ^ 24 by decide)
  generalize a.foldl step 0xB704CE = s at h hs
  have full : ∀ {u u' : Bytes}, u.length = 3 → u'.length = 3 →
      u.foldl step s =
        u'.foldl step s → u = u' := by
    intro u u' h h' e
    match u, u', h, h' with
    | [x, y, z], [x', y', z'], _, _ =>
      rw [three s hs, three s hs] at e
      obtain ⟨rfl, rfl, rfl⟩ := digits (Nat.xor_right_injective (octet_inj (octet_inj (octet_inj e))))
      rfl
  have := full (u := u ++ List.replicate (3 - u.length) 0) (u' := u' ++ List.replicate (3 - u.length) 0)
    (by rw [List.length_append, List.length_replicate]; omega) (by rw [List.length_append, List.length_replicate]; omega)
    (by rw [List.foldl_append, List.foldl_append, h])
  exact List.append_cancel_right this

theorem crc24Octets_inj {a b : Bytes} (h : crc24Octets a = crc24Octets b) : crc24 a = crc24 b := by
  have la := crc24_lt a
  have lb := crc24_lt b
  unfold crc24Octets at h
  simp only [List.cons.injEq, and_true] at h
  obtain ⟨h1, h2, h3⟩ := h
  have h1 := congrArg UInt8.toNat h1
  have h2 := congrArg UInt8.toNat h2
  have h3 := congrArg UInt8.toNat h3
  simp only [UInt8.toNat_ofNat'] at h1 h2 h3
  omega

end Verif.Armor
