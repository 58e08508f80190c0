import Verif.Proofs.BigInt
import Verif.Proofs.BitBuffer

/-! `crypto/rand.Int` for powers of two. -/

namespace Verif.Model

theorem size_pow_sub_one (n : Nat) : (2 ^ n - 1).size = n := by
  have h : 1 ≤ 2 ^ n := Nat.one_le_two_pow
  apply Nat.le_antisymm
  · rw [Nat.size_le]; omega
  · cases n with
    | zero => simp
    | succ n =>
      have : n < (2 ^ (n + 1) - 1).size := by
        rw [Nat.lt_size]
        rw [pow_succ] at *
        omega
      omega

theorem setBytes_cons (x : Byte) (b : Bytes) :
    setBytes (x :: b) = x.toNat * 256 ^ b.length + setBytes b := by
  have := setBytes_append [x] b
  simpa [setBytes] using this

/-- The 19-bit number drawn from three bytes. -/
def saltOf (a b c : Byte) : Nat := a.toNat % 8 * 65536 + b.toNat * 256 + c.toNat

theorem saltOf_lt (a b c : Byte) : saltOf a b c < 2 ^ 19 := by
  have := b.toNat_lt
  have := c.toNat_lt
  rw [saltOf]; omega

theorem randInt_salt (rnd : Bytes) :
    randInt rnd (2 ^ 19) = match rnd with
      | a :: b :: c :: rest => .ok (saltOf a b c, rest)
      | _ => .err .randomRead := by
  have hs : (2 ^ 19 - 1).size = 19 := size_pow_sub_one 19
  have h0 : ¬ (2 ^ 19 : Nat) = 0 := by norm_num
  have hm : ∀ a : Byte, (a &&& UInt8.ofNat (2 ^ 3 - 1)).toNat = a.toNat % 8 := by
    intro a
    have h : (UInt8.ofNat (2 ^ 3 - 1)).toNat = 2 ^ 3 - 1 := by decide
    rw [UInt8.toNat_and, h, Nat.and_two_pow_sub_one_eq_mod]
  match rnd with
  | [] => unfold randInt; rw [if_neg h0, hs]; rfl
  | [a] => unfold randInt; rw [if_neg h0, hs]; rfl
  | [a, b] => unfold randInt; rw [if_neg h0, hs]; rfl
  | a :: b :: c :: rest =>
    have hv : setBytes [a &&& UInt8.ofNat (2 ^ 3 - 1), b, c] = saltOf a b c := by
      simp only [setBytes_cons, hm, saltOf, List.length_cons, List.length_nil]
      simp
      omega
    have hlt := saltOf_lt a b c
    unfold randInt
    rw [if_neg h0, hs]
    simp only [show ¬ (19 = 0) by norm_num, if_false, show ¬ (19 % 8 = 0) by norm_num,
      show (19 + 7) / 8 = 3 from rfl, show 19 % 8 = 3 from rfl]
    unfold randIntLoop
    simp only [List.length_cons, show ¬ (rest.length + 1 + 1 + 1 < 3) by omega, if_false,
      List.take_succ_cons, List.take_zero, List.drop_succ_cons, List.drop_zero]
    rw [hv, if_pos hlt]

theorem and_255 (a : Byte) : a &&& UInt8.ofNat (2 ^ 8 - 1) = a := by
  apply UInt8.toNat_inj.mp
  have h : (UInt8.ofNat (2 ^ 8 - 1)).toNat = 2 ^ 8 - 1 := by decide
  have := a.toNat_lt
  rw [UInt8.toNat_and, h, Nat.and_two_pow_sub_one_eq_mod]
  omega

theorem randInt_seed (rnd : Bytes) :
    randInt rnd (2 ^ 128) =
      if rnd.length < 16 then .err .randomRead
      else .ok (setBytes (rnd.take 16), rnd.drop 16) := by
  have hs : (2 ^ 128 - 1).size = 128 := size_pow_sub_one 128
  have h0 : ¬ (2 ^ 128 : Nat) = 0 := by norm_num
  unfold randInt
  rw [if_neg h0, hs]
  simp only [show ¬ (128 = 0) by norm_num, if_false, show (128 % 8 = 0) by norm_num, if_true,
    show (128 + 7) / 8 = 16 from rfl]
  unfold randIntLoop
  by_cases h : rnd.length < 16
  · rw [if_pos h, if_pos h]
  · rw [if_neg h, if_neg h]
    have hl : (rnd.take 16).length = 16 := by rw [List.length_take]; omega
    have hlt : setBytes (rnd.take 16) < 2 ^ 128 := by
      have := setBytes_lt (rnd.take 16)
      rw [hl] at this
      exact lt_of_lt_of_le this (by norm_num)
    cases hr : rnd.take 16 with
    | nil => rw [hr] at hl; simp at hl
    | cons x xs =>
      rw [hr] at hlt
      simp only [and_255]
      rw [if_pos hlt]

end Verif.Model
