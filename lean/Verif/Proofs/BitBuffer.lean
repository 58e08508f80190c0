import Verif.Proofs.BigInt
import Verif.Model.BitBuffer

/-! Arithmetic form of the bit buffer operations on non-negative values. -/

namespace Verif.Model.BitBuffer

/-- A buffer holding the natural number `v` in `n` bits. -/
def mkNat (v n : Nat) : BitBuffer := { value := (v : Int), nBits := n }

@[simp] theorem mkNat_nBits (v n : Nat) : (mkNat v n).nBits = n := rfl
@[simp] theorem mkNat_value (v n : Nat) : (mkNat v n).value = (v : Int) := rfl
@[simp] theorem mkNat_int (v n : Nat) : (mkNat v n).int = (v : Int) := id rfl
@[simp] theorem mkNat_bitLength (v n : Nat) : (mkNat v n).bitLength = n := id rfl

theorem size_gt_iff (v n : Nat) : v.size > n ↔ 2 ^ n ≤ v := by
  have := @Nat.size_le v n
  omega

theorem new_nat {v n : Nat} (h : v < 2 ^ n) : BitBuffer.new (v : Int) n = .ok (mkNat v n) := by
  have : ¬ v.size > n := by rw [size_gt_iff]; omega
  simp [BitBuffer.new, this, mkNat]

theorem new_nat_panic {v n : Nat} (h : 2 ^ n ≤ v) :
    BitBuffer.new (v : Int) n = .panic .bitBufferWidth := by
  have : v.size > n := by rw [size_gt_iff]; exact h
  simp [BitBuffer.new, this]

theorem appendTrailing_nat {v n x w : Nat} (h : x < 2 ^ w) :
    (mkNat v n).appendTrailingBits (x : Int) w = .ok (mkNat (v * 2 ^ w + x) (n + w)) := by
  have : ¬ x.size > w := by rw [size_gt_iff]; omega
  simp [BitBuffer.appendTrailingBits, this, mkNat, lor_append _ _ _ h]

theorem appendTrailing_nat_panic {bb : BitBuffer} {x w : Nat} (h : 2 ^ w ≤ x) :
    bb.appendTrailingBits (x : Int) w = .panic .bitBufferWidth := by
  have : x.size > w := by rw [size_gt_iff]; exact h
  simp [BitBuffer.appendTrailingBits, this]

theorem appendLeading_nat {v n x w : Nat} (hv : v < 2 ^ n) (h : x < 2 ^ w) :
    (mkNat v n).appendLeadingBits (x : Int) w = .ok (mkNat (x * 2 ^ n + v) (n + w)) := by
  have : ¬ x.size > w := by rw [size_gt_iff]; omega
  simp [BitBuffer.appendLeadingBits, this, mkNat, lor_prepend _ _ _ hv]

theorem popTrailing_nat {v n k : Nat} (hk : k ≤ n) :
    (mkNat v n).popTrailingBits k =
      .ok (((v % 2 ^ k : Nat) : Int), mkNat (v / 2 ^ k) (n - k)) := by
  have : ¬ k > n := by omega
  simp [BitBuffer.popTrailingBits, this, mask_land, rsh_natCast, mkNat]

theorem popLeading_nat {v n k : Nat} (hv : v < 2 ^ n) (hk : k ≤ n) :
    (mkNat v n).popLeadingBits k =
      .ok (((v / 2 ^ (n - k) : Nat) : Int), mkNat (v % 2 ^ (n - k)) (n - k)) := by
  have h1 : ¬ k > n := by omega
  have h2 : v / 2 ^ (n - k) < 2 ^ k := by
    apply Nat.div_lt_of_lt_mul
    rw [← pow_add]
    have : n - k + k = n := by omega
    rw [this]
    exact hv
  have h3 : Int.land (lsh 1 k - 1) (rsh (v : Int) (n - k)) = ((v / 2 ^ (n - k) : Nat) : Int) := by
    rw [rsh_natCast, mask_land, Nat.mod_eq_of_lt h2]
  simp only [BitBuffer.popLeadingBits, mkNat_nBits, mkNat_value, h1, if_false, h3, xor_high]
  rfl

theorem bytes_nat {v n : Nat} (hv : v < 2 ^ n) :
    (mkNat v n).bytes = .ok (beBytes ((n + 7) / 8) v) := by
  apply fillBytes_natCast
  refine lt_of_lt_of_le hv ?_
  have : (256 : Nat) = 2 ^ 8 := by norm_num
  rw [mkNat_nBits, this, ← pow_mul]
  exact Nat.pow_le_pow_right (by norm_num) (by omega)

end Verif.Model.BitBuffer
