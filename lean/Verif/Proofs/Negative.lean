import Verif.Proofs.BitBuffer
import Verif.Proofs.Mnemonic
import Verif.Model.Encoding

/-! Negative integers in the bit buffer and the index encoder. -/

namespace Verif.Model

theorem encodeLoop_neg (i m : Nat) (acc : List Nat) :
    encodeLoop i (Int.negSucc m) acc = .panic .indexOutOfRange := by
  have hb : ∀ m, bitLen (Int.negSucc m) > 0 := by
    intro m
    have h : (Int.negSucc m).natAbs = m + 1 := rfl
    rw [bitLen, h]
    have : 0 < (m + 1).size := Nat.size_pos.mpr (by omega)
    omega
  induction i generalizing m acc with
  | zero => rw [encodeLoop, if_pos (hb m)]
  | succ i ih =>
    rw [encodeLoop, if_pos (hb m)]
    have : rsh (Int.negSucc m) bitsPerWord = Int.negSucc (m >>> bitsPerWord) := rfl
    rw [this]
    exact ih _ _

theorem encodeToIndices_neg {m bitSize : Nat} (h : m + 1 < 2 ^ bitSize) :
    encodeToIndices (Int.negSucc m) bitSize = .panic .indexOutOfRange := by
  have hb : ¬ bitLen (Int.negSucc m) > bitSize := by
    have := (bitLen_le_iff (Int.negSucc m) bitSize).mpr (by simpa using h)
    omega
  unfold encodeToIndices
  rw [if_neg hb]
  exact encodeLoop_neg _ _ _

theorem lor_negSucc (m x : Nat) : Int.lor (Int.negSucc m) (x : Int) = Int.negSucc (Nat.ldiff m x) :=
  rfl

theorem ldiff_le (m x : Nat) : Nat.ldiff m x ≤ m := by
  apply Nat.le_of_testBit
  intro i h
  rw [Nat.testBit_ldiff] at h
  simp only [Bool.and_eq_true] at h
  exact h.1

theorem lsh_negSucc (m w : Nat) : lsh (Int.negSucc m) w = Int.negSucc ((m + 1) * 2 ^ w - 1) := by
  have h : 1 ≤ (m + 1) * 2 ^ w := Nat.mul_pos (by omega) (by positivity)
  rw [lsh, Int.shiftLeft_eq]
  rw [Int.negSucc_eq, Int.negSucc_eq]
  push_cast [Nat.cast_sub h]
  ring

theorem appendTrailing_neg {m n x w : Nat} (h : x < 2 ^ w) :
    ∃ m', m' + 1 ≤ (m + 1) * 2 ^ w ∧
      ({ value := Int.negSucc m, nBits := n } : BitBuffer).appendTrailingBits (x : Int) w =
        .ok { value := Int.negSucc m', nBits := n + w } := by
  have h2 : ¬ x.size > w := by rw [BitBuffer.size_gt_iff]; omega
  have h1 : 1 ≤ (m + 1) * 2 ^ w := Nat.mul_pos (by omega) (by positivity)
  refine ⟨Nat.ldiff ((m + 1) * 2 ^ w - 1) x, ?_, ?_⟩
  · have := ldiff_le ((m + 1) * 2 ^ w - 1) x
    omega
  · unfold BitBuffer.appendTrailingBits
    rw [bitLen_natCast, if_neg h2, lsh_negSucc, lor_negSucc]

end Verif.Model
