import Verif.Model.BigInt
import Mathlib.Data.List.Induction
import Mathlib.Tactic.Ring
import Mathlib.Tactic.Linarith
import Mathlib.Tactic.NormNum

/-! Arithmetic form of the big.Int operations on non-negative values. -/

namespace Verif.Model

@[simp] theorem bitLen_natCast (n : Nat) : bitLen (n : Int) = n.size := by simp [bitLen]

theorem bitLen_le_iff (x : Int) (n : Nat) : bitLen x ≤ n ↔ x.natAbs < 2 ^ n := by
  simp [bitLen, Nat.size_le]

theorem lsh_natCast (v n : Nat) : lsh (v : Int) n = ((v * 2 ^ n : Nat) : Int) := by
  simp [lsh, Int.shiftLeft_eq]

theorem rsh_natCast (v n : Nat) : rsh (v : Int) n = ((v / 2 ^ n : Nat) : Int) := by
  simp [rsh, Int.shiftRight_eq_div_pow]

theorem land_natCast (a b : Nat) : Int.land (a : Int) (b : Int) = ((a &&& b : Nat) : Int) := rfl
theorem lor_natCast (a b : Nat) : Int.lor (a : Int) (b : Int) = ((a ||| b : Nat) : Int) := rfl
theorem xor_natCast (a b : Nat) : Int.xor (a : Int) (b : Int) = ((a ^^^ b : Nat) : Int) := rfl

theorem mask_natCast (n : Nat) : lsh 1 n - 1 = ((2 ^ n - 1 : Nat) : Int) := by
  have h : 1 ≤ 2 ^ n := Nat.one_le_two_pow
  simp [lsh, Int.shiftLeft_eq]

theorem mask_land (v n : Nat) : Int.land (lsh 1 n - 1) (v : Int) = ((v % 2 ^ n : Nat) : Int) := by
  rw [mask_natCast, land_natCast, Nat.and_comm, Nat.and_two_pow_sub_one_eq_mod]

theorem lor_append (v w x : Nat) (h : x < 2 ^ w) :
    Int.lor (lsh (v : Int) w) (x : Int) = ((v * 2 ^ w + x : Nat) : Int) := by
  rw [lsh_natCast, lor_natCast]
  congr 1
  rw [Nat.mul_comm, Nat.two_pow_add_eq_or_of_lt h]

theorem lor_prepend (v n x : Nat) (h : v < 2 ^ n) :
    Int.lor (v : Int) (lsh (x : Int) n) = ((x * 2 ^ n + v : Nat) : Int) := by
  rw [lsh_natCast, lor_natCast]
  congr 1
  rw [Nat.or_comm, Nat.mul_comm, Nat.two_pow_add_eq_or_of_lt h]

theorem nat_xor_high (v k : Nat) : v ^^^ (v / 2 ^ k * 2 ^ k) = v % 2 ^ k := by
  apply Nat.eq_of_testBit_eq
  intro i
  rw [Nat.testBit_xor, ← Nat.shiftLeft_eq, Nat.testBit_shiftLeft, Nat.testBit_mod_two_pow,
    Nat.testBit_div_two_pow]
  by_cases h : i < k
  · have : ¬ k ≤ i := by omega
    simp [h, this]
  · have h' : k ≤ i := by omega
    simp [h, h']

theorem xor_high (v k : Nat) :
    Int.xor (v : Int) (lsh ((v / 2 ^ k : Nat) : Int) k) = ((v % 2 ^ k : Nat) : Int) := by
  rw [lsh_natCast, xor_natCast, nat_xor_high]

@[simp] theorem uint64_natCast (v : Nat) : uint64 (v : Int) = v % 2 ^ 64 := by
  simp only [uint64, Int.natAbs_natCast]

@[simp] theorem beBytes_length (n v : Nat) : (beBytes n v).length = n := by
  induction n generalizing v with
  | zero => rfl
  | succ n ih => simp [beBytes, ih]

theorem setBytes_append (a b : Bytes) :
    setBytes (a ++ b) = setBytes a * 256 ^ b.length + setBytes b := by
  induction b using List.reverseRecOn with
  | nil => simp [setBytes]
  | append_singleton b x ih =>
    rw [← List.append_assoc]
    have e1 : setBytes (a ++ b ++ [x]) = setBytes (a ++ b) * 256 + x.toNat := by simp [setBytes]
    have e2 : setBytes (b ++ [x]) = setBytes b * 256 + x.toNat := by simp [setBytes]
    rw [e1, e2, ih]
    simp only [List.length_append, List.length_singleton, pow_succ]
    ring

@[simp] theorem setBytes_nil : setBytes [] = 0 := rfl

theorem setBytes_append_singleton (a : Bytes) (x : Byte) :
    setBytes (a ++ [x]) = setBytes a * 256 + x.toNat := by simp [setBytes]

theorem setBytes_lt (b : Bytes) : setBytes b < 256 ^ b.length := by
  induction b using List.reverseRecOn with
  | nil => simp
  | append_singleton b x ih =>
    rw [setBytes_append_singleton]
    have := x.toNat_lt
    simp only [List.length_append, List.length_singleton, pow_succ]
    omega

theorem setBytes_beBytes (n v : Nat) : setBytes (beBytes n v) = v % 256 ^ n := by
  induction n generalizing v with
  | zero => simp [beBytes, Nat.mod_one]
  | succ n ih =>
    rw [beBytes, setBytes_append_singleton, ih, pow_succ, Nat.mul_comm (256 ^ n) 256, Nat.mod_mul]
    simp only [UInt8.toNat_ofNat']
    omega

theorem beBytes_setBytes (b : Bytes) : beBytes b.length (setBytes b) = b := by
  induction b using List.reverseRecOn with
  | nil => rfl
  | append_singleton b x ih =>
    have hx := x.toNat_lt
    simp only [List.length_append, List.length_singleton, beBytes, setBytes_append_singleton]
    have h1 : (setBytes b * 256 + x.toNat) / 256 = setBytes b := by omega
    rw [h1, ih]
    congr 2
    apply UInt8.toNat_inj.mp
    simp only [UInt8.toNat_ofNat']
    omega

theorem fillBytes_natCast (v n : Nat) (h : v < 256 ^ n) :
    fillBytes (v : Int) n = .ok (beBytes n v) := by
  simp [fillBytes, h]

end Verif.Model
