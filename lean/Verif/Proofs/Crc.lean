import Verif.Proofs.Bits
import Verif.Model.Crc32

/-! The register implementation of CRC-32 agrees with the bit-by-bit polynomial division. -/

namespace Verif.Model

open Spec (bits_length)

theorem crcBit_xor (a b : BitVec 32) : crcBit (a ^^^ b) = crcBit a ^^^ crcBit b := by
  unfold crcBit
  rw [BitVec.getLsbD_xor, BitVec.ushiftRight_xor_distrib]
  cases a.getLsbD 0 <;> cases b.getLsbD 0 <;> simp only [Bool.xor_false,
    Bool.xor_true, Bool.not_true, Bool.not_false, if_true, Bool.false_eq_true, if_false]
  · rw [BitVec.xor_assoc]
  · rw [BitVec.xor_assoc, BitVec.xor_assoc, BitVec.xor_comm (b >>> 1)]
  · generalize a >>> 1 = x
    generalize b >>> 1 = y
    generalize (0xEDB88320#32) = p
    rw [show x ^^^ p ^^^ (y ^^^ p) = x ^^^ y ^^^ (p ^^^ p) by ac_rfl, BitVec.xor_self,
      BitVec.xor_zero]

/-- One message bit. -/
def crcMsgBit (c : BitVec 32) (b : Bool) : BitVec 32 := crcBit (c ^^^ BitVec.ofNat 32 b.toNat)

theorem ofNat_split (x : Nat) :
    BitVec.ofNat 32 x = BitVec.ofNat 32 (x % 2) ^^^ (BitVec.ofNat 32 (x / 2 * 2)) := by
  apply BitVec.eq_of_getLsbD_eq
  intro i hi
  simp only [BitVec.getLsbD_xor, BitVec.getLsbD_ofNat, hi, decide_true, Bool.true_and]
  cases i with
  | zero => simp [Nat.testBit_zero]
  | succ i =>
    rw [Nat.testBit_succ, Nat.testBit_succ, Nat.testBit_succ]
    simp

theorem crcBit_even (x : Nat) (hx : x < 2 ^ 31) :
    crcBit (BitVec.ofNat 32 (x * 2)) = BitVec.ofNat 32 x := by
  have h : (BitVec.ofNat 32 (x * 2)).getLsbD 0 = false := by
    rw [BitVec.getLsbD_ofNat, Nat.testBit_zero]
    simp
  rw [crcBit, h]
  simp only [Bool.false_eq_true, if_false]
  apply BitVec.eq_of_toNat_eq
  rw [BitVec.toNat_ushiftRight, BitVec.toNat_ofNat, BitVec.toNat_ofNat, Nat.shiftRight_eq_div_pow,
    Nat.mod_eq_of_lt (by omega), Nat.mod_eq_of_lt (by omega)]
  omega

/-- `n` register steps absorb an `n`-bit number, least significant bit first. -/
theorem crcBit_iterate (n : Nat) (hn : n ≤ 31) (c : BitVec 32) (x : Nat) (hx : x < 2 ^ n) :
    crcBit^[n] (c ^^^ BitVec.ofNat 32 x) = (Spec.bits n x).reverse.foldl crcMsgBit c := by
  induction n generalizing c x with
  | zero =>
    have : x = 0 := by simpa using hx
    subst this
    simp [Spec.bits]
  | succ n ih =>
    have hx2 : x / 2 < 2 ^ n := by rw [pow_succ] at hx; omega
    have hb : 2 ^ n ≤ 2 ^ 31 := Nat.pow_le_pow_right (by norm_num) (by omega)
    rw [Function.iterate_succ_apply, ofNat_split x, ← BitVec.xor_assoc, crcBit_xor,
      crcBit_even _ (by omega), ih (by omega) _ _ hx2]
    simp only [Spec.bits, List.reverse_append, List.reverse_cons, List.reverse_nil, List.nil_append,
      List.cons_append, List.foldl_cons, crcMsgBit]
    have : (x % 2 == 1).toNat = x % 2 := by
      rcases Nat.mod_two_eq_zero_or_one x with h | h <;> simp [h]
    rw [this]

theorem crcByte_bits (c : BitVec 32) (x : Byte) :
    crcByte c x = (Spec.bits 8 x.toNat).reverse.foldl crcMsgBit c :=
  crcBit_iterate 8 (by norm_num) c x.toNat x.toNat_lt

/-- The register as a list of bits, highest power first (bit 0 of the reflected register). -/
def regOf (c : BitVec 32) : List Bool := (List.range 32).map c.getLsbD

theorem regOf_length (c : BitVec 32) : (regOf c).length = 32 := by simp [regOf]

theorem regOf_shift (c : BitVec 32) : (regOf c).tail ++ [false] = regOf (c >>> 1) := by
  apply List.ext_getElem
  · simp [regOf]
  · intro i h1 h2
    have hi : i < 32 := by simpa [regOf] using h2
    simp only [regOf, List.getElem_map, List.getElem_range, BitVec.getLsbD_ushiftRight]
    by_cases h : i < 31
    · rw [List.getElem_append_left (by simp; omega)]
      simp [Nat.add_comm]
    · have : i = 31 := by omega
      subst this
      simp

theorem regOf_xor (a b : BitVec 32) :
    List.zipWith (· ^^ ·) (regOf a) (regOf b) = regOf (a ^^^ b) := by
  apply List.ext_getElem
  · simp [regOf]
  · intro i h1 h2
    simp [regOf]

theorem regOf_poly : regOf 0xEDB88320#32 = Spec.crcPoly := by decide +kernel

theorem crcShift_reg (c : BitVec 32) (b : Bool) :
    Spec.crcShift (regOf c) b = regOf (crcMsgBit c b) := by
  have hhead : (regOf c).headD false = c.getLsbD 0 := rfl
  have hb0 : (c ^^^ BitVec.ofNat 32 b.toNat).getLsbD 0 = (c.getLsbD 0 ^^ b) := by
    rw [BitVec.getLsbD_xor]
    cases b <;> rfl
  have hsh : (c ^^^ BitVec.ofNat 32 b.toNat) >>> 1 = c >>> 1 := by
    rw [BitVec.ushiftRight_xor_distrib]
    have : (BitVec.ofNat 32 b.toNat) >>> 1 = 0#32 := by cases b <;> decide
    rw [this, BitVec.xor_zero]
  rw [Spec.crcShift, hhead, regOf_shift, crcMsgBit, crcBit, hb0, hsh]
  cases c.getLsbD 0 ^^ b
  · simp
  · simp only [if_true]
    rw [← regOf_poly, regOf_xor]

theorem fold_reg (l : List Bool) (c : BitVec 32) :
    l.foldl Spec.crcShift (regOf c) = regOf (l.foldl crcMsgBit c) := by
  induction l generalizing c with
  | nil => rfl
  | cons b l ih => simp only [List.foldl_cons, crcShift_reg, ih]

theorem fold_bytes (data : Bytes) (c : BitVec 32) :
    (data.flatMap (fun x => (Spec.bits 8 x.toNat).reverse)).foldl crcMsgBit c =
      data.foldl crcByte c := by
  induction data generalizing c with
  | nil => rfl
  | cons x data ih => rw [List.flatMap_cons, List.foldl_append, ← crcByte_bits, ih]; rfl

theorem bits_getElem (n v i : Nat) (h : i < (Spec.bits n v).length) :
    (Spec.bits n v)[i] = v.testBit (n - 1 - i) := by
  induction n generalizing v i with
  | zero => simp at h
  | succ n ih =>
    simp only [Spec.bits]
    by_cases hi : i < n
    · rw [List.getElem_append_left (by simpa using hi), ih,
        show n + 1 - 1 - i = n - 1 - i + 1 by omega, Nat.testBit_succ]
    · have : i = n := by simp at h; omega
      subst this
      rw [List.getElem_append_right (by simp)]
      simp only [bits_length, Nat.sub_self, List.getElem_cons_zero, Nat.add_sub_cancel,
        Nat.testBit_zero]
      exact Bool.beq_eq_decide_eq _ _

theorem regOf_not_reverse (c : BitVec 32) :
    ((regOf c).map not).reverse = Spec.bits 32 (~~~c).toNat := by
  apply List.ext_getElem
  · simp [regOf]
  · intro i h1 h2
    have hi : i < 32 := by simpa using h2
    rw [bits_getElem, List.getElem_reverse]
    simp only [regOf, List.getElem_map, List.getElem_range, List.length_map, List.length_range]
    have : (~~~c).toNat.testBit (32 - 1 - i) = (~~~c).getLsbD (32 - 1 - i) := rfl
    rw [this, BitVec.getLsbD_not]
    simp only [show 32 - 1 - i < 32 by omega, decide_true, Bool.true_and]

/-- The register CRC is the polynomial-division CRC. -/
theorem crc32_spec (data : Bytes) : Spec.crc32 data = (crc32 data).toNat := by
  have h1 : List.replicate 32 true = regOf 0xFFFFFFFF#32 := by decide +kernel
  rw [Spec.crc32, h1, fold_reg, fold_bytes, regOf_not_reverse, Spec.val_bits, ← crc32]
  exact Nat.mod_eq_of_lt (crc32 data).isLt

-- README.md (test vector for "hey"): the checksum of "hey" is 0b10000; and the standard CRC check value.
example : (crc32 [0x68, 0x65, 0x79]).toNat % 32 = 16 := by decide +kernel
example : crc32 [0x31, 0x32, 0x33, 0x34, 0x35, 0x36, 0x37, 0x38, 0x39] = 0xCBF43926#32 := by decide +kernel

end Verif.Model
