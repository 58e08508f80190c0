import Verif.Proofs.PhraseRoundTrip
import Mathlib.Data.List.Nodup

/-! The CRC register is linear over XOR; syndromes of codewords. -/

namespace Verif.Model

open Verif.Spec

theorem crcStep8_xor (a b : BitVec 32) : crcStep8 (a ^^^ b) = crcStep8 a ^^^ crcStep8 b := by
  simp only [crcStep8, crcBit_xor]

theorem crcByte_xor (a b : BitVec 32) (x y : Byte) :
    crcByte (a ^^^ b) (x ^^^ y) = crcByte a x ^^^ crcByte b y := by
  have h : BitVec.ofNat 32 (x ^^^ y).toNat =
      BitVec.ofNat 32 x.toNat ^^^ BitVec.ofNat 32 y.toNat := by
    apply BitVec.eq_of_toNat_eq
    have hx := x.toNat_lt
    have hy := y.toNat_lt
    have hxy := (x ^^^ y).toNat_lt
    rw [BitVec.toNat_xor, BitVec.toNat_ofNat, BitVec.toNat_ofNat, BitVec.toNat_ofNat,
      Nat.mod_eq_of_lt (by omega), Nat.mod_eq_of_lt (by omega), Nat.mod_eq_of_lt (by omega),
      UInt8.toNat_xor]
  rw [crcByte, crcByte, crcByte, h, ← crcStep8_xor]
  congr 1
  ac_rfl

theorem crcReg_xor (a b : BitVec 32) (l m : Bytes) (h : l.length = m.length) :
    (List.zipWith (· ^^^ ·) l m).foldl crcByte (a ^^^ b) =
      l.foldl crcByte a ^^^ m.foldl crcByte b := by
  induction l generalizing a b m with
  | nil =>
    cases m with
    | nil => rfl
    | cons => simp at h
  | cons x l ih =>
    cases m with
    | nil => simp at h
    | cons y m =>
      simp only [List.zipWith_cons_cons, List.foldl_cons, crcByte_xor]
      exact ih _ _ _ (by simpa using h)

theorem beBytes_xor (n v w : Nat) :
    beBytes n (v ^^^ w) = List.zipWith (· ^^^ ·) (beBytes n v) (beBytes n w) := by
  induction n generalizing v w with
  | zero => rfl
  | succ n ih =>
    have h1 : (v ^^^ w) / 256 = v / 256 ^^^ w / 256 := Nat.xor_div_two_pow (n := 8)
    have h2 : (v ^^^ w) % 256 = v % 256 ^^^ w % 256 := Nat.xor_mod_two_pow (n := 8)
    simp only [beBytes]
    rw [h1, ih, List.zipWith_append (by simp)]
    congr 1
    simp only [List.zipWith_cons_cons, List.zipWith_nil_right, List.cons.injEq, and_true]
    apply UInt8.toNat_inj.mp
    rw [UInt8.toNat_xor]
    simp only [UInt8.toNat_ofNat']
    norm_num
    exact h2

/-- The linear part of the syndrome of a difference pattern. -/
def lin (nb d : Nat) : Nat :=
  ((beBytes nb (d / 32)).foldl crcByte 0#32).toNat % 32 ^^^ d % 32

/-- The syndrome of a codeword: zero iff the checksum is right. -/
def synd (nb w : Nat) : Nat := checksum5 (beBytes nb (w / 32)) ^^^ w % 32

theorem xor_eq_zero (a b : Nat) : a ^^^ b = 0 ↔ a = b := by
  constructor
  · intro h
    apply Nat.eq_of_testBit_eq
    intro i
    have := congrArg (fun n => n.testBit i) h
    simp only [Nat.testBit_xor, Nat.zero_testBit] at this
    cases ha : a.testBit i <;> cases hb : b.testBit i <;> simp_all
  · rintro rfl; exact Nat.xor_self _

theorem synd_eq_zero (nb w : Nat) :
    synd nb w = 0 ↔ checksum5 (beBytes nb (w / 32)) = w % 32 := xor_eq_zero _ _

theorem crc32_xor (nb p d : Nat) :
    crc32 (beBytes nb (p ^^^ d)) =
      crc32 (beBytes nb p) ^^^ (beBytes nb d).foldl crcByte 0#32 := by
  have h := crcReg_xor 0xFFFFFFFF#32 0#32 (beBytes nb p) (beBytes nb d) (by simp)
  rw [BitVec.xor_zero] at h
  rw [crc32, crc32, beBytes_xor, h, BitVec.not_xor_left]

theorem synd_xor (nb w d : Nat) : synd nb (w ^^^ d) = synd nb w ^^^ lin nb d := by
  have h1 : (w ^^^ d) / 32 = w / 32 ^^^ d / 32 := Nat.xor_div_two_pow (n := 5)
  have h2 : (w ^^^ d) % 32 = w % 32 ^^^ d % 32 := Nat.xor_mod_two_pow (n := 5)
  have h3 : ∀ a b : Nat, (a ^^^ b) % 32 = a % 32 ^^^ b % 32 :=
    fun a b => Nat.xor_mod_two_pow (n := 5)
  rw [synd, synd, lin, h1, h2, checksum5_eq, checksum5_eq, crc32_xor, BitVec.toNat_xor, h3]
  ac_rfl

theorem lin_xor (nb d e : Nat) : lin nb (d ^^^ e) = lin nb d ^^^ lin nb e := by
  have h1 : (d ^^^ e) / 32 = d / 32 ^^^ e / 32 := Nat.xor_div_two_pow (n := 5)
  have h2 : (d ^^^ e) % 32 = d % 32 ^^^ e % 32 := Nat.xor_mod_two_pow (n := 5)
  have h3 : ∀ a b : Nat, (a ^^^ b) % 32 = a % 32 ^^^ b % 32 :=
    fun a b => Nat.xor_mod_two_pow (n := 5)
  have h := crcReg_xor 0#32 0#32 (beBytes nb (d / 32)) (beBytes nb (e / 32)) (by simp)
  rw [BitVec.xor_zero] at h
  rw [lin, lin, lin, h1, h2, beBytes_xor, h, BitVec.toNat_xor, h3]
  ac_rfl

/-! ### Evaluation in the kernel -/

/-- `crcBit` on natural numbers. -/
def crcBitN (c : Nat) : Nat := if c % 2 = 1 then c / 2 ^^^ 0xEDB88320 else c / 2

theorem crcBit_toNat (c : BitVec 32) : (crcBit c).toNat = crcBitN c.toNat := by
  have h : c.getLsbD 0 = decide (c.toNat % 2 = 1) := by
    rw [BitVec.getLsbD, Nat.testBit_zero]
  rw [crcBit, h, crcBitN]
  by_cases hc : c.toNat % 2 = 1
  · simp only [hc, decide_true, if_true, BitVec.toNat_xor, BitVec.toNat_ushiftRight,
      Nat.shiftRight_eq_div_pow, pow_one]
    rfl
  · simp only [hc, decide_false, Bool.false_eq_true, if_false, BitVec.toNat_ushiftRight,
      Nat.shiftRight_eq_div_pow, pow_one]

/-- The register after the low `n` bytes of `v`, from a zero register. -/
def crcRegN : Nat → Nat → Nat
  | 0, _ => 0
  | n + 1, v =>
    crcBitN (crcBitN (crcBitN (crcBitN (crcBitN (crcBitN (crcBitN (crcBitN
      (crcRegN n (v / 256) ^^^ v % 256))))))))

theorem crcRegN_eq (n v : Nat) :
    ((beBytes n v).foldl crcByte 0#32).toNat = crcRegN n v := by
  induction n generalizing v with
  | zero => rfl
  | succ n ih =>
    have hb : (BitVec.ofNat 32 (UInt8.ofNat v).toNat).toNat = v % 256 := by
      rw [BitVec.toNat_ofNat, UInt8.toNat_ofNat']
      omega
    rw [beBytes, List.foldl_append, List.foldl_cons, List.foldl_nil, crcByte, crcStep8]
    simp only [crcBit_toNat, BitVec.toNat_xor, ih, crcRegN, hb]

/-- `lin` on natural numbers. -/
def linN (nb d : Nat) : Nat := crcRegN nb (d / 32) % 32 ^^^ d % 32

theorem lin_eq (nb d : Nat) : lin nb d = linN nb d := by rw [lin, linN, crcRegN_eq]

/-! ### XOR and digits -/

theorem xor_split (a b c d k : Nat) (hb : b < 2 ^ k) (hd : d < 2 ^ k) :
    (a * 2 ^ k + b) ^^^ (c * 2 ^ k + d) = (a ^^^ c) * 2 ^ k + (b ^^^ d) := by
  have hbd : b ^^^ d < 2 ^ k := Nat.xor_lt_two_pow hb hd
  apply Nat.eq_of_testBit_eq
  intro i
  rw [Nat.testBit_xor, Nat.mul_comm a, Nat.mul_comm c, Nat.mul_comm (a ^^^ c),
    Nat.testBit_two_pow_mul_add a hb, Nat.testBit_two_pow_mul_add c hd,
    Nat.testBit_two_pow_mul_add _ hbd]
  split <;> simp [Nat.testBit_xor]

/-- Replacing one digit is an XOR with a shifted difference. -/
theorem ofDigits_set {is : List Nat} (hlt : ∀ x ∈ is, x < 4096) {i d j : Nat}
    (hi : is[i]? = some d) (hj : j < 4096) :
    ofDigitsBE 4096 (is.set i j) =
      ofDigitsBE 4096 is ^^^ ((d ^^^ j) * 2 ^ (12 * (is.length - 1 - i))) := by
  induction is generalizing i with
  | nil => simp at hi
  | cons x is ih =>
    have hx := hlt x (List.mem_cons_self ..)
    have hlt' : ∀ y ∈ is, y < 4096 := fun y hy => hlt y (List.mem_cons_of_mem _ hy)
    have hpow : (4096 : Nat) ^ is.length = 2 ^ (12 * is.length) := by
      rw [pow_mul]; norm_num
    have hB : ofDigitsBE 4096 is < 2 ^ (12 * is.length) := by
      rw [← hpow]; exact ofDigitsBE_lt hlt'
    cases i with
    | zero =>
      simp only [List.getElem?_cons_zero, Option.some.injEq] at hi
      subst hi
      simp only [List.set_cons_zero, ofDigitsBE_cons, List.length_cons, Nat.add_sub_cancel,
        Nat.sub_zero]
      rw [hpow]
      have := xor_split x (ofDigitsBE 4096 is) (x ^^^ j) 0 (12 * is.length) hB (by positivity)
      rw [Nat.add_zero, Nat.xor_zero, ← Nat.xor_assoc, Nat.xor_self, Nat.zero_xor] at this
      exact this.symm
    | succ i =>
      simp only [List.getElem?_cons_succ] at hi
      have hil : i < is.length := by
        by_contra h
        rw [List.getElem?_eq_none (by omega)] at hi
        simp at hi
      have hd : d < 4096 := hlt' d (List.mem_of_getElem? hi)
      have hxd : d ^^^ j < 2 ^ 12 := Nat.xor_lt_two_pow (n := 12) hd hj
      have hD : (d ^^^ j) * 2 ^ (12 * (is.length - 1 - i)) < 2 ^ (12 * is.length) := by
        calc (d ^^^ j) * 2 ^ (12 * (is.length - 1 - i))
            < 2 ^ 12 * 2 ^ (12 * (is.length - 1 - i)) :=
              Nat.mul_lt_mul_of_pos_right hxd (by positivity)
          _ = 2 ^ (12 + 12 * (is.length - 1 - i)) := by rw [pow_add]
          _ ≤ 2 ^ (12 * is.length) := Nat.pow_le_pow_right (by norm_num) (by omega)
      simp only [List.set_cons_succ, ofDigitsBE_cons, List.length_set, List.length_cons]
      rw [ih hlt' hi, hpow, show is.length + 1 - 1 - (i + 1) = is.length - 1 - i by omega]
      have := xor_split x (ofDigitsBE 4096 is) 0 ((d ^^^ j) * 2 ^ (12 * (is.length - 1 - i)))
        (12 * is.length) hB hD
      rw [Nat.zero_mul, Nat.zero_add, Nat.xor_zero] at this
      exact this.symm

/-! ### Counting -/

/-- Number of `x < 2^k` with `f x = s`, for a linear `f` with values `a` on the powers of two. -/
def countLin : List Nat → Nat → Nat
  | [], s => if s = 0 then 1 else 0
  | a :: as, s => countLin as s + countLin as (s ^^^ a)

theorem range_two_pow_succ (k : Nat) :
    List.range (2 ^ (k + 1)) = List.range (2 ^ k) ++ (List.range (2 ^ k)).map (2 ^ k + ·) := by
  rw [pow_succ, Nat.mul_two, List.range_add]

theorem count_linear (f : Nat → Nat) (hf : ∀ x y, f (x ^^^ y) = f x ^^^ f y) (k s : Nat) :
    ((List.range (2 ^ k)).filter (fun x => decide (f x = s))).length =
      countLin ((List.range k).reverse.map (fun i => f (2 ^ i))) s := by
  induction k generalizing s with
  | zero =>
    have h0 : f 0 = 0 := by
      have := hf 0 0
      rw [Nat.xor_self, Nat.xor_self] at this
      exact this
    by_cases hs : s = 0
    · simp [countLin, h0, hs]
    · have : ¬ 0 = s := fun h => hs h.symm
      simp [countLin, h0, hs, this]
  | succ k ih =>
    rw [range_two_pow_succ, List.filter_append, List.length_append, ih, List.filter_map,
      List.length_map, List.range_succ, List.reverse_append]
    simp only [List.reverse_cons, List.reverse_nil, List.nil_append, List.cons_append,
      List.map_cons, countLin]
    congr 1
    rw [← ih]
    congr 1
    apply List.filter_congr
    intro x hx
    rw [List.mem_range] at hx
    have hadd : 2 ^ k + x = 2 ^ k ^^^ x := by
      have := xor_split 1 0 0 x k (by positivity) hx
      simp at this
      exact this.symm
    simp only [Function.comp, hadd, hf, decide_eq_decide]
    constructor
    · rintro rfl
      rw [Nat.xor_comm (f (2 ^ k)), Nat.xor_assoc, Nat.xor_self, Nat.xor_zero]
    · intro h
      rw [h, Nat.xor_comm s, ← Nat.xor_assoc, Nat.xor_self, Nat.zero_xor]

/-- Shifting a full range of `2^k` numbers by XOR permutes it. -/
theorem filter_xor_range (k d : Nat) (hd : d < 2 ^ k) (P : Nat → Bool) :
    ((List.range (2 ^ k)).filter (fun j => P (d ^^^ j))).length =
      ((List.range (2 ^ k)).filter P).length := by
  have hperm : ((List.range (2 ^ k)).map (d ^^^ ·)).Perm (List.range (2 ^ k)) := by
    apply (List.perm_ext_iff_of_nodup ?_ List.nodup_range).mpr
    · intro x
      simp only [List.mem_map, List.mem_range]
      constructor
      · rintro ⟨y, hy, rfl⟩; exact Nat.xor_lt_two_pow hd hy
      · intro hx
        refine ⟨d ^^^ x, Nat.xor_lt_two_pow hd hx, ?_⟩
        rw [← Nat.xor_assoc, Nat.xor_self, Nat.zero_xor]
    · apply List.Nodup.map _ List.nodup_range
      intro x y hxy
      simp only at hxy
      have := congrArg (d ^^^ ·) hxy
      simpa [← Nat.xor_assoc] using this
  have h1 := (hperm.filter P).length_eq
  rw [List.filter_map, List.length_map] at h1
  exact h1

end Verif.Model
