import Verif.Spec.Phrase
import Verif.Proofs.BigInt
import Verif.Proofs.Digits

/-! Facts on bit strings; bridge to arithmetic. -/

namespace Verif.Spec

@[simp] theorem bits_length (n v : Nat) : (bits n v).length = n := by
  induction n generalizing v with
  | zero => rfl
  | succ n ih => simp [bits, ih]

@[simp] theorem val_nil : val [] = 0 := rfl

theorem val_concat (l : List Bool) (b : Bool) : val (l ++ [b]) = 2 * val l + b.toNat := by
  simp [val]

theorem val_append (l m : List Bool) : val (l ++ m) = val l * 2 ^ m.length + val m := by
  induction m using List.reverseRecOn with
  | nil => simp
  | append_singleton m x ih =>
    rw [← List.append_assoc, val_concat, val_concat, ih]
    simp only [List.length_append, List.length_singleton, pow_succ]
    ring

theorem val_lt (l : List Bool) : val l < 2 ^ l.length := by
  induction l using List.reverseRecOn with
  | nil => simp
  | append_singleton l x ih =>
    rw [val_concat]
    have : x.toNat ≤ 1 := Bool.toNat_le x
    simp only [List.length_append, List.length_singleton, pow_succ]
    omega

theorem val_bits (n v : Nat) : val (bits n v) = v % 2 ^ n := by
  induction n generalizing v with
  | zero => simp [bits, Nat.mod_one]
  | succ n ih =>
    rw [bits, val_concat, ih, pow_succ, Nat.mul_comm (2 ^ n) 2, Nat.mod_mul]
    have : (v % 2 == 1).toNat = v % 2 := by
      rcases Nat.mod_two_eq_zero_or_one v with h | h <;> simp [h]
    omega

theorem val_bits_of_lt {n v : Nat} (h : v < 2 ^ n) : val (bits n v) = v := by
  rw [val_bits, Nat.mod_eq_of_lt h]

theorem bits_val (l : List Bool) : bits l.length (val l) = l := by
  induction l using List.reverseRecOn with
  | nil => rfl
  | append_singleton l x ih =>
    simp only [List.length_append, List.length_singleton, bits, val_concat]
    have h1 : (2 * val l + x.toNat) / 2 = val l := by
      have : x.toNat ≤ 1 := Bool.toNat_le x
      omega
    have h2 : ((2 * val l + x.toNat) % 2 == 1) = x := by
      cases x <;> simp
    rw [h1, h2, ih]

theorem val_inj {l m : List Bool} (h : l.length = m.length) (hv : val l = val m) : l = m := by
  rw [← bits_val l, ← bits_val m, h, hv]

theorem bits_mod (n v : Nat) : bits n (v % 2 ^ n) = bits n v := by
  apply val_inj
  · simp
  · rw [val_bits, val_bits, Nat.mod_mod]

theorem bits_append {b y : Nat} (a x : Nat) (hy : y < 2 ^ b) :
    bits a x ++ bits b y = bits (a + b) (x * 2 ^ b + y) := by
  apply val_inj
  · simp
  · rw [val_append, val_bits, val_bits, val_bits, bits_length, Nat.mod_eq_of_lt hy, pow_add,
      Nat.mul_comm (2 ^ a) (2 ^ b), Nat.mod_mul, Nat.mul_comm x]
    rw [Nat.mul_add_mod, Nat.mod_eq_of_lt hy, Nat.mul_add_div (by positivity),
      Nat.div_eq_of_lt hy]
    ring_nf

theorem bits_add (a b v : Nat) : bits (a + b) v = bits a (v / 2 ^ b) ++ bits b v := by
  rw [← bits_mod b v, bits_append _ _ (Nat.mod_lt _ (by positivity)), Nat.div_add_mod']

theorem take_bits {a n : Nat} (v : Nat) (h : a ≤ n) :
    (bits n v).take a = bits a (v / 2 ^ (n - a)) := by
  obtain ⟨b, rfl⟩ := Nat.exists_eq_add_of_le h
  rw [bits_add, Nat.add_sub_cancel_left, List.take_left' (bits_length _ _)]

theorem drop_bits {a n : Nat} (v : Nat) (h : a ≤ n) :
    (bits n v).drop a = bits (n - a) v := by
  obtain ⟨b, rfl⟩ := Nat.exists_eq_add_of_le h
  rw [bits_add, Nat.add_sub_cancel_left, List.drop_left' (bits_length _ _)]

theorem field_bits {n s k : Nat} (v : Nat) (h : s + k ≤ n) :
    field (bits n v) s k = v / 2 ^ (n - s - k) % 2 ^ k := by
  rw [field, drop_bits v (by omega), take_bits v (by omega), val_bits]

theorem groups_bits (k n v : Nat) :
    (groups k n (bits (k * n) v)).map val = digitsBE (2 ^ k) n v := by
  induction n generalizing v with
  | zero => rfl
  | succ n ih =>
    have e : k * (n + 1) = k + k * n := by ring
    rw [groups, e, take_bits v (by omega), drop_bits v (by omega), Nat.add_sub_cancel_left,
      List.map_cons, ih, val_bits, digitsBE_succ_cons, pow_mul]

theorem replicate_false (n : Nat) : List.replicate n false = bits n 0 := by
  induction n with
  | zero => rfl
  | succ n ih => rw [List.replicate_succ', ih, bits]; simp

theorem beBytes_eq_digits (n v : Nat) :
    Model.beBytes n v = (digitsBE 256 n v).map UInt8.ofNat := by
  induction n generalizing v with
  | zero => rfl
  | succ n ih =>
    rw [Model.beBytes, digitsBE, ih]
    simp only [List.map_append, List.map_cons, List.map_nil]
    congr 2
    apply UInt8.toNat_inj.mp
    simp

theorem toBytes_bits (n v : Nat) (h : v < 2 ^ n) :
    toBytes (bits n v) = Model.beBytes ((n + 7) / 8) v := by
  simp only [toBytes, bits_length]
  rw [replicate_false, bits_append _ _ h]
  have e1 : 8 * ((n + 7) / 8) - n + n = 8 * ((n + 7) / 8) := by omega
  have e2 : 0 * 2 ^ n + v = v := by ring
  rw [e1, e2, beBytes_eq_digits]
  have := congrArg (List.map UInt8.ofNat) (groups_bits 8 ((n + 7) / 8) v)
  rw [List.map_map] at this
  exact this

theorem flatMap_bits (is : List Nat) (h : ∀ i ∈ is, i < 4096) :
    is.flatMap (bits 12) = bits (12 * is.length) (ofDigitsBE 4096 is) := by
  induction is with
  | nil => rfl
  | cons i is ih =>
    have hl := ofDigitsBE_lt (fun j hj => h j (List.mem_cons_of_mem _ hj))
    have hl' : ofDigitsBE 4096 is < 2 ^ (12 * is.length) := by
      rw [pow_mul]; exact hl
    rw [List.flatMap_cons, ih (fun j hj => h j (List.mem_cons_of_mem _ hj)), bits_append _ _ hl',
      ofDigitsBE_cons, List.length_cons]
    congr 1
    · ring
    · rw [pow_mul]; norm_num

end Verif.Spec
