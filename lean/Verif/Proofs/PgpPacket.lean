import Verif.Spec.OpenPGP
import Verif.Model.Pgp.Packet
import Verif.Proofs.BigInt

/-! The reader undoes packet framing, MPIs, lengths and checksums. -/

namespace Verif.Proofs

open Verif.Model Verif.Model.Pgp Verif.Spec.OpenPGP

theorem num_eq (b : Bytes) : num b = setBytes b := by
  simp only [num, setBytes, Nat.mul_comm]

theorem octets_eq (n v : Nat) : octets n v = beBytes n v := by
  induction n generalizing v with
  | zero => rfl
  | succ n ih =>
    rw [beBytes, ← ih]
    simp only [octets, List.range_succ, List.map_append, List.map_cons, List.map_nil]
    congr 1
    · apply List.map_congr_left
      intro i hi
      rw [List.mem_range] at hi
      have : n + 1 - 1 - i = (n - 1 - i) + 1 := by omega
      rw [this, pow_succ, Nat.mul_comm, Nat.div_div_eq_div_mul]
    · simp

@[simp] theorem octets_length (n v : Nat) : (octets n v).length = n := by simp [octets]

theorem split_append (a b : Bytes) {n : Nat} (h : n = a.length) : split n (a ++ b) = some (a, b) := by
  subst h
  simp [split]

theorem num_octets {n v : Nat} (h : v < 256 ^ n) : num (octets n v) = v := by
  rw [num_eq, octets_eq, setBytes_beBytes, Nat.mod_eq_of_lt h]

theorem num_beBytes {n v : Nat} (h : v < 256 ^ n) : num (beBytes n v) = v := by
  rw [num_eq, setBytes_beBytes, Nat.mod_eq_of_lt h]

theorem num_beBytes_mod (n v : Nat) : num (beBytes n v) = v % 256 ^ n := by
  rw [num_eq, setBytes_beBytes]

theorem ofNat_toNat {n : Nat} (h : n < 256) : (UInt8.ofNat n).toNat = n := by
  simp only [UInt8.toNat_ofNat']; omega

theorem len2_first {n : Nat} (h1 : ¬ n ≤ 191) (h2 : n ≤ 8383) :
    (UInt8.ofNat ((n - 192) >>> 8) + 192).toNat = 192 + (n - 192) / 256 := by
  rw [UInt8.toNat_add, UInt8.toNat_ofNat', Nat.shiftRight_eq_div_pow]
  have : (192 : UInt8).toNat = 192 := rfl
  rw [this]
  omega

theorem readLength_encode (n : Nat) (h : n < 2 ^ 32) (rest : Bytes) :
    readLength (packetLengthEncode n ++ rest) = some (n, rest) := by
  unfold packetLengthEncode
  by_cases h1 : n ≤ 191
  · rw [if_pos h1]
    have : (UInt8.ofNat n).toNat = n := ofNat_toNat (by omega)
    simp [readLength, this, show n < 192 by omega]
  · rw [if_neg h1]
    by_cases h2 : n ≤ 8383
    · rw [if_pos h2]
      have e1 := len2_first h1 h2
      have e2 : (UInt8.ofNat (n - 192)).toNat = (n - 192) % 256 := by
        simp [UInt8.toNat_ofNat']
      have hb : (n - 192) / 256 < 32 := by omega
      simp only [List.cons_append, List.nil_append, readLength, e1, e2]
      rw [if_neg (by omega), if_pos (by omega)]
      rw [show (192 + (n - 192) / 256 - 192) * 256 + (n - 192) % 256 + 192 = n by omega]
    · rw [if_neg h2]
      have hff : (0xFF : UInt8).toNat = 255 := rfl
      simp only [List.cons_append, readLength, hff]
      rw [if_neg (by omega), if_neg (by omega), if_pos trivial,
        split_append _ _ (beBytes_length 4 n).symm]
      simp only [Option.bind_eq_bind, Option.bind_some]
      rw [num_beBytes (by norm_num; omega)]

theorem readSubLength_encode (n : Nat) (h : n < 2 ^ 32) (rest : Bytes) :
    readSubLength (packetLengthEncode n ++ rest) = some (n, rest) := by
  unfold packetLengthEncode
  by_cases h1 : n ≤ 191
  · rw [if_pos h1]
    have : (UInt8.ofNat n).toNat = n := ofNat_toNat (by omega)
    simp [readSubLength, this, show n < 192 by omega]
  · rw [if_neg h1]
    by_cases h2 : n ≤ 8383
    · rw [if_pos h2]
      have e1 := len2_first h1 h2
      have e2 : (UInt8.ofNat (n - 192)).toNat = (n - 192) % 256 := by
        simp [UInt8.toNat_ofNat']
      have hb : (n - 192) / 256 < 32 := by omega
      simp only [List.cons_append, List.nil_append, readSubLength, e1, e2]
      rw [if_neg (by omega), if_pos (by omega)]
      rw [show (192 + (n - 192) / 256 - 192) * 256 + (n - 192) % 256 + 192 = n by omega]
    · rw [if_neg h2]
      have hff : (0xFF : UInt8).toNat = 255 := rfl
      simp only [List.cons_append, readSubLength, hff]
      rw [if_neg (by omega), if_neg (by omega), split_append _ _ (beBytes_length 4 n).symm]
      simp only [Option.bind_eq_bind, Option.bind_some]
      rw [num_beBytes (by norm_num; omega)]

theorem or_c0 {t : Byte} (h : t.toNat < 64) : (0b11000000 ||| t).toNat = 192 + t.toNat := by
  rw [UInt8.toNat_or]
  have : (0b11000000 : UInt8).toNat = 2 ^ 6 * 3 := rfl
  rw [this, ← Nat.two_pow_add_eq_or_of_lt (by omega)]

theorem readPacket_encode (tag : Byte) (ht : tag.toNat < 64) (body rest : Bytes)
    (hb : body.length < 2 ^ 32) :
    readPacket (encodePacket tag body ++ rest) = some ((tag.toNat, body), rest) := by
  simp only [encodePacket, List.cons_append, readPacket, or_c0 ht]
  rw [if_neg (by omega), List.append_assoc, readLength_encode _ hb]
  simp only [Option.bind_eq_bind, Option.bind_some]
  rw [split_append _ _ rfl]
  simp

theorem encodePacket_length (tag : Byte) (body : Bytes) : 2 ≤ (encodePacket tag body).length := by
  have : 1 ≤ (packetLengthEncode body.length).length := by
    unfold packetLengthEncode
    split
    · simp
    · split <;> simp
  simp [encodePacket]; omega

theorem readPacketsFuel_flatten (ps : List (Byte × Bytes))
    (hp : ∀ p ∈ ps, p.1.toNat < 64 ∧ p.2.length < 2 ^ 32) (fuel : Nat) (hf : ps.length ≤ fuel) :
    readPacketsFuel fuel (ps.map (fun p => encodePacket p.1 p.2)).flatten =
      some (ps.map (fun p => (p.1.toNat, p.2))) := by
  induction ps generalizing fuel with
  | nil => cases fuel <;> simp [readPacketsFuel]
  | cons p ps ih =>
    cases fuel with
    | zero => simp at hf
    | succ fuel =>
      simp only [List.map_cons, List.flatten_cons, readPacketsFuel]
      have hl := encodePacket_length p.1 p.2
      rw [if_neg (by intro h; have := congrArg List.length h; rw [List.length_append, List.length_nil] at this; omega)]
      obtain ⟨h1, h2⟩ := hp p (by simp)
      rw [readPacket_encode _ h1 _ _ h2]
      simp only [Option.bind_eq_bind, Option.bind_some]
      rw [ih (fun q hq => hp q (by simp [hq])) fuel (by simpa using hf)]
      simp

theorem readPackets_flatten (ps : List (Byte × Bytes))
    (hp : ∀ p ∈ ps, p.1.toNat < 64 ∧ p.2.length < 2 ^ 32) :
    readPackets (ps.map (fun p => encodePacket p.1 p.2)).flatten =
      some (ps.map (fun p => (p.1.toNat, p.2))) := by
  apply readPacketsFuel_flatten _ hp
  clear hp
  induction ps with
  | nil => simp
  | cons p ps ih =>
    have hl := encodePacket_length p.1 p.2
    simp only [List.map_cons, List.flatten_cons, List.length_append, List.length_cons]
    omega

/-! ## MPIs -/

theorem intBytes_length (x : Int) : (intBytes x).length = (bitLen x + 7) / 8 := by simp [intBytes]

theorem encodeMPI_length (x : Int) : (encodeMPI x).length = 2 + (bitLen x + 7) / 8 := by
  simp [encodeMPI, intBytes_length]

theorem size_pos_bounds (v : Nat) : v < 2 ^ v.size ∧ (v.size = 0 ∨ 2 ^ (v.size - 1) ≤ v) := by
  refine ⟨Nat.lt_size_self v, ?_⟩
  by_cases h : v.size = 0
  · exact Or.inl h
  · right
    exact Nat.lt_size.mp (by omega)

theorem pow_le_256 (n : Nat) : 2 ^ n ≤ 256 ^ ((n + 7) / 8) := by
  have : (256 : Nat) = 2 ^ 8 := by norm_num
  rw [this, ← pow_mul]
  exact Nat.pow_le_pow_right (by norm_num) (by omega)

theorem setBytes_intBytes (v : Nat) : setBytes (intBytes (v : Int)) = v := by
  simp only [intBytes, bitLen_natCast, Int.natAbs_natCast, setBytes_beBytes]
  exact Nat.mod_eq_of_lt (lt_of_lt_of_le (size_pos_bounds v).1 (pow_le_256 _))

theorem readMPI_encode (v : Nat) (h : v.size < 65536) (rest : Bytes) :
    readMPI (encodeMPI (v : Int) ++ rest) = some (v, rest) := by
  simp only [readMPI, encodeMPI, List.append_assoc]
  rw [split_append _ _ (beBytes_length 2 _).symm]
  simp only [Option.bind_eq_bind, Option.bind_some, bitLen_natCast]
  rw [num_beBytes (by norm_num; omega), split_append _ _ (by simp [intBytes_length])]
  simp only [Option.bind_some, num_eq, setBytes_intBytes]
  rw [if_pos (size_pos_bounds v)]

theorem checksumLoop_eq (c : UInt16) (b : Bytes) :
    (checksumLoop c b).toNat = (c.toNat + (b.map UInt8.toNat).sum) % 65536 := by
  induction b generalizing c with
  | nil =>
    have := c.toNat_lt
    simp only [checksumLoop, List.map_nil, List.sum_nil]; omega
  | cons x b ih =>
    simp only [checksumLoop, ih, List.map_cons, List.sum_cons, UInt16.toNat_add,
      UInt8.toNat_toUInt16]
    omega

theorem checksumMPI_eq (b : Bytes) :
    checksumMPI b = octets 2 ((b.map UInt8.toNat).sum % 65536) := by
  rw [octets_eq, checksumMPI, checksumLoop_eq]
  simp

end Verif.Proofs
