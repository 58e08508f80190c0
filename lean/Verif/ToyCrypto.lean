import Verif.Instances

/-! # A concrete instance of the full crypto contract -/

namespace Verif.Instances

open Verif.Model

/-- Toy digest of `n` bytes. -/
def toyDigest (n : Nat) (m : Bytes) : Bytes :=
  (List.range n).map (fun j => UInt8.ofNat ((setBytes m + 1) * (31 + 2 * j) + m.length * 7 + j * 13))

def toyCrypto : Crypto where
  toPhraseCrypto := toyPhraseCrypto
  hkdfExpand := fun k i n => toyDigest n (k ++ i)
  ed25519Pub := fun s => toyDigest 32 s
  ed25519Sign := fun k m => toyDigest 64 (k.drop 32 ++ m)
  ed25519Verify := fun p m s => s == toyDigest 64 (p ++ m)
  x25519Base := fun s => toyDigest 32 (clampScalar s)
  sha1 := toyDigest 20
  sha256 := toyDigest 32
  sha384 := toyDigest 48
  sha512 := toyDigest 64
  aes256Enc := fun k b => List.zipWith (· ^^^ ·) b k
  shuffleDraw := fun s i => s.natAbs / 7 % (i + 1)
  secondsU32 := fun d => (d.tdiv (10 ^ 9) % 2 ^ 32).toNat

theorem toyDigest_length (n : Nat) (m : Bytes) : (toyDigest n m).length = n := by
  simp [toyDigest]

theorem clampScalar_length (b : Bytes) : (clampScalar b).length = b.length := by
  simp [clampScalar]

theorem clampScalar_idem (b : Bytes) : clampScalar (clampScalar b) = clampScalar b := by
  have e0 : ∀ x : UInt8, x &&& 248 &&& 248 = x &&& 248 := by
    intro x; rw [UInt8.and_assoc]; rfl
  have e1 : ∀ x : UInt8, ((x &&& 127 ||| 64) &&& 127) ||| 64 = x &&& 127 ||| 64 := by
    intro x
    apply UInt8.toBitVec_inj.mp
    simp only [UInt8.toBitVec_or, UInt8.toBitVec_and]
    ext i hi
    simp only [BitVec.getElem_or, BitVec.getElem_and]
    cases x.toBitVec[i] <;> cases h : (127 : UInt8).toBitVec[i] <;>
      cases h' : (64 : UInt8).toBitVec[i] <;> simp
  apply List.ext_getElem
  · simp [clampScalar]
  · intro i h1 h2
    simp only [clampScalar, List.getElem_modify]
    by_cases h0 : 0 = i
    · subst h0
      simp only [if_true]
      norm_num [e0]
    · by_cases h31 : 31 = i
      · subst h31
        simp [e1]
      · simp [h0, h31]

theorem toyCrypto_lawful : toyCrypto.Lawful where
  phrase := toyPhraseCrypto_lawful
  hkdf_length := by intros; simp [toyCrypto, toyDigest_length]
  ed25519Pub_length := by intros; simp [toyCrypto, toyDigest_length]
  ed25519Sign_length := by intros; simp [toyCrypto, toyDigest_length]
  ed25519_verify := by
    intro s m hs
    simp [toyCrypto, ← hs]
  x25519_length := by intros; simp [toyCrypto, toyDigest_length]
  x25519_clamp := by intro s _; simp [toyCrypto, clampScalar_idem]
  sha1_length := by intros; simp [toyCrypto, toyDigest_length]
  sha256_length := by intros; simp [toyCrypto, toyDigest_length]
  sha384_length := by intros; simp [toyCrypto, toyDigest_length]
  sha512_length := by intros; simp [toyCrypto, toyDigest_length]
  aes256_length := by intro k b hk hb; simp [toyCrypto, hk, hb]
  shuffle_le := by
    intro s i
    have := Nat.mod_lt (s.natAbs / 7) (show 0 < i + 1 by omega)
    simp only [toyCrypto]; omega
  seconds_lt := by
    intro d
    simp only [toyCrypto]
    omega
  seconds_exact := by
    intro n hn
    simp only [toyCrypto]
    have : ((n : Int) * 10 ^ 9).tdiv (10 ^ 9) = (n : Int) := Int.mul_tdiv_cancel _ (by norm_num)
    rw [this]; omega

end Verif.Instances
