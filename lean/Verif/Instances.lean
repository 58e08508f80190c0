import Verif.Model.Crypto
import Verif.Model.Wordlist
import Verif.Proofs.BigInt

/-!
# Concrete instances of the external contracts

They show that the contracts can be met and give the examples beside the theorems concrete data.
The toy word list has the 4096 three-letter words over a..p; the toy ciphers are not secure.
-/

namespace Verif.Instances

open Verif.Model

/-- One letter a..p for a value below 16. -/
def letter (d : Nat) : Byte := UInt8.ofNat (0x61 + d)

def toyWord (i : Nat) : Bytes := [letter (i / 256 % 16), letter (i / 16 % 16), letter (i % 16)]

def unletter (b : Byte) : Option Nat :=
  if 0x61 ≤ b.toNat ∧ b.toNat < 0x71 then some (b.toNat - 0x61) else none

def toyLookup : Bytes → Option Nat
  | [a, b, c] =>
    match unletter a, unletter b, unletter c with
    | some x, some y, some z => some (256 * x + 16 * y + z)
    | _, _, _ => none
  | _ => none

/-- All completions of a query by list words. -/
def toySuffixes (q : Bytes) : List Bytes :=
  match toyLookup q with
  | some _ => [[]]
  | none =>
    if 3 ≤ q.length then []
    else ((List.range 4096).filter (fun i => q.isPrefixOf (toyWord i))).map
      (fun i => (toyWord i).drop q.length)

def toyWordList : WordList where
  word := toyWord
  lookup := toyLookup
  toLower := fun w => w.map asciiLower
  suffixes := toySuffixes
  exactMatch := fun w => (toyLookup w).isSome

theorem unletter_letter {d : Nat} (h : d < 16) : unletter (letter d) = some d := by
  have : (letter d).toNat = 0x61 + d := by
    simp only [letter, UInt8.toNat_ofNat']; omega
  simp only [unletter, this]
  rw [if_pos (by omega)]
  simp

theorem letter_unletter {b : Byte} {d : Nat} (h : unletter b = some d) :
    d < 16 ∧ letter d = b := by
  simp only [unletter] at h
  split at h
  · simp only [Option.some.injEq] at h
    subst h
    refine ⟨by omega, ?_⟩
    apply UInt8.toNat_inj.mp
    simp only [letter, UInt8.toNat_ofNat']
    omega
  · simp at h

theorem toyLookup_iff (w : Bytes) (i : Nat) :
    toyLookup w = some i ↔ i < 4096 ∧ toyWord i = w := by
  constructor
  · intro h
    unfold toyLookup at h
    split at h
    · split at h
      · next a b c _ _ _ x y z hx hy hz =>
        simp only [Option.some.injEq] at h
        obtain ⟨hx1, hx2⟩ := letter_unletter hx
        obtain ⟨hy1, hy2⟩ := letter_unletter hy
        obtain ⟨hz1, hz2⟩ := letter_unletter hz
        subst h
        refine ⟨by omega, ?_⟩
        have e1 : (256 * x + 16 * y + z) / 256 % 16 = x := by omega
        have e2 : (256 * x + 16 * y + z) / 16 % 16 = y := by omega
        have e3 : (256 * x + 16 * y + z) % 16 = z := by omega
        simp [toyWord, e1, e2, e3, hx2, hy2, hz2]
      · simp at h
    · simp at h
  · rintro ⟨hi, rfl⟩
    simp only [toyWord, toyLookup, unletter_letter (Nat.mod_lt _ (by norm_num : 0 < 16)),
      Option.some.injEq]
    omega

theorem letter_az (d : Nat) (h : d < 16) : isLowerAz (letter d) = true := by
  have : (letter d).toNat = 0x61 + d := by
    simp only [letter, UInt8.toNat_ofNat']; omega
  simp only [isLowerAz, Bool.and_eq_true, decide_eq_true_eq, UInt8.le_iff_toNat_le, this]
  simp
  omega

theorem toyWordList_lawful : toyWordList.Lawful where
  lookup_iff := toyLookup_iff
  word_ne := by intro i _; simp [toyWordList, toyWord]
  word_short := by intro i _; simp [toyWordList, toyWord]
  word_az := by
    intro i _ b hb
    simp only [toyWordList, toyWord, List.mem_cons, List.not_mem_nil, or_false] at hb
    rcases hb with rfl | rfl | rfl <;> exact letter_az _ (Nat.mod_lt _ (by norm_num))
  lower_ascii := by intro w _; rfl
  suffix_word := by
    intro q s hs
    simp only [toyWordList, toySuffixes] at hs
    split at hs
    · next i hi =>
      simp only [List.mem_singleton] at hs
      subst hs
      obtain ⟨h1, h2⟩ := (toyLookup_iff q i).mp hi
      exact ⟨i, h1, by simp [toyWordList, h2]⟩
    · split at hs
      · cases hs
      simp only [List.mem_map, List.mem_filter, List.mem_range] at hs
      obtain ⟨i, ⟨hi, hp⟩, rfl⟩ := hs
      refine ⟨i, hi, ?_⟩
      have := List.isPrefixOf_iff_prefix.mp hp
      exact (List.prefix_iff_eq_append.mp this).symm
  suffix_exact := by
    intro i hi
    have : toyLookup (toyWord i) = some i := (toyLookup_iff _ _).mpr ⟨hi, rfl⟩
    exact ⟨[], by simp [toyWordList, toySuffixes, this]⟩
  exact_iff := by
    intro w
    simp only [toyWordList, Option.isSome_iff_exists]
    exact exists_congr (fun i => toyLookup_iff w i)

/-- Toy Argon2id and AES: a mixing formula and XOR with the key. -/
def toyPhraseCrypto : PhraseCrypto where
  argon2id := fun p s _ _ _ n =>
    (List.range n).map (fun j => UInt8.ofNat (setBytes p * 31 + setBytes s * 17 + p.length + 7 * j))
  aesEnc := fun k b => List.zipWith (· ^^^ ·) b k
  aesDec := fun k b => List.zipWith (· ^^^ ·) b k

theorem zipWith_xor_cancel (b k : Bytes) (h : b.length ≤ k.length) :
    List.zipWith (· ^^^ ·) (List.zipWith (· ^^^ ·) b k) k = b := by
  induction b generalizing k with
  | nil => rfl
  | cons x b ih =>
    cases k with
    | nil => simp at h
    | cons y k =>
      simp only [List.zipWith_cons_cons, List.length_cons] at *
      rw [ih k (by omega), UInt8.xor_assoc, UInt8.xor_self, UInt8.xor_zero]

theorem toyPhraseCrypto_lawful : toyPhraseCrypto.Lawful where
  argon2id_length := by intros; simp [toyPhraseCrypto]
  aesEnc_length := by intro k b hk hb; simp [toyPhraseCrypto, hk, hb]
  aesDec_length := by intro k b hk hb; simp [toyPhraseCrypto, hk, hb]
  aes_inv := by intro k b hk hb; exact zipWith_xor_cancel b k (by omega)

end Verif.Instances
