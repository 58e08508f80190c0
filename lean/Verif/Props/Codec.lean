import Verif.Proofs.Negative
import Verif.Proofs.Mnemonic
import Verif.Proofs.Bits
import Verif.Proofs.Rand
import Verif.Instances

/-!
# Properties of the bit buffer and the word codec: C40-C42
-/

namespace Verif.Props

open Verif.Model Verif.Spec Verif.Instances

/-! ## C40 -/

/-- An operation on the bit buffer. -/
inductive BufOp where
  | appendTrailing (value width : Nat)
  | appendLeading (value width : Nat)
  | popTrailing (n : Nat)
  | popLeading (n : Nat)

/-- Run a sequence of operations on the Go buffer, collecting what the pops return. -/
def runBuffer : BitBuffer → List BufOp → Res (List Int × BitBuffer)
  | b, [] => .ok ([], b)
  | b, .appendTrailing v w :: rest => do
    let b ← b.appendTrailingBits (v : Int) w
    runBuffer b rest
  | b, .appendLeading v w :: rest => do
    let b ← b.appendLeadingBits (v : Int) w
    runBuffer b rest
  | b, .popTrailing n :: rest => do
    let (x, b) ← b.popTrailingBits n
    let (xs, b) ← runBuffer b rest
    .ok (x :: xs, b)
  | b, .popLeading n :: rest => do
    let (x, b) ← b.popLeadingBits n
    let (xs, b) ← runBuffer b rest
    .ok (x :: xs, b)

/-- The same on a plain list of bits; `none` is a refused operation. -/
def runBits : List Bool → List BufOp → Option (List Nat × List Bool)
  | l, [] => some ([], l)
  | l, .appendTrailing v w :: rest =>
    if v < 2 ^ w then runBits (l ++ bits w v) rest else none
  | l, .appendLeading v w :: rest =>
    if v < 2 ^ w then runBits (bits w v ++ l) rest else none
  | l, .popTrailing n :: rest =>
    if n ≤ l.length then
      (runBits (l.take (l.length - n)) rest).map
        (fun r => (val (l.drop (l.length - n)) :: r.1, r.2))
    else none
  | l, .popLeading n :: rest =>
    if n ≤ l.length then
      (runBits (l.drop n) rest).map (fun r => (val (l.take n) :: r.1, r.2))
    else none

/-- The buffer holding the given bits. -/
def bufferOf (l : List Bool) : BitBuffer := { value := (val l : Int), nBits := l.length }

theorem bufferOf_bits {n v : Nat} (h : v < 2 ^ n) : bufferOf (bits n v) = .mkNat v n := by
  simp [bufferOf, BitBuffer.mkNat, val_bits_of_lt h]

theorem exists_bits (l : List Bool) : ∃ n v, v < 2 ^ n ∧ l = bits n v :=
  ⟨l.length, val l, val_lt l, (bits_val l).symm⟩

/-- C40. Every sequence of operations gives the results of the same sequence on a list of bits,
and panics exactly when the list refuses an operation. -/
theorem c40_buffer_is_deque (l : List Bool) (ops : List BufOp) :
    match runBits l ops with
    | some (xs, l') => runBuffer (bufferOf l) ops = .ok (xs.map Int.ofNat, bufferOf l')
    | none => (runBuffer (bufferOf l) ops).isPanic = true := by
  induction ops generalizing l with
  | nil => rfl
  | cons op rest ih =>
    obtain ⟨n, v, hv, rfl⟩ := exists_bits l
    cases op with
    | appendTrailing x w =>
      rw [runBits, runBuffer, bufferOf_bits hv]
      by_cases hx : x < 2 ^ w
      · have := ih (bits n v ++ bits w x)
        have hlt : v * 2 ^ w + x < 2 ^ (n + w) := by
          rw [pow_add]
          calc v * 2 ^ w + x < v * 2 ^ w + 2 ^ w := by omega
            _ = (v + 1) * 2 ^ w := by ring
            _ ≤ 2 ^ n * 2 ^ w := Nat.mul_le_mul_right _ hv
        rw [if_pos hx, BitBuffer.appendTrailing_nat hx, Res.bind_ok, ← bufferOf_bits hlt,
          ← bits_append n v hx]
        exact this
      · rw [if_neg hx, BitBuffer.appendTrailing_nat_panic (by omega)]
        rfl
    | appendLeading x w =>
      rw [runBits, runBuffer, bufferOf_bits hv]
      by_cases hx : x < 2 ^ w
      · have := ih (bits w x ++ bits n v)
        have hlt : x * 2 ^ n + v < 2 ^ (w + n) := by
          rw [pow_add]
          calc x * 2 ^ n + v < x * 2 ^ n + 2 ^ n := by omega
            _ = (x + 1) * 2 ^ n := by ring
            _ ≤ 2 ^ w * 2 ^ n := Nat.mul_le_mul_right _ hx
        rw [if_pos hx, BitBuffer.appendLeading_nat hv hx, Res.bind_ok, Nat.add_comm n w,
          ← bufferOf_bits hlt, ← bits_append w x hv]
        exact this
      · have : x.size > w := by rw [BitBuffer.size_gt_iff]; omega
        rw [if_neg hx]
        simp [BitBuffer.appendLeadingBits, this, Res.isPanic]
    | popTrailing k =>
      rw [runBits, runBuffer, bits_length, bufferOf_bits hv]
      by_cases hk : k ≤ n
      · rw [if_pos hk, BitBuffer.popTrailing_nat hk, Res.bind_ok, take_bits v (by omega),
          drop_bits v (by omega)]
        have hlt : v / 2 ^ k < 2 ^ (n - k) := by
          rw [Nat.div_lt_iff_lt_mul (by positivity), ← pow_add]
          rwa [Nat.sub_add_cancel hk]
        have := ih (bits (n - k) (v / 2 ^ k))
        rw [bufferOf_bits hlt] at this
        rw [show n - (n - k) = k by omega, val_bits]
        cases hr : runBits (bits (n - k) (v / 2 ^ k)) rest with
        | none =>
          rw [hr] at this
          simp only [Option.map_none]
          cases hb : runBuffer (.mkNat (v / 2 ^ k) (n - k)) rest with
          | ok _ => rw [hb] at this; simp [Res.isPanic] at this
          | err _ => rw [hb] at this; simp [Res.isPanic] at this
          | panic _ => rfl
        | some r =>
          obtain ⟨xs, l'⟩ := r
          rw [hr] at this
          simp only [Option.map_some, this, Res.bind_ok, List.map_cons, Int.ofNat_eq_natCast]
      · rw [if_neg hk]
        have : k > n := by omega
        simp [BitBuffer.popTrailingBits, this, Res.isPanic]
    | popLeading k =>
      rw [runBits, runBuffer, bits_length, bufferOf_bits hv]
      by_cases hk : k ≤ n
      · rw [if_pos hk, BitBuffer.popLeading_nat hv hk, Res.bind_ok, take_bits v hk, drop_bits v hk]
        have hlt : v / 2 ^ (n - k) < 2 ^ k := by
          rw [Nat.div_lt_iff_lt_mul (by positivity), ← pow_add]
          rwa [Nat.add_sub_cancel' hk]
        have hlt2 : v % 2 ^ (n - k) < 2 ^ (n - k) := Nat.mod_lt _ (by positivity)
        rw [← bits_mod (n - k) v, val_bits_of_lt hlt]
        have := ih (bits (n - k) (v % 2 ^ (n - k)))
        rw [bufferOf_bits hlt2] at this
        cases hr : runBits (bits (n - k) (v % 2 ^ (n - k))) rest with
        | none =>
          rw [hr] at this
          simp only [Option.map_none]
          cases hb : runBuffer (.mkNat (v % 2 ^ (n - k)) (n - k)) rest with
          | ok _ => rw [hb] at this; simp [Res.isPanic] at this
          | err _ => rw [hb] at this; simp [Res.isPanic] at this
          | panic _ => rfl
        | some r =>
          obtain ⟨xs, l'⟩ := r
          rw [hr] at this
          simp only [Option.map_some, this, Res.bind_ok, List.map_cons, Int.ofNat_eq_natCast]
      · rw [if_neg hk]
        have : k > n := by omega
        simp [BitBuffer.popLeadingBits, this, Res.isPanic]

/-- C40. Creation and the observers: the byte form, the integer and the length are those of the
bits held. -/
theorem c40_observers (v n : Nat) :
    (v < 2 ^ n → BitBuffer.new (v : Int) n = .ok (bufferOf (bits n v))) ∧
    (2 ^ n ≤ v → (BitBuffer.new (v : Int) n).isPanic = true) ∧
    (∀ l, (bufferOf l).bytes = .ok (toBytes l) ∧ (bufferOf l).int = (val l : Int) ∧
      (bufferOf l).bitLength = l.length) := by
  refine ⟨?_, ?_, ?_⟩
  · intro h; rw [bufferOf_bits h]; exact BitBuffer.new_nat h
  · intro h; rw [BitBuffer.new_nat_panic h]; rfl
  · intro l
    refine ⟨?_, rfl, rfl⟩
    obtain ⟨n, v, hv, rfl⟩ := exists_bits l
    rw [bufferOf_bits hv, BitBuffer.bytes_nat hv, toBytes_bits n v hv]

example : runBits [true, false] [.appendTrailing 5 3, .popLeading 3, .popTrailing 2]
    = some ([5, 1], []) := by decide

/-! ## C41 -/

/-- C41. Encoding a payload of `bitSize` bits into indices and back. -/
theorem c41_encode (v bitSize : Nat) :
    (v < 2 ^ bitSize → ∃ is, encodeToIndices (v : Int) bitSize = .ok is ∧
      is.length = (bitSize + 11) / 12 ∧ (∀ i ∈ is, i < 4096) ∧ decodeIndices is = .ok (v : Int)) ∧
    (2 ^ bitSize ≤ v → encodeToIndices (v : Int) bitSize = .err .payloadTooLarge) := by
  constructor
  · intro h
    refine ⟨digitsBE 4096 ((bitSize + 11) / 12) v, ?_, by simp, ?_, ?_⟩
    · rw [encodeToIndices_nat, if_pos h]
    · exact fun i hi => digitsBE_lt (by norm_num) _ _ _ hi
    · rw [decodeIndices_nat _ (fun i hi => digitsBE_lt (by norm_num) _ _ _ hi), ofDigitsBE_digitsBE,
        Nat.mod_eq_of_lt]
      refine lt_of_lt_of_le h ?_
      rw [show (4096 : Nat) = 2 ^ 12 by norm_num, ← pow_mul]
      exact Nat.pow_le_pow_right (by norm_num) (by omega)
  · intro h
    rw [encodeToIndices_nat, if_neg (by omega)]

/-- A negative payload, which no caller in the repository passes, gets no error of its own: if its
absolute value is below 2^bitSize the encoder runs out of indices and panics. -/
theorem c41_negative (v : Int) (hv : v < 0) (bitSize : Nat) :
    (v.natAbs < 2 ^ bitSize → encodeToIndices v bitSize = .panic .indexOutOfRange) ∧
    (2 ^ bitSize ≤ v.natAbs → encodeToIndices v bitSize = .err .payloadTooLarge) := by
  refine ⟨fun h => ?_, fun h => ?_⟩
  · obtain ⟨m, rfl⟩ := Int.eq_negSucc_of_lt_zero hv
    exact encodeToIndices_neg (by simpa using h)
  · have := (bitLen_le_iff v bitSize).not.2 (by omega)
    unfold encodeToIndices
    rw [if_pos (by omega)]

example : encodeToIndices (-5) 24 = .panic .indexOutOfRange ∧ encodeToIndices (-5) 2 = .err .payloadTooLarge :=
  ⟨(c41_negative (-5) (by decide) 24).1 (by decide), (c41_negative (-5) (by decide) 2).2 (by decide)⟩

/-- C41. Decoding: any index of 4096 or more is refused; otherwise decoding succeeds with a value of
at most 12 bits per index, and encoding it at that size returns the same indices. -/
theorem c41_decode (is : List Nat) :
    ((∃ i ∈ is, 4096 ≤ i) → decodeIndices is = .err .invalidIndex) ∧
    ((∀ i ∈ is, i < 4096) → ∃ v : Nat, v < 2 ^ (12 * is.length) ∧
      decodeIndices is = .ok (v : Int) ∧ encodeToIndices (v : Int) (12 * is.length) = .ok is) := by
  constructor
  · exact decodeLoop_err 0 is
  · intro h
    have hlt : ofDigitsBE 4096 is < 2 ^ (12 * is.length) := by
      have := ofDigitsBE_lt h
      rwa [pow_mul, show (2 : Nat) ^ 12 = 4096 by norm_num]
    refine ⟨ofDigitsBE 4096 is, hlt, decodeIndices_nat is h, ?_⟩
    rw [encodeToIndices_nat, if_pos hlt, show (12 * is.length + 11) / 12 = is.length by omega,
      digitsBE_ofDigitsBE h]

example : decodeIndices [1, 2, 4095] = .ok 16789503 ∧ encodeToIndices 16789503 36 =
    .ok [1, 2, 4095] ∧ decodeIndices [1, 4096] = .err .invalidIndex := by decide +kernel

/-! ## C42 -/

/-- C42. EncodeToWords succeeds exactly when all indices are below 4096, and DecodeWords inverts
it. -/
theorem c42_encode {L : WordList} (hL : L.Lawful) (is : List Nat) :
    ((∀ i ∈ is, i < 4096) → ∃ ws, encodeToWords L is = .ok ws ∧ ws.length = is.length ∧
      decodeWords L ws = .ok is) ∧
    ((∃ i ∈ is, 4096 ≤ i) → encodeToWords L is = .err .invalidIndex) :=
  ⟨fun h => ⟨is.map L.word, encodeToWords_ok L is h, by simp, decodeWords_map_word hL is h⟩,
   encodeToWords_err L is⟩

/-- C42. DecodeWords succeeds exactly when the lower-case form of every word is in the list, and
EncodeToWords inverts it up to lower-casing. -/
theorem c42_decode {L : WordList} (hL : L.Lawful) (ws : List Bytes) :
    ((∀ w ∈ ws, ∃ i, i < 4096 ∧ L.toLower w = L.word i) → ∃ is, decodeWords L ws = .ok is ∧
      (∀ i ∈ is, i < 4096) ∧ encodeToWords L is = .ok (ws.map L.toLower)) ∧
    ((∃ w ∈ ws, ∀ i, i < 4096 → L.toLower w ≠ L.word i) →
      decodeWords L ws = .err .invalidWord) := by
  constructor
  · intro h
    rcases decodeWords_cases L ws with ⟨is, his⟩ | he
    · have hlt := decodeWords_lt hL his
      exact ⟨is, his, hlt, by rw [decodeWords_map_lower hL his, encodeToWords_ok L is hlt]⟩
    · obtain ⟨w, hw, hn⟩ := (decodeWords_err_iff L ws).mpr he
      obtain ⟨i, hi, hwi⟩ := h w hw
      rw [(hL.lookup_iff _ _).mpr ⟨hi, hwi.symm⟩] at hn
      simp at hn
  · rintro ⟨w, hw, hn⟩
    apply (decodeWords_err_iff L ws).mp
    refine ⟨w, hw, ?_⟩
    cases hl : L.lookup (L.toLower w) with
    | none => rfl
    | some i =>
      obtain ⟨hi, hwi⟩ := (hL.lookup_iff _ _).mp hl
      exact absurd hwi.symm (hn i hi)

example : ∃ ws, encodeToWords toyWordList [5, 4095] = .ok ws ∧ ws.length = 2 ∧
    decodeWords toyWordList ws = .ok [5, 4095] :=
  (c42_encode toyWordList_lawful [5, 4095]).1 (by simp)

end Verif.Props
