import Verif.Proofs.CrcLinear
import Verif.Instances

/-!
# Strength of the phrase checksum: C07, C08
-/

namespace Verif.Props

open Verif.Model Verif.Spec Verif.Instances

/-- Bytes of the payload under a phrase of `len` words. -/
def payloadBytes (len : Nat) : Nat := if len = 14 then 21 else 24

/-- Word count and version of the first index agree. -/
def shaped (len i0 : Nat) : Prop := i0 / 256 = 0 ∧ len = 14 ∨ i0 / 256 = 1 ∧ len = 16

theorem decode_shaped {L : WordList} (hL : L.Lawful) {ws : List Bytes} {is : List Nat} {i0 : Nat}
    (hd : decodeWords L ws = .ok is) (hh : is.head? = some i0) (hs : shaped ws.length i0) :
    ((decodeMnemonic L ws).isOk = true ∧
      synd (payloadBytes ws.length) (ofDigitsBE 4096 is) = 0) ∨
    (decodeMnemonic L ws = .err .invalidChecksum ∧
      synd (payloadBytes ws.length) (ofDigitsBE 4096 is) ≠ 0) := by
  rcases hs with ⟨h0, hlen⟩ | ⟨h1, hlen⟩
  · have e : payloadBytes ws.length = 21 := by rw [hlen]; rfl
    rw [decodeMnemonic_v0 hL hd hlen hh h0, e]
    have hz := synd_eq_zero 21 (ofDigitsBE 4096 is)
    by_cases h : checksum5 (beBytes 21 (ofDigitsBE 4096 is / 32)) = ofDigitsBE 4096 is % 32
    · left; rw [if_neg (not_not.mpr h)]; exact ⟨rfl, hz.mpr h⟩
    · right; rw [if_pos h]; exact ⟨rfl, fun h' => h (hz.mp h')⟩
  · have e : payloadBytes ws.length = 24 := by rw [hlen]; rfl
    rw [decodeMnemonic_v1 hL hd hlen hh h1, e]
    have hz := synd_eq_zero 24 (ofDigitsBE 4096 is)
    by_cases h : checksum5 (beBytes 24 (ofDigitsBE 4096 is / 32)) = ofDigitsBE 4096 is % 32
    · left; rw [if_neg (not_not.mpr h)]; exact ⟨rfl, hz.mpr h⟩
    · right; rw [if_pos h]; exact ⟨rfl, fun h' => h (hz.mp h')⟩

/-- An accepted phrase has the right shape and syndrome zero. -/
theorem accepted_shape {L : WordList} (hL : L.Lawful) {ws : List Bytes} {dm : DecodedMnemonic}
    (h : decodeMnemonic L ws = .ok dm) :
    ∃ is i0, decodeWords L ws = .ok is ∧ is.head? = some i0 ∧ shaped ws.length i0 ∧
      synd (payloadBytes ws.length) (ofDigitsBE 4096 is) = 0 := by
  obtain ⟨is, i0, hd, hh, hs⟩ := decode_ok_shape h
  refine ⟨is, i0, hd, hh, hs, ?_⟩
  rcases decode_shaped hL hd hh hs with hr | hr
  · exact hr.2
  · rw [hr.1] at h; simp at h

theorem decodeWords_set {L : WordList} (hL : L.Lawful) {ws : List Bytes} {is : List Nat}
    (hd : decodeWords L ws = .ok is) (i : Nat) {j : Nat} (hj : j < 4096) :
    decodeWords L (ws.set i (L.word j)) = .ok (is.set i j) := by
  rw [decodeWords_ok_iff] at hd ⊢
  rw [List.map_set, List.map_set, hd, hL.lookup_word hj]

/-- The twelve syndromes of the word at distance `p` from the end. -/
def wordSyndromes (nb p k : Nat) : List Nat :=
  (List.range k).reverse.map (fun i => lin nb (2 ^ i * 2 ^ (12 * p)))

theorem mul_xor (p x y : Nat) : (x ^^^ y) * 2 ^ p = x * 2 ^ p ^^^ y * 2 ^ p := by
  have := xor_split x 0 y 0 p (by positivity) (by positivity)
  simpa using this.symm

theorem count_word (nb p k : Nat) :
    ((List.range (2 ^ k)).filter (fun x => decide (lin nb (x * 2 ^ (12 * p)) = 0))).length =
      countLin (wordSyndromes nb p k) 0 :=
  count_linear (fun x => lin nb (x * 2 ^ (12 * p))) (fun x y => by rw [mul_xor, lin_xor]) k 0

/-- The syndromes of the twelve bits (high to low) of the word at distance `p` from the end. -/
def syndromeTable : List (List Nat) :=
  [[16, 8, 4, 18, 25, 12, 22, 16, 8, 4, 2, 1],
   [28, 14, 23, 11, 5, 2, 17, 8, 4, 2, 1, 0],
   [29, 30, 31, 15, 23, 11, 5, 0, 0, 0, 16, 24],
   [22, 11, 5, 18, 9, 4, 2, 1, 0, 0, 16, 27],
   [25, 28, 14, 7, 19, 9, 20, 24, 12, 22, 27, 13],
   [12, 6, 3, 26, 13, 22, 11, 21, 26, 29, 30, 18],
   [0, 16, 8, 20, 26, 29, 30, 15, 7, 3, 17, 24],
   [31, 31, 15, 31, 15, 23, 11, 5, 2, 1, 0, 1],
   [11, 21, 26, 13, 22, 11, 5, 0, 16, 24, 28, 30],
   [3, 17, 8, 2, 17, 24, 12, 22, 27, 13, 22, 23],
   [26, 29, 30, 15, 7, 3, 17, 27, 29, 30, 15, 7],
   [6, 3, 1, 8, 20, 26, 29, 30, 15, 7, 3, 20],
   [8, 20, 10, 5, 2, 17, 24, 1, 0, 16, 24, 12],
   [27, 29, 30, 12, 22, 11, 5, 18, 25, 12, 6, 16],
   [7, 3, 1, 0, 0, 0, 0, 3, 17, 24, 12, 22],
   [31, 15, 7, 0, 16, 24, 12, 6, 19, 9, 20, 15]]

theorem wordSyndromes_table :
    (List.range 14).map (fun p => wordSyndromes 21 p 12) = syndromeTable.take 14 ∧
    (List.range 16).map (fun p => wordSyndromes 24 p 12) = syndromeTable := by
  simp only [wordSyndromes, lin_eq]
  decide +kernel

theorem table_counts :
    (syndromeTable.take 15).map (fun l => countLin l 0) = List.replicate 15 128 ∧
    (syndromeTable.drop 13).map (fun l => countLin (l.drop 4) 0) = [8, 8, 8] := by decide +kernel

theorem wordSyndromes_8 (nb p : Nat) : wordSyndromes nb p 8 = (wordSyndromes nb p 12).drop 4 := rfl

/-- The 13 later words of a plaintext phrase: 128 each. -/
theorem counts_plaintext (p : Nat) (hp : p < 13) : countLin (wordSyndromes 21 p 12) 0 = 128 := by
  have h1 := congrArg (·[p]?) wordSyndromes_table.1
  have h2 := congrArg (·[p]?) table_counts.1
  simp only [List.getElem?_map, List.getElem?_range (show p < 14 by omega), Option.map_some,
    List.getElem?_take_of_lt (show p < 14 by omega)] at h1
  simp only [List.getElem?_map, List.getElem?_take_of_lt (show p < 15 by omega), ← h1,
    Option.map_some, List.getElem?_replicate_of_lt (show p < 15 by omega), Option.some.injEq] at h2
  exact h2

/-- The 15 later words of an encrypted phrase: 128 each. -/
theorem counts_encrypted (p : Nat) (hp : p < 15) : countLin (wordSyndromes 24 p 12) 0 = 128 := by
  have h1 := congrArg (·[p]?) wordSyndromes_table.2
  have h2 := congrArg (·[p]?) table_counts.1
  simp only [List.getElem?_map, List.getElem?_range (show p < 16 by omega), Option.map_some] at h1
  simp only [List.getElem?_map, List.getElem?_take_of_lt (show p < 15 by omega), ← h1,
    Option.map_some, List.getElem?_replicate_of_lt (show p < 15 by omega), Option.some.injEq] at h2
  exact h2

/-- The low eight bits of the first word: 8 each. -/
theorem counts_first : countLin (wordSyndromes 21 13 8) 0 = 8 ∧
    countLin (wordSyndromes 24 15 8) 0 = 8 := by
  rw [wordSyndromes_8, wordSyndromes_8]
  have h1 := congrArg (·[13]?) wordSyndromes_table.1
  have h2 := congrArg (·[15]?) wordSyndromes_table.2
  have h3 := table_counts.2
  have h4 : syndromeTable.drop 13 = [wordSyndromes 21 13 12, syndromeTable.getD 14 [],
      wordSyndromes 24 15 12] := by
    simp only [List.getElem?_map, List.getElem?_range (show 13 < 14 by omega),
      List.getElem?_range (show 15 < 16 by omega), Option.map_some] at h1 h2
    have e1 : (List.take 14 syndromeTable)[13]? = some (syndromeTable.getD 13 []) := by
      decide +kernel
    have e2 : syndromeTable[15]? = some (syndromeTable.getD 15 []) := by decide +kernel
    rw [e1, Option.some.injEq] at h1
    rw [e2, Option.some.injEq] at h2
    rw [h1, h2]
    decide +kernel
  rw [h4] at h3
  simp only [List.map_cons, List.map_nil, List.cons.injEq, and_true] at h3
  exact ⟨h3.1, h3.2.2⟩

/-! ## C07 -/

/-- C07. At every position after the first, exactly 128 of the 4096 words are accepted, and all
others fail the checksum. -/
theorem c07_later_word {L : WordList} (hL : L.Lawful) (ws : List Bytes) (dm : DecodedMnemonic)
    (h : decodeMnemonic L ws = .ok dm) (i : Nat) (hi : 1 ≤ i) (hi2 : i < ws.length) :
    ((List.range 4096).filter
      (fun j => (decodeMnemonic L (ws.set i (L.word j))).isOk)).length = 128 ∧
    ∀ j < 4096, (decodeMnemonic L (ws.set i (L.word j))).isOk = true ∨
      decodeMnemonic L (ws.set i (L.word j)) = .err .invalidChecksum := by
  obtain ⟨is, i0, hd, hh, hs, hz⟩ := accepted_shape hL h
  have hlt := decodeWords_lt hL hd
  have hlen := decodeWords_length hd
  have hii : i < is.length := by omega
  have hget : is[i]? = some is[i] := List.getElem?_eq_getElem hii
  have hdl : is[i] < 4096 := hlt _ (List.getElem_mem hii)
  have hdec : ∀ j < 4096,
      ((decodeMnemonic L (ws.set i (L.word j))).isOk = true ∧
        lin (payloadBytes ws.length) ((is[i] ^^^ j) * 2 ^ (12 * (is.length - 1 - i))) = 0) ∨
      (decodeMnemonic L (ws.set i (L.word j)) = .err .invalidChecksum ∧
        lin (payloadBytes ws.length) ((is[i] ^^^ j) * 2 ^ (12 * (is.length - 1 - i))) ≠ 0) := by
    intro j hj
    have hd' := decodeWords_set hL hd i hj
    have hh' : (is.set i j).head? = some i0 := by
      cases is with
      | nil => simp at hh
      | cons x xs =>
        cases i with
        | zero => omega
        | succ i => simpa using hh
    have hs' : shaped (ws.set i (L.word j)).length i0 := by simpa using hs
    have := decode_shaped hL hd' hh' hs'
    rw [List.length_set, ofDigits_set hlt hget hj, synd_xor, hz, Nat.zero_xor] at this
    exact this
  refine ⟨?_, fun j hj => (hdec j hj).imp And.left And.left⟩
  have hcongr : (List.range 4096).filter
      (fun j => (decodeMnemonic L (ws.set i (L.word j))).isOk) = (List.range (2 ^ 12)).filter
      (fun j => (fun x => decide (lin (payloadBytes ws.length)
        (x * 2 ^ (12 * (is.length - 1 - i))) = 0)) (is[i] ^^^ j)) := by
    apply List.filter_congr
    intro j hj
    rw [List.mem_range] at hj
    rcases hdec j hj with hr | hr
    · simp [hr.1, hr.2]
    · simp [hr.1, hr.2, Res.isOk]
  have hx := filter_xor_range 12 is[i] (by simpa using hdl) (fun x => decide (lin
    (payloadBytes ws.length) (x * 2 ^ (12 * (is.length - 1 - i))) = 0))
  rw [hcongr, hx, count_word]
  rcases hs with ⟨-, hl⟩ | ⟨-, hl⟩
  · rw [payloadBytes, if_pos hl]
    exact counts_plaintext _ (by omega)
  · rw [payloadBytes, if_neg (by omega)]
    exact counts_encrypted _ (by omega)

theorem decode_wrong_shape {L : WordList} (hL : L.Lawful) {ws : List Bytes} {is : List Nat}
    {i0 : Nat} (hd : decodeWords L ws = .ok is) (hh : is.head? = some i0)
    (hs : ¬ shaped ws.length i0) : (decodeMnemonic L ws).isOk = false := by
  cases hr : decodeMnemonic L ws with
  | err => rfl
  | panic => rfl
  | ok dm =>
    obtain ⟨is', i0', hd', hh', hs', -⟩ := accepted_shape hL hr
    rw [hd] at hd'
    simp only [Res.ok.injEq] at hd'
    subst hd'
    rw [hh] at hh'
    simp only [Option.some.injEq] at hh'
    subst hh'
    exact absurd hs' hs

/-- C07. At the first position exactly 8 words are accepted. -/
theorem c07_first_word {L : WordList} (hL : L.Lawful) (ws : List Bytes) (dm : DecodedMnemonic)
    (h : decodeMnemonic L ws = .ok dm) :
    ((List.range 4096).filter
      (fun j => (decodeMnemonic L (ws.set 0 (L.word j))).isOk)).length = 8 := by
  obtain ⟨is, i0, hd, hh, hs, hz⟩ := accepted_shape hL h
  have hlt := decodeWords_lt hL hd
  have hlen := decodeWords_length hd
  cases is with
  | nil => simp at hh
  | cons x xs =>
    simp only [List.head?_cons, Option.some.injEq] at hh
    subst hh
    have hx : x < 4096 := hlt x (List.mem_cons_self ..)
    have hget : (x :: xs)[0]? = some x := rfl
    -- the accepted words are those of the same version with zero difference syndrome
    have hdec : ∀ j ∈ List.range (4096 : Nat), (decodeMnemonic L (ws.set 0 (L.word j))).isOk =
        decide ((x ^^^ j) / 256 = 0 ∧ lin (payloadBytes ws.length)
          ((x ^^^ j) * 2 ^ (12 * xs.length)) = 0) := by
      intro j hj
      rw [List.mem_range] at hj
      have hd' := decodeWords_set hL hd 0 hj
      have hh' : ((x :: xs).set 0 j).head? = some j := rfl
      have hdiv : (x ^^^ j) / 256 = x / 256 ^^^ j / 256 := Nat.xor_div_two_pow (n := 8)
      by_cases hv : j / 256 = x / 256
      · have hs' : shaped (ws.set 0 (L.word j)).length j := by
          rw [List.length_set]; unfold shaped at *; omega
        have := decode_shaped hL hd' hh' hs'
        rw [List.length_set, ofDigits_set hlt hget hj, synd_xor, hz, Nat.zero_xor] at this
        simp only [List.length_cons, Nat.add_sub_cancel, Nat.sub_zero] at this
        rw [hdiv, hv, Nat.xor_self]
        rcases this with hr | hr
        · rw [hr.1]; simp [hr.2]
        · rw [hr.1]; simp [hr.2, Res.isOk]
      · have hs' : ¬ shaped (ws.set 0 (L.word j)).length j := by
          rw [List.length_set]; unfold shaped at *; omega
        rw [decode_wrong_shape hL hd' hh' hs']
        have : ¬ (x ^^^ j) / 256 = 0 := by
          rw [hdiv, xor_eq_zero]; exact fun h => hv h.symm
        simp [this]
    rw [List.filter_congr hdec]
    have h2 := filter_xor_range 12 x (by simpa using hx)
      (fun y => decide (y / 256 = 0 ∧ lin (payloadBytes ws.length) (y * 2 ^ (12 * xs.length)) = 0))
    rw [show (2 : Nat) ^ 12 = 4096 by norm_num] at h2
    rw [h2]
    have h3 : (List.range 4096).filter (fun y => decide (y / 256 = 0 ∧
        lin (payloadBytes ws.length) (y * 2 ^ (12 * xs.length)) = 0)) =
        (List.range (2 ^ 8)).filter (fun y => decide
          (lin (payloadBytes ws.length) (y * 2 ^ (12 * xs.length)) = 0)) := by
      rw [show (4096 : Nat) = 2 ^ 8 + 3840 by norm_num, List.range_add, List.filter_append]
      have h4 : ((List.range 3840).map (2 ^ 8 + ·)).filter (fun y => decide (y / 256 = 0 ∧
          lin (payloadBytes ws.length) (y * 2 ^ (12 * xs.length)) = 0)) = [] := by
        rw [List.filter_eq_nil_iff]
        intro y hy
        rw [List.mem_map] at hy
        obtain ⟨z, -, rfl⟩ := hy
        simp
      rw [h4, List.append_nil]
      apply List.filter_congr
      intro y hy
      rw [List.mem_range] at hy
      have : y / 256 = 0 := by omega
      simp [this]
    rw [h3, count_word]
    simp only [List.length_cons] at hlen
    rcases hs with ⟨-, hl⟩ | ⟨-, hl⟩
    · rw [payloadBytes, if_pos hl, show xs.length = 13 by omega]
      exact counts_first.1
    · rw [payloadBytes, if_neg (by omega), show xs.length = 15 by omega]
      exact counts_first.2

/-- The counts for a concrete phrase. -/
example : ((List.range 4096).filter (fun j => (decodeMnemonic toyWordList
    (((Contents.plaintext 3 4).words toyWordList.word).set 5 (toyWordList.word j))).isOk)).length
      = 128 :=
  (c07_later_word toyWordList_lawful _ _ (decode_words toyWordList_lawful
    (c := .plaintext 3 4) ⟨by norm_num, by norm_num⟩) 5 (by norm_num)
    (by simp [Contents.words, Contents.indices, Contents.wordCount, groups])).1

/-! ## C08 -/

/-- Positions (counted from the end, starting at 0) that the checksum does not see. -/
def blindSpots : List Nat := [12, 26, 27, 28, 38, 39, 83, 85, 100, 147, 173, 174, 175, 176, 188]

/-- Flip the bit at distance `k` from the end. -/
def flipBit (l : List Bool) (k : Nat) : List Bool :=
  l.set (l.length - 1 - k) (!(l.getD (l.length - 1 - k) false))

/-- The phrase with bit `k` (counted from the end) of its 12-bit indices flipped. -/
def flipPhrase (L : WordList) (is : List Nat) (k : Nat) : List Bytes :=
  ((groups 12 is.length (flipBit (is.flatMap (bits 12)) k)).map val).map L.word

theorem flipBit_bits {n v k : Nat} (hk : k < n) : flipBit (bits n v) k = bits n (v ^^^ 2 ^ k) := by
  apply List.ext_getElem
  · simp [flipBit]
  · intro i h1 h2
    have hi : i < n := by simpa using h2
    have hlt : n - 1 - k < (bits n v).length := by simp; omega
    rw [bits_getElem]
    simp only [flipBit, bits_length]
    rw [List.getElem_set, Nat.testBit_xor, Nat.testBit_two_pow]
    by_cases hik : n - 1 - k = i
    · have : k = n - 1 - i := by omega
      rw [if_pos hik, List.getD_eq_getElem?_getD, List.getElem?_eq_getElem hlt, Option.getD_some,
        bits_getElem]
      subst this
      simp only [decide_true, Bool.xor_true]
      congr 2
      omega
    · have : ¬ k = n - 1 - i := by omega
      rw [if_neg hik, bits_getElem]
      simp [this]

theorem lin_blind_21 : ∀ k ∈ List.range 168, lin 21 (2 ^ k) = 0 ↔ k ∈ blindSpots := by
  simp only [lin_eq]
  decide +kernel

theorem lin_blind_24 : ∀ k ∈ List.range 192, lin 24 (2 ^ k) = 0 ↔ k ∈ blindSpots := by
  simp only [lin_eq]
  decide +kernel

theorem lin_blind {len k : Nat} (hl : len = 14 ∨ len = 16) (hk : k < 12 * len) :
    lin (payloadBytes len) (2 ^ k) = 0 ↔ k ∈ blindSpots := by
  rcases hl with rfl | rfl
  · exact lin_blind_21 k (List.mem_range.mpr (by omega))
  · exact lin_blind_24 k (List.mem_range.mpr (by omega))

/-- C08. Flip one bit of the words of an accepted phrase, outside the four version bits: the result
is accepted if the position is one of the listed ones, and fails the checksum otherwise. -/
theorem c08_single_bit {L : WordList} (hL : L.Lawful) (ws : List Bytes) (dm : DecodedMnemonic)
    (h : decodeMnemonic L ws = .ok dm) (is : List Nat) (his : ws.map (fun w => L.lookup (L.toLower w)) = is.map some)
    (k : Nat) (hk : k < 12 * ws.length - 4) :
    (k ∈ blindSpots → (decodeMnemonic L (flipPhrase L is k)).isOk = true) ∧
    (k ∉ blindSpots → decodeMnemonic L (flipPhrase L is k) = .err .invalidChecksum) := by
  obtain ⟨is', i0, hd, hh, hs, hz⟩ := accepted_shape hL h
  have : is' = is := by
    have h2 : decodeWords L ws = .ok is := (decodeWords_ok_iff L ws is).mpr his
    rw [h2] at hd
    simpa using hd.symm
  subst this
  have hlt := decodeWords_lt hL hd
  have hlen := decodeWords_length hd
  have hl : ws.length = 14 ∨ ws.length = 16 := by unfold shaped at hs; omega
  set W := ofDigitsBE 4096 is' with hW
  have hpow : (2 : Nat) ^ (12 * is'.length) = 4096 ^ is'.length := by rw [pow_mul]; norm_num
  have hWlt : W < 2 ^ (12 * is'.length) := by rw [hpow]; exact ofDigitsBE_lt hlt
  have hWk : W ^^^ 2 ^ k < 2 ^ (12 * is'.length) :=
    Nat.xor_lt_two_pow hWlt (Nat.pow_lt_pow_right (by norm_num) (by omega))
  have hflip : flipPhrase L is' k = (digitsBE 4096 is'.length (W ^^^ 2 ^ k)).map L.word := by
    rw [flipPhrase, flatMap_bits _ hlt, flipBit_bits (by omega), groups_bits]
    norm_num
    rfl
  have hlt' : ∀ j ∈ digitsBE 4096 is'.length (W ^^^ 2 ^ k), j < 4096 :=
    digitsBE_lt (by norm_num) _ _
  have hd' : decodeWords L (flipPhrase L is' k) = .ok (digitsBE 4096 is'.length (W ^^^ 2 ^ k)) := by
    rw [hflip]; exact decodeWords_map_word hL _ hlt'
  have hlen' : (flipPhrase L is' k).length = ws.length := by rw [hflip]; simp [hlen]
  obtain ⟨j0, hj0⟩ : ∃ j0, (digitsBE 4096 is'.length (W ^^^ 2 ^ k)).head? = some j0 := by
    cases hdg : digitsBE 4096 is'.length (W ^^^ 2 ^ k) with
    | nil =>
      have := congrArg List.length hdg
      rw [digitsBE_length, List.length_nil] at this
      omega
    | cons a b => exact ⟨a, rfl⟩
  have hofd : ofDigitsBE 4096 (digitsBE 4096 is'.length (W ^^^ 2 ^ k)) = W ^^^ 2 ^ k := by
    rw [ofDigitsBE_digitsBE, ← hpow, Nat.mod_eq_of_lt hWk]
  have hver : j0 / 256 = i0 / 256 := by
    have e1 := head_ofDigitsBE hlt' hj0
    have e2 := head_ofDigitsBE hlt hh
    rw [hofd, digitsBE_length] at e1
    rw [e1, e2, Nat.div_div_eq_div_mul, Nat.div_div_eq_div_mul,
      show 4096 ^ (is'.length - 1) * 256 = 2 ^ (12 * (is'.length - 1) + 8) by
        rw [pow_add, pow_mul]; norm_num, Nat.xor_div_two_pow,
      Nat.div_eq_of_lt (Nat.pow_lt_pow_right (by norm_num) (by omega) :
        2 ^ k < 2 ^ (12 * (is'.length - 1) + 8)), Nat.xor_zero]
  have hs' : shaped (flipPhrase L is' k).length j0 := by
    rw [hlen']; unfold shaped at *; omega
  have hdec := decode_shaped hL hd' hj0 hs'
  rw [hlen', hofd, synd_xor, hz, Nat.zero_xor, ne_eq, lin_blind hl (by omega)] at hdec
  rcases hdec with hr | hr
  · exact ⟨fun _ => hr.1, fun hn => absurd hr.2 hn⟩
  · exact ⟨fun hn => absurd hn hr.2, fun _ => hr.1⟩

/-- C08, on the checksum alone: in the bits of any phrase with a correct checksum, flipping any one
bit (the version bits included) keeps the checksum correct exactly at the listed positions. -/
theorem c08_checksum_only (n : Nat) (hn : n = 168 ∨ n = 192) (l : List Bool) (hl : l.length = n)
    (hck : l.drop (n - 5) = checksum (l.take (n - 5))) (k : Nat) (hk : k < n) :
    (flipBit l k).drop (n - 5) = checksum ((flipBit l k).take (n - 5)) ↔ k ∈ blindSpots := by
  obtain ⟨v, hv, rfl⟩ : ∃ v, v < 2 ^ n ∧ l = bits n v :=
    ⟨val l, hl ▸ val_lt l, by rw [← hl]; exact (bits_val l).symm⟩
  have key : ∀ v, v < 2 ^ n → ((bits n v).drop (n - 5) = checksum ((bits n v).take (n - 5)) ↔
      synd (payloadBytes (n / 12)) v = 0) := by
    intro v hv
    have hnb : (n - 5 + 7) / 8 = payloadBytes (n / 12) := by
      rcases hn with rfl | rfl <;> rfl
    have hv32 : v / 2 ^ 5 < 2 ^ (n - 5) := by
      rw [Nat.div_lt_iff_lt_mul (by positivity), ← pow_add]
      rwa [Nat.sub_add_cancel (by omega)]
    rw [drop_bits v (by omega), take_bits v (by omega), show n - (n - 5) = 5 by omega,
      checksum_bits hv32, bits5_eq_iff, hnb, synd_eq_zero, Nat.mod_eq_of_lt (checksum5_lt _),
      show (2 : Nat) ^ 5 = 32 by norm_num]
    exact eq_comm
  have h2k : (2 : Nat) ^ k < 2 ^ n := Nat.pow_lt_pow_right (by norm_num) hk
  rw [flipBit_bits hk, key _ (Nat.xor_lt_two_pow hv h2k), synd_xor, (key v hv).mp hck, Nat.zero_xor]
  rcases hn with rfl | rfl
  · exact lin_blind (.inl rfl) (by omega)
  · exact lin_blind (.inr rfl) (by omega)

/-- C08. The listed positions: ten within the 168 bits of a plaintext phrase, fifteen within the 192
bits of an encrypted one. -/
theorem c08_counts :
    ((List.range 168).filter (fun k => k ∈ blindSpots)).length = 10 ∧
    ((List.range 192).filter (fun k => k ∈ blindSpots)).length = 15 := by decide +kernel

/-- A concrete phrase in which flipping bit 12 goes unnoticed. -/
example : (decodeMnemonic toyWordList (flipPhrase toyWordList (Contents.plaintext 3 4).indices 12)).isOk
    = true := by decide +kernel

end Verif.Props
