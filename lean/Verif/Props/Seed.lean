import Verif.Props.Phrase
import Verif.Proofs.Negative

/-!
# Properties of seeds and conversion: C13-C18
-/

namespace Verif.Props

open Verif.Model Verif.Spec Verif.Instances

/-! ## C13 -/

/-- One conversion: decode the phrase, open it with its password, and write it again, either in
plaintext (`target = none`) or under a new password with the given random bytes. -/
def convertPhrase (L : WordList) (C : PhraseCrypto) (ws : List Bytes) (password : Bytes)
    (target : Option Bytes) (rnd : Bytes) : Res (List Bytes) := do
  let dm ← decodeMnemonic L ws
  let seed ← dm.decryptSeed C password
  match target with
  | none => encodeMnemonicPlaintext L seed dm.creationOffset
  | some pw =>
    let (ws', _) ← encodeMnemonicEncrypted L C seed dm.creationOffset pw rnd
    .ok ws'

/-- A chain of conversions. Each step opens the phrase with the password of the previous one (any
password, here the empty one, after a plaintext step). Returns the last phrase and its password. -/
def convertChain (L : WordList) (C : PhraseCrypto) :
    List Bytes × Bytes → List (Option Bytes × Bytes) → Res (List Bytes × Bytes)
  | st, [] => .ok st
  | (ws, pw), (target, rnd) :: rest => do
    let ws' ← convertPhrase L C ws pw target rnd
    convertChain L C (ws', target.getD []) rest

/-- The phrase, opened with the password, gives this seed and offset. -/
def Opens (L : WordList) (C : PhraseCrypto) (ws : List Bytes) (password : Bytes) (seed off : Nat) :
    Prop :=
  ∃ dm, decodeMnemonic L ws = .ok dm ∧ dm.decryptSeed C password = .ok ⟨0, seed⟩ ∧
    dm.creationOffset = off

theorem opens_plaintext {L : WordList} (hL : L.Lawful) (C : PhraseCrypto) {s off : Nat}
    (hs : s < 2 ^ 128) (ho : off < 2 ^ 31) (pw : Bytes) :
    ∃ ws, encodeMnemonicPlaintext L ⟨0, s⟩ off = .ok ws ∧ Opens L C ws pw s off := by
  obtain ⟨ws, dm, h1, h2, h3, h4, h5, h6, -⟩ := c01_plaintext_round_trip hL 0 s (by positivity)
    ⟨0, s⟩ ((newSeed_ok_iff _ _ _).mpr ⟨rfl, by simpa using hs, rfl⟩) off ho
  refine ⟨ws, h1, dm, h2, ?_, h5⟩
  rcases c11_seed_access hL C ws dm h2 with h | h
  · rw [h.2.1] at h4; simp at h4
  · obtain ⟨_, _, s', _, h7, h8⟩ := h
    rw [h6] at h7
    rw [h8 pw, h7]

/-- C13. Every chain of conversions with non-empty new passwords and at least three random bytes
per step succeeds, and the final phrase opens to the original seed and offset. -/
theorem c13_conversion_chain {L : WordList} (hL : L.Lawful) {C : PhraseCrypto} (hC : C.Lawful)
    (s off : Nat) (hs : s < 2 ^ 128) (ho : off < 2 ^ 31) (ws : List Bytes) (password : Bytes)
    (hopen : Opens L C ws password s off) (steps : List (Option Bytes × Bytes))
    (hsteps : ∀ st ∈ steps, st.1 ≠ some [] ∧ 3 ≤ st.2.length) :
    ∃ ws' pw', convertChain L C (ws, password) steps = .ok (ws', pw') ∧
      Opens L C ws' pw' s off := by
  induction steps generalizing ws password with
  | nil => exact ⟨ws, password, rfl, hopen⟩
  | cons st rest ih =>
    obtain ⟨target, rnd⟩ := st
    have hst := hsteps _ (List.mem_cons_self ..)
    have hrest : ∀ st ∈ rest, st.1 ≠ some [] ∧ 3 ≤ st.2.length :=
      fun st h => hsteps st (List.mem_cons_of_mem _ h)
    obtain ⟨dm, h1, h2, h3⟩ := hopen
    cases target with
    | none =>
      obtain ⟨ws', h4, h5⟩ := opens_plaintext hL C hs ho []
      obtain ⟨ws'', pw'', h6, h7⟩ := ih ws' [] h5 hrest
      refine ⟨ws'', pw'', ?_, h7⟩
      simp only [convertChain, convertPhrase, h1, h2, h3, h4, Res.bind_ok, Option.getD_none]
      exact h6
    | some pw =>
      have hpw : pw ≠ [] := fun h => hst.1 (by rw [h])
      obtain ⟨ws', r, dm', h4, h5, _, _, h6, h7⟩ :=
        c09_encrypted_round_trip hL hC s off hs ho pw hpw rnd hst.2
      obtain ⟨ws'', pw'', h8, h9⟩ := ih ws' pw ⟨dm', h5, h7, h6⟩ hrest
      refine ⟨ws'', pw'', ?_, h9⟩
      simp only [convertChain, convertPhrase, h1, h2, h3, h4, Res.bind_ok, Option.getD_some]
      exact h8

/-- Plaintext, then under "a", then under "bc", then plaintext again. -/
example : ∃ ws ws' pw', encodeMnemonicPlaintext toyWordList ⟨0, (99 : Nat)⟩ 7 = .ok ws ∧
    convertChain toyWordList toyPhraseCrypto (ws, [])
      [(some [0x61], [1, 2, 3]), (some [0x62, 0x63], [4, 5, 6]), (none, [7, 8, 9])]
      = .ok (ws', pw') ∧ Opens toyWordList toyPhraseCrypto ws' pw' 99 7 := by
  obtain ⟨ws, h1, h2⟩ := opens_plaintext (s := 99) (off := 7) toyWordList_lawful toyPhraseCrypto
    (by norm_num) (by norm_num) []
  obtain ⟨ws', pw', h3, h4⟩ := c13_conversion_chain toyWordList_lawful toyPhraseCrypto_lawful 99 7
    (by norm_num) (by norm_num) ws [] h2
    [(some [0x61], [1, 2, 3]), (some [0x62, 0x63], [4, 5, 6]), (none, [7, 8, 9])] (by simp)
  exact ⟨ws, ws', pw', h1, h3, h4⟩

/-! ## C14 -/

/-- C14. GenerateSeed reads 16 bytes, or fails if there are fewer. -/
theorem c14_generate_seed (rnd : Bytes) :
    generateSeed rnd = if rnd.length < 16 then .err .randomRead
      else .ok (⟨0, (valueOfBytes (rnd.take 16) : Nat)⟩, rnd.drop 16) := by
  have h := randInt_seed rnd
  have hn : ∀ b : Bytes, newSeed eraLatest ((setBytes (b.take 16) : Nat) : Int) =
      .ok ⟨0, ((setBytes (b.take 16) : Nat) : Int)⟩ := by
    intro b
    rw [newSeed_ok_iff]
    refine ⟨rfl, ?_, rfl⟩
    have h1 := setBytes_lt (b.take 16)
    have h2 : 256 ^ (b.take 16).length ≤ 256 ^ 16 :=
      Nat.pow_le_pow_right (by norm_num) (by simp)
    rw [Int.natAbs_natCast]
    exact lt_of_lt_of_le (lt_of_lt_of_le h1 h2) (by norm_num)
  unfold generateSeed
  rw [show entropyBitCount = 128 from rfl, h]
  by_cases hl : rnd.length < 16
  · rw [if_pos hl, if_pos hl]; rfl
  · rw [if_neg hl, if_neg hl, Res.bind_ok]
    simp only [hn, Res.bind_ok, valueOfBytes_eq]

/-- C14. The seed's byte form is the random bytes, so different bytes give different seeds. -/
theorem c14_seed_bytes (b rest : Bytes) (hb : b.length = 16) :
    ∃ s, generateSeed (b ++ rest) = .ok (s, rest) ∧ s.bytes = .ok b := by
  refine ⟨⟨0, (valueOfBytes b : Nat)⟩, ?_, ?_⟩
  · rw [c14_generate_seed, if_neg (by simp; omega)]
    rw [List.take_left' hb, List.drop_left' hb]
  · rw [Seed.bytes, valueOfBytes_eq, show (entropyBitCount + 7) / 8 = 16 from rfl,
      fillBytes_natCast _ _ (by rw [← hb]; exact setBytes_lt b)]
    rw [← hb, beBytes_setBytes]

/-- C14. Every seed below `2^128` is produced by exactly one 16-byte input. -/
theorem c14_bijection (x : Nat) (hx : x < 2 ^ 128) :
    ∃! b : Bytes, b.length = 16 ∧ generateSeed b = .ok (⟨0, x⟩, []) := by
  have hx' : x < 256 ^ 16 := lt_of_lt_of_le hx (by norm_num)
  refine ⟨beBytes 16 x, ⟨by simp, ?_⟩, ?_⟩
  · have hl : (beBytes 16 x).length = 16 := by simp
    rw [c14_generate_seed, if_neg (by omega), List.take_of_length_le (by omega),
      List.drop_of_length_le (by omega), valueOfBytes_eq, setBytes_beBytes,
      Nat.mod_eq_of_lt hx']
  · rintro b ⟨hb, hg⟩
    rw [c14_generate_seed, if_neg (by omega), List.take_of_length_le (by omega),
      valueOfBytes_eq] at hg
    simp only [Res.ok.injEq, Prod.mk.injEq, Seed.mk.injEq] at hg
    have : setBytes b = x := by exact_mod_cast hg.1.2
    rw [← this, ← hb, beBytes_setBytes]

example : generateSeed [0, 0, 0, 0, 0, 0, 0, 0, 0, 0, 0, 0, 0, 0, 1, 2, 0xFF] =
    .ok (⟨0, 258⟩, [0xFF]) := by decide +kernel

/-! ## C15 -/

/-- The salt in the phrase written with the given random bytes, as DecodeMnemonic reports it. -/
def writtenSalt (L : WordList) (C : PhraseCrypto) (s off : Nat) (password rnd : Bytes) :
    Option Int :=
  match (do
    let (ws, _) ← encodeMnemonicEncrypted L C ⟨0, s⟩ off password rnd
    decodeMnemonic L ws : Res DecodedMnemonic) with
  | .ok dm => dm.salt
  | _ => none

theorem writtenSalt_eq {L : WordList} (hL : L.Lawful) {C : PhraseCrypto} (hC : C.Lawful)
    (s off : Nat) (hs : s < 2 ^ 128) (ho : off < 2 ^ 31) (password : Bytes) (hp : password ≠ [])
    (a b c : Byte) (rest : Bytes) :
    writtenSalt L C s off password (a :: b :: c :: rest) =
      some ((valueOfBytes [a, b, c] % 2 ^ 19 : Nat) : Int) := by
  have h1 := (c02_encrypted_layout L hC s off hs ho password hp a b c rest).1
  have hlt : valueOfBytes [a, b, c] % 2 ^ 19 < 2 ^ 19 := Nat.mod_lt _ (by norm_num)
  have hfit := encryptSeed_fits hC password (s := s) hlt ho
  have hd := decode_words hL hfit
  unfold writtenSalt
  rw [h1, Res.bind_ok]
  dsimp only
  rw [hd]
  rfl

theorem filter_range_eq (m r : Nat) :
    (List.range m).filter (fun t => decide (t = r)) = if r < m then [r] else [] := by
  induction m with
  | zero => simp
  | succ m ih =>
    rw [List.range_succ, List.filter_append, ih]
    by_cases h : m = r
    · subst h; simp
    · have h1 : r < m + 1 ↔ r < m := by omega
      simp [h, h1]

theorem count_mod (m k r : Nat) (hr : r < m) :
    ((List.range (k * m)).filter (fun t => t % m = r)).length = k := by
  induction k with
  | zero => simp
  | succ k ih =>
    rw [Nat.succ_mul, List.range_add, List.filter_append, List.length_append, ih,
      List.filter_map, List.length_map]
    have : (List.range m).filter ((fun t => decide (t % m = r)) ∘ (k * m + ·)) =
        (List.range m).filter (fun t => decide (t = r)) := by
      apply List.filter_congr
      intro t ht
      rw [List.mem_range] at ht
      simp [Nat.add_mod, Nat.mod_eq_of_lt ht]
    rw [this]
    rw [filter_range_eq, if_pos hr]; rfl

/-- C15. Exactly three bytes are read, and each salt comes from exactly 32 byte triples. -/
theorem c15_salt_uniform {L : WordList} (hL : L.Lawful) {C : PhraseCrypto} (hC : C.Lawful)
    (s off : Nat) (hs : s < 2 ^ 128) (ho : off < 2 ^ 31) (password : Bytes) (hp : password ≠ [])
    (salt : Nat) (hsalt : salt < 2 ^ 19) :
    ((List.range (2 ^ 24)).filter (fun t =>
      writtenSalt L C s off password (toBytes (bits 24 t)) = some (salt : Int))).length = 32 := by
  have h : ∀ t ∈ List.range (2 ^ 24), decide (writtenSalt L C s off password (toBytes (bits 24 t))
      = some (salt : Int)) = decide (t % 2 ^ 19 = salt) := by
    intro t ht
    have ht' : t < 2 ^ 24 := List.mem_range.mp ht
    have hb : toBytes (bits 24 t) = beBytes 3 t := toBytes_bits 24 t ht'
    obtain ⟨a, b, c, habc⟩ : ∃ a b c, beBytes 3 t = [a, b, c] := ⟨_, _, _, rfl⟩
    have hv : valueOfBytes [a, b, c] = t := by
      rw [valueOfBytes_eq, ← habc, setBytes_beBytes, Nat.mod_eq_of_lt]
      exact lt_of_lt_of_le ht' (by norm_num)
    rw [hb, habc, writtenSalt_eq hL hC s off hs ho password hp, hv]
    simp only [Option.some.injEq, Nat.cast_inj]
  rw [List.filter_congr h, show (2 : Nat) ^ 24 = 32 * 2 ^ 19 by norm_num]
  exact count_mod _ _ _ hsalt

/-- C15. The rest of the random source is untouched. -/
theorem c15_reads_three (L : WordList) {C : PhraseCrypto} (hC : C.Lawful)
    (s off : Nat) (hs : s < 2 ^ 128) (ho : off < 2 ^ 31) (password : Bytes) (hp : password ≠ [])
    (rnd : Bytes) (hr : 3 ≤ rnd.length) :
    ∃ ws, encodeMnemonicEncrypted L C ⟨0, s⟩ off password rnd = .ok (ws, rnd.drop 3) := by
  match rnd, hr with
  | a :: b :: c :: rest, _ =>
    exact ⟨_, (c02_encrypted_layout L hC s off hs ho password hp a b c rest).1⟩

example : ((List.range (2 ^ 24)).filter (fun t => writtenSalt toyWordList toyPhraseCrypto 5 6
    [0x78] (toBytes (bits 24 t)) = some ((77 : Nat) : Int))).length = 32 :=
  c15_salt_uniform toyWordList_lawful toyPhraseCrypto_lawful 5 6 (by norm_num) (by norm_num) [0x78]
    (by simp) 77 (by norm_num)

/-! ## C16 -/

/-- C16. The three outcomes of NewSeed. -/
theorem c16_new_seed (era x : Int) :
    (era ≠ 0 → newSeed era x = .err .invalidEra) ∧
    (era = 0 → (x ≤ -2 ^ 128 ∨ 2 ^ 128 ≤ x) → newSeed era x = .err .entropyTooLarge) ∧
    (era = 0 → -2 ^ 128 < x → x < 2 ^ 128 → newSeed era x = .ok ⟨era, x⟩) := by
  refine ⟨?_, ?_, ?_⟩
  · intro h; rw [newSeed_eq, if_pos h]
  · rintro rfl h
    rw [newSeed_eq, if_neg (by simp), if_pos]
    omega
  · rintro rfl h1 h2
    rw [newSeed_ok_iff]
    exact ⟨rfl, by omega, rfl⟩

example : newSeed 0 (2 ^ 128 - 1) = .ok ⟨0, 2 ^ 128 - 1⟩ ∧
    newSeed 0 (2 ^ 128) = .err .entropyTooLarge ∧ newSeed (-1) 5 = .err .invalidEra :=
  ⟨(c16_new_seed 0 _).2.2 rfl (by norm_num) (by norm_num),
   (c16_new_seed 0 _).2.1 rfl (.inr (le_refl _)), (c16_new_seed _ _).1 (by norm_num)⟩

/-! ## C17 -/

/-- C17 (defect). Every negative integer of at most 128 bits is accepted by NewSeed, and encoding
the resulting seed as a plaintext phrase panics, for every offset that fits. -/
theorem c17_negative_panics (L : WordList) (x : Int) (hneg : x < 0) (hx : -2 ^ 128 < x)
    (off : Nat) (ho : off < 2 ^ 31) :
    ∃ s, newSeed 0 x = .ok s ∧ (encodeMnemonicPlaintext L s off).isPanic = true := by
  refine ⟨⟨0, x⟩, (c16_new_seed 0 x).2.2 rfl hx (by omega), ?_⟩
  obtain ⟨m, rfl⟩ := Int.eq_negSucc_of_lt_zero hneg
  have hm : m + 1 < 2 ^ 128 := by omega
  have h0 : BitBuffer.new ((0 : Nat) : Int) mnemonicVersionBitCount = .ok (.mkNat 0 4) :=
    BitBuffer.new_nat (by decide)
  have hera : eraCheck 0 = .ok () := rfl
  have h1 : (BitBuffer.mkNat 0 4).appendTrailingBits (Int.negSucc m) entropyBitCount =
      .ok { value := Int.negSucc m, nBits := 132 } := by
    have hb : ¬ bitLen (Int.negSucc m) > entropyBitCount := by
      have := (bitLen_le_iff (Int.negSucc m) 128).mpr (by simpa using hm)
      rw [show entropyBitCount = 128 from rfl]; omega
    have hz : lsh ((0 : Nat) : Int) 128 = ((0 : Nat) : Int) := by rw [lsh_natCast]; simp
    have hl : Int.lor ((0 : Nat) : Int) (Int.negSucc m) = Int.negSucc m := by
      show Int.negSucc (Nat.ldiff m 0) = _
      congr 1
      apply Nat.eq_of_testBit_eq
      intro i
      simp [Nat.testBit_ldiff]
    unfold BitBuffer.appendTrailingBits
    rw [if_neg hb, show entropyBitCount = 128 from rfl, BitBuffer.mkNat_value, hz, hl]
    rfl
  obtain ⟨m2, hm2, h2⟩ := appendTrailing_neg (m := m) (n := 132) ho
  have hm2' : m2 + 1 < 2 ^ 159 := by
    refine lt_of_le_of_lt hm2 ?_
    calc (m + 1) * 2 ^ 31 < 2 ^ 128 * 2 ^ 31 := by
          apply Nat.mul_lt_mul_of_pos_right hm (by positivity)
      _ = 2 ^ 159 := by rw [← pow_add]
  have h3 : ({ value := Int.negSucc m2, nBits := 163 } : BitBuffer).bytes =
      .ok (beBytes 21 (m2 + 1)) := by
    unfold BitBuffer.bytes fillBytes
    rw [show (163 + 7) / 8 = 21 from rfl]
    simp only [Int.natAbs_negSucc]
    rw [if_pos]
    exact lt_of_lt_of_le hm2' (by norm_num)
  obtain ⟨m3, hm3, h4⟩ := appendTrailing_neg (m := m2) (n := 163) (w := 5)
    (checksum5_lt (beBytes 21 (m2 + 1)))
  have hm3' : m3 + 1 < 2 ^ 168 := by
    refine lt_of_le_of_lt hm3 ?_
    calc (m2 + 1) * 2 ^ 5 < 2 ^ 159 * 2 ^ 5 := by
          apply Nat.mul_lt_mul_of_pos_right hm2' (by positivity)
      _ ≤ 2 ^ 168 := by norm_num
  have h5 := encodeToIndices_neg hm3'
  unfold encodeMnemonicPlaintext
  dsimp only [Seed.int]
  rw [hera, Res.bind_ok, h0, Res.bind_ok, h1, Res.bind_ok]
  rw [show creationOffsetBitCount = 31 from rfl, h2, Res.bind_ok]
  unfold encodeMnemonic
  rw [h3, Res.bind_ok, show checksumBitCount = 5 from rfl, h4, Res.bind_ok]
  rw [if_neg (by simp [BitBuffer.bitLength, payloadBitCount, mnemonicVersionBitCount,
    creationOffsetBitCount, checksumBitCount, entropyBitCount])]
  simp only [BitBuffer.int, BitBuffer.bitLength]
  rw [h5]
  rfl

example : ∃ s, newSeed 0 (-1) = .ok s ∧
    (encodeMnemonicPlaintext toyWordList s 0).isPanic = true :=
  c17_negative_panics toyWordList (-1) (by norm_num) (by norm_num) 0 (by norm_num)

/-! ## C18 -/

/-- C18. For non-negative seeds the plaintext encoder panics exactly on offsets of `2^31` and
above. -/
theorem c18_plaintext_offset (L : WordList) (s off : Nat) (hs : s < 2 ^ 128) :
    (encodeMnemonicPlaintext L ⟨0, s⟩ off).isPanic = true ↔ 2 ^ 31 ≤ off := by
  constructor
  · intro h
    by_contra ho
    rw [(c02_plaintext_layout L s off hs (by omega)).1] at h
    exact absurd h (by simp [Res.isPanic])
  · intro ho
    have h0 : BitBuffer.new ((0 : Nat) : Int) mnemonicVersionBitCount = .ok (.mkNat 0 4) :=
      BitBuffer.new_nat (by decide)
    have hera : eraCheck 0 = .ok () := rfl
    have h1 : (BitBuffer.mkNat 0 4).appendTrailingBits (s : Int) entropyBitCount = .ok _ :=
      BitBuffer.appendTrailing_nat hs
    unfold encodeMnemonicPlaintext
    dsimp only [Seed.int]
    rw [hera, Res.bind_ok, h0, Res.bind_ok, h1, Res.bind_ok,
      show creationOffsetBitCount = 31 from rfl, BitBuffer.appendTrailing_nat_panic ho]
    rfl

/-- C18. The same for the encrypted encoder, with a non-empty password and enough randomness. -/
theorem c18_encrypted_offset (L : WordList) {C : PhraseCrypto} (hC : C.Lawful) (s off : Nat)
    (hs : s < 2 ^ 128) (password : Bytes) (hp : password ≠ []) (rnd : Bytes)
    (hr : 3 ≤ rnd.length) :
    (encodeMnemonicEncrypted L C ⟨0, s⟩ off password rnd).isPanic = true ↔ 2 ^ 31 ≤ off := by
  constructor
  · intro h
    by_contra ho
    obtain ⟨ws, hw⟩ := c15_reads_three L hC s off hs (by omega) password hp rnd hr
    rw [hw] at h
    exact absurd h (by simp [Res.isPanic])
  · intro ho
    match rnd, hr with
    | a :: b :: c :: rest, _ =>
      have hlen : password.length ≠ 0 := by simpa using hp
      have h0 : BitBuffer.new ((1 : Nat) : Int) mnemonicVersionBitCount = .ok (.mkNat 1 4) :=
        BitBuffer.new_nat (by decide)
      have hera : eraCheck 0 = .ok () := rfl
      have h1 : randInt (a :: b :: c :: rest) (2 ^ 19) = .ok (saltOf a b c, rest) := randInt_salt _
      have h2 : encSeedKey C password (saltOf a b c : Int) off = .panic .bitBufferWidth := by
        unfold encSeedKey
        rw [BitBuffer.new_nat (n := saltBitCount) (saltOf_lt a b c), Res.bind_ok,
          show creationOffsetBitCount = 31 from rfl, BitBuffer.appendTrailing_nat_panic ho]
        rfl
      unfold encodeMnemonicEncrypted
      dsimp only
      rw [hera, Res.bind_ok, if_neg hlen, h0, Res.bind_ok, show saltBitCount = 19 from rfl, h1,
        Res.bind_ok]
      simp only
      rw [h2]
      rfl

example : (encodeMnemonicPlaintext toyWordList ⟨0, (3 : Nat)⟩ (2 ^ 31)).isPanic = true ∧
    ¬ (encodeMnemonicPlaintext toyWordList ⟨0, (3 : Nat)⟩ (2 ^ 31 - 1)).isPanic = true := by
  rw [c18_plaintext_offset _ _ _ (by norm_num), c18_plaintext_offset _ _ _ (by norm_num)]
  norm_num

end Verif.Props
