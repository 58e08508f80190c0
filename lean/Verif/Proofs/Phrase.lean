import Verif.Proofs.BitBuffer
import Verif.Proofs.Mnemonic
import Verif.Model.Recovery

/-! Closed forms of phrase encoding and decoding. -/

namespace Verif.Model

theorem checksum5_eq (b : Bytes) : checksum5 b = (crc32 b).toNat % 32 := by
  simp only [checksum5, BitVec.toNat_and, checksumMask, checksumBitCount]
  have : (BitVec.ofNat 32 (2 ^ 5 - 1)).toNat = 2 ^ 5 - 1 := by decide
  rw [this, Nat.and_comm, Nat.and_two_pow_sub_one_eq_mod]

theorem checksum5_lt (b : Bytes) : checksum5 b < 32 := by
  rw [checksum5_eq]; exact Nat.mod_lt _ (by norm_num)

/-- The codeword: payload with its checksum appended. -/
def codeword (nBytes payload : Nat) : Nat := payload * 32 + checksum5 (beBytes nBytes payload)

theorem codeword_lt {nb p k : Nat} (h : p < 2 ^ k) : codeword nb p < 2 ^ (k + 5) := by
  have := checksum5_lt (beBytes nb p)
  rw [pow_add, codeword]
  omega

theorem encodeMnemonic_v0 (L : WordList) {p : Nat} (hp : p < 2 ^ 163) :
    encodeMnemonic L 0 (.mkNat p 163) = .ok ((digitsBE 4096 14 (codeword 21 p)).map L.word) := by
  have hck : checksum5 (beBytes 21 p) < 2 ^ 5 := checksum5_lt _
  have hw : codeword 21 p < 2 ^ 168 := codeword_lt hp
  have e : p * 2 ^ 5 + checksum5 (beBytes 21 p) = codeword 21 p := rfl
  simp only [encodeMnemonic, BitBuffer.bytes_nat hp, Res.bind_ok, checksumBitCount,
    show (163 + 7) / 8 = 21 from rfl, BitBuffer.appendTrailing_nat hck, BitBuffer.mkNat_bitLength,
    BitBuffer.mkNat_int, e]
  rw [if_neg (by decide), encodeToIndices_nat, if_pos hw]
  simp only [Res.bind_ok]
  rw [encodeToWords_ok]
  exact digitsBE_lt (by norm_num) _ _

theorem encodeMnemonic_v1 (L : WordList) {p : Nat} (hp : p < 2 ^ 187) :
    encodeMnemonic L 1 (.mkNat p 187) = .ok ((digitsBE 4096 16 (codeword 24 p)).map L.word) := by
  have hck : checksum5 (beBytes 24 p) < 2 ^ 5 := checksum5_lt _
  have hw : codeword 24 p < 2 ^ 192 := codeword_lt hp
  have e : p * 2 ^ 5 + checksum5 (beBytes 24 p) = codeword 24 p := rfl
  simp only [encodeMnemonic, BitBuffer.bytes_nat hp, Res.bind_ok, checksumBitCount,
    show (187 + 7) / 8 = 24 from rfl, BitBuffer.appendTrailing_nat hck, BitBuffer.mkNat_bitLength,
    BitBuffer.mkNat_int, e]
  rw [if_neg (by decide), encodeToIndices_nat, if_pos hw]
  simp only [Res.bind_ok]
  rw [encodeToWords_ok]
  exact digitsBE_lt (by norm_num) _ _

/-- The 163-bit payload of a plaintext phrase. -/
def payload0 (s off : Nat) : Nat := s * 2 ^ 31 + off

theorem payload0_lt {s off : Nat} (hs : s < 2 ^ 128) (ho : off < 2 ^ 31) :
    payload0 s off < 2 ^ 159 := by
  rw [payload0]; omega

theorem encodePlaintext_nat (L : WordList) {s off : Nat} (hs : s < 2 ^ 128) (ho : off < 2 ^ 31) :
    encodeMnemonicPlaintext L { era := 0, value := (s : Int) } off =
      .ok ((digitsBE 4096 14 (codeword 21 (payload0 s off))).map L.word) := by
  have hp : payload0 s off < 2 ^ 163 :=
    lt_trans (payload0_lt hs ho) (by norm_num)
  have h0 : BitBuffer.new ((0 : Nat) : Int) 4 = .ok (.mkNat 0 4) :=
    BitBuffer.new_nat (by norm_num)
  have h1 := BitBuffer.appendTrailing_nat (v := 0) (n := 4) hs
  have h2 := BitBuffer.appendTrailing_nat (v := 0 * 2 ^ 128 + s) (n := 4 + 128) ho
  have e : (0 * 2 ^ 128 + s) * 2 ^ 31 + off = payload0 s off := by rw [payload0]; ring
  have h3 : eraCheck 0 = .ok () := rfl
  unfold encodeMnemonicPlaintext mnemonicVersionBitCount entropyBitCount creationOffsetBitCount
    Seed.int
  dsimp only
  rw [h3, Res.bind_ok, h0, Res.bind_ok, h1, Res.bind_ok, h2, Res.bind_ok, e]
  exact encodeMnemonic_v0 L hp

/-- The 187-bit payload of an encrypted phrase. -/
def payload1 (enc salt ver off : Nat) : Nat :=
  ((((1 * 2 ^ 128 + enc) * 2 ^ 19 + salt) * 2 ^ 5) + ver) * 2 ^ 31 + off

theorem payload1_lt {enc salt ver off : Nat} (he : enc < 2 ^ 128) (hs : salt < 2 ^ 19)
    (hv : ver < 2 ^ 5) (ho : off < 2 ^ 31) : payload1 enc salt ver off < 2 ^ 187 := by
  rw [payload1]; omega

/-- The Argon2id salt: 50 bits of salt and offset in 7 bytes. -/
def argonSalt (salt off : Nat) : Bytes := beBytes 7 (salt * 2 ^ 31 + off)

/-- The Argon2id output used to encrypt the seed. -/
def phraseKey (C : PhraseCrypto) (password : Bytes) (salt off : Nat) : Bytes :=
  C.argon2id password (argonSalt salt off) 4 0x80000 2 17

theorem encSeedKey_nat (C : PhraseCrypto) (password : Bytes) {salt off : Nat}
    (hs : salt < 2 ^ 19) (ho : off < 2 ^ 31) :
    encSeedKey C password (salt : Int) off = .ok (phraseKey C password salt off) := by
  have hb : salt * 2 ^ 31 + off < 2 ^ (19 + 31) := by omega
  have h1 : BitBuffer.new (salt : Int) saltBitCount = .ok (.mkNat salt 19) := BitBuffer.new_nat hs
  have h2 := BitBuffer.appendTrailing_nat (v := salt) (n := 19) ho
  have h3 := BitBuffer.bytes_nat hb
  unfold encSeedKey creationOffsetBitCount
  rw [h1, Res.bind_ok, h2, Res.bind_ok, h3, Res.bind_ok]
  unfold argonTimeFactor argonMemoryFactor argonThreads phraseKey argonSalt
  norm_num

/-- The five verify bits of a key. -/
def verify5 (key : Bytes) : Nat := (key.getD 16 0).toNat % 32

theorem and_mask_toNat (b : Byte) : (b &&& encSeedVerifyMask).toNat = b.toNat % 32 := by
  have h : encSeedVerifyMask.toNat = 2 ^ 5 - 1 := by decide
  rw [UInt8.toNat_and, h, Nat.and_two_pow_sub_one_eq_mod]

theorem verifyBits_ok {key : Bytes} (h : key.length = 17) :
    verifyBits key = .ok (UInt8.ofNat (verify5 key)) := by
  have h1 : key[16]? = some (key.getD 16 0) := by
    rw [List.getD_eq_getElem?_getD, List.getElem?_eq_getElem (by omega)]
    simp
  simp only [verifyBits, h1]
  congr 1
  apply UInt8.toNat_inj.mp
  rw [and_mask_toNat, UInt8.toNat_ofNat', verify5]
  omega

theorem verify5_lt (key : Bytes) : verify5 key < 32 := Nat.mod_lt _ (by norm_num)

theorem encodeEncrypted_nat (L : WordList) {C : PhraseCrypto} (hC : C.Lawful) {s off : Nat}
    (hs : s < 2 ^ 128) (ho : off < 2 ^ 31) {password : Bytes} (hp : password ≠ [])
    {rnd rest : Bytes} {salt : Nat} (hr : randInt rnd (2 ^ 19) = .ok (salt, rest))
    (hsalt : salt < 2 ^ 19) :
    encodeMnemonicEncrypted L C { era := 0, value := (s : Int) } off password rnd =
      .ok ((digitsBE 4096 16 (codeword 24 (payload1
        (setBytes (C.aesEnc ((phraseKey C password salt off).take 16) (beBytes 16 s))) salt
        (verify5 (phraseKey C password salt off)) off))).map L.word, rest) := by
  have h0 : BitBuffer.new ((1 : Nat) : Int) 4 = .ok (.mkNat 1 4) :=
    BitBuffer.new_nat (by norm_num)
  have hlen : password.length ≠ 0 := by simpa using hp
  set key := phraseKey C password salt off with hkey
  have hkl : key.length = 17 := hC.argon2id_length ..
  have hkl' : (key.take 16).length = 16 := by simp [hkl]
  set enc := setBytes (C.aesEnc (key.take 16) (beBytes 16 s)) with henc'
  have henc : enc < 2 ^ 128 := by
    have := setBytes_lt (C.aesEnc (key.take 16) (beBytes 16 s))
    rw [hC.aesEnc_length _ _ hkl' (beBytes_length _ _)] at this
    exact lt_of_lt_of_le this (by norm_num)
  have hv : verify5 key < 2 ^ 5 := verify5_lt key
  have hv' : (UInt8.ofNat (verify5 key)).toNat = verify5 key := by
    rw [UInt8.toNat_ofNat']; omega
  have hsb : Seed.bytes { era := 0, value := (s : Int) } = .ok (beBytes 16 s) :=
    fillBytes_natCast s 16 (lt_of_lt_of_le hs (by norm_num))
  have hpl := payload1_lt henc hsalt hv ho
  have h1 := BitBuffer.appendTrailing_nat (v := 1) (n := 4) henc
  have h2 := BitBuffer.appendTrailing_nat (v := 1 * 2 ^ 128 + enc) (n := 4 + 128) hsalt
  have h3 := BitBuffer.appendTrailing_nat (v := (1 * 2 ^ 128 + enc) * 2 ^ 19 + salt)
    (n := 4 + 128 + 19) hv
  have h4 := BitBuffer.appendTrailing_nat
    (v := ((1 * 2 ^ 128 + enc) * 2 ^ 19 + salt) * 2 ^ 5 + verify5 key)
    (n := 4 + 128 + 19 + 5) ho
  have e : (((1 * 2 ^ 128 + enc) * 2 ^ 19 + salt) * 2 ^ 5 + verify5 key) * 2 ^ 31 + off =
      payload1 enc salt (verify5 key) off := by rw [payload1]
  have hk := encSeedKey_nat C password hsalt ho
  have h5 : eraCheck 0 = .ok () := rfl
  unfold encodeMnemonicEncrypted mnemonicVersionBitCount entropyBitCount creationOffsetBitCount
    saltBitCount encSeedVerifyBitCount
  dsimp only
  rw [h5, Res.bind_ok, if_neg hlen, h0, Res.bind_ok, hr, Res.bind_ok]
  dsimp only
  rw [hk, Res.bind_ok, hsb, Res.bind_ok, ← hkey, verifyBits_ok hkl, Res.bind_ok, hv', ← henc',
    h1, Res.bind_ok, h2, Res.bind_ok, h3, Res.bind_ok, h4, Res.bind_ok, e,
    show 4 + 128 + 19 + 5 + 31 = 187 from rfl, encodeMnemonic_v1 L hpl, Res.bind_ok]

/-! ### Decoding -/

theorem parseVersion_eq (L : WordList) (w : Bytes) :
    parseMnemonicVersion L w = match L.lookup (L.toLower w) with
      | none => .err .invalidWord
      | some i => if i / 256 > 1 then .err .invalidVersion else .ok (i / 256) := by
  simp only [parseMnemonicVersion, parseMnemonicVersionRaw]
  cases L.lookup (L.toLower w) with
  | none => rfl
  | some i =>
    have : i >>> (bitsPerWord - mnemonicVersionBitCount) = i / 256 := by
      rw [Nat.shiftRight_eq_div_pow]; rfl
    simp only [this, versionCheck, mnemonicVersionLatest]
    by_cases h : i / 256 > 1 <;> simp [h]

/-- Fields of a plaintext codeword. -/
def fields0 (w : Nat) : DecodedMnemonic :=
  { version := 0, entropy := ((w / 2 ^ 36 % 2 ^ 128 : Nat) : Int), salt := none,
    encSeedVerify := 0, creationOffset := w / 2 ^ 5 % 2 ^ 31 }

/-- Fields of an encrypted codeword. -/
def fields1 (w : Nat) : DecodedMnemonic :=
  { version := 1, entropy := ((w / 2 ^ 60 % 2 ^ 128 : Nat) : Int),
    salt := some ((w / 2 ^ 41 % 2 ^ 19 : Nat) : Int),
    encSeedVerify := UInt8.ofNat (w / 2 ^ 36 % 2 ^ 5), creationOffset := w / 2 ^ 5 % 2 ^ 31 }

theorem decodeMnemonic_v0 {L : WordList} (hL : L.Lawful) {ws : List Bytes} {is : List Nat}
    (hd : decodeWords L ws = .ok is) (hlen : ws.length = 14) (hv : is.head? = some i0)
    (h0 : i0 / 256 = 0) :
    decodeMnemonic L ws =
      if checksum5 (beBytes 21 (ofDigitsBE 4096 is / 32)) ≠ ofDigitsBE 4096 is % 32
      then .err .invalidChecksum else .ok (fields0 (ofDigitsBE 4096 is)) := by
  have hlt := decodeWords_lt hL hd
  have hl := decodeWords_length hd
  set w := ofDigitsBE 4096 is with hw
  have hwlt : w < 2 ^ 168 := by
    have := ofDigitsBE_lt hlt
    rw [hl, hlen] at this
    exact lt_of_lt_of_le this (by norm_num)
  cases ws with
  | nil => simp at hlen
  | cons x xs =>
    cases is with
    | nil => simp at hl
    | cons i is =>
      simp only [List.head?_cons, Option.some.injEq] at hv
      subst hv
      have hx := (decodeWords_ok_iff L _ _).mp hd
      simp only [List.map_cons, List.cons.injEq] at hx
      have hpv : parseMnemonicVersion L x = .ok 0 := by
        rw [parseVersion_eq, hx.1]; simp [h0]
      have hp : w / 2 ^ 5 < 2 ^ 163 := by omega
      have hp2 : w / 2 ^ 5 % 2 ^ 159 < 2 ^ 159 := Nat.mod_lt _ (by norm_num)
      have hp3 : w / 2 ^ 5 % 2 ^ 159 % 2 ^ 31 < 2 ^ 31 := Nat.mod_lt _ (by norm_num)
      simp only [decodeMnemonic, hpv, Res.bind_ok, versionCheck, mnemonicVersionLatest,
        show mnemonicSize 0 = 14 from rfl, hlen, hd, decodeIndices_nat _ hlt, ← hw, bitsPerWord,
        show 14 * 12 = 168 from rfl, BitBuffer.new_nat hwlt, checksumBitCount,
        BitBuffer.popTrailing_nat (show 5 ≤ 168 by norm_num), BitBuffer.bytes_nat hp,
        show 168 - 5 = 163 from rfl, show (163 + 7) / 8 = 21 from rfl, uint64_natCast]
      simp only [show ¬ (0 : Nat) > 1 by norm_num, if_false, Res.bind_ok, ne_eq, not_true_eq_false,
        mnemonicVersionBitCount, entropyBitCount, creationOffsetBitCount,
        BitBuffer.popLeading_nat hp (show 4 ≤ 163 by norm_num), show 163 - 4 = 159 from rfl,
        BitBuffer.popLeading_nat hp2 (show 128 ≤ 159 by norm_num), show 159 - 128 = 31 from rfl,
        show ¬ (0 : Nat) = 1 by norm_num,
        BitBuffer.popLeading_nat hp3 (show 31 ≤ 31 by norm_num), show 31 - 31 = 0 from rfl,
        BitBuffer.mkNat_bitLength, uint64_natCast]
      have e0 : w % 2 ^ 5 % 2 ^ 64 % 2 ^ 32 = w % 32 := by omega
      have e1 : w / 2 ^ 5 % 2 ^ 159 / 2 ^ 31 = w / 2 ^ 36 % 2 ^ 128 := by omega
      have e2 : w / 2 ^ 5 % 2 ^ 159 % 2 ^ 31 / 2 ^ 0 % 2 ^ 64 % 2 ^ 32 = w / 2 ^ 5 % 2 ^ 31 := by
        omega
      rw [e0, e1, e2]
      rfl

theorem decodeMnemonic_v1 {L : WordList} (hL : L.Lawful) {ws : List Bytes} {is : List Nat}
    (hd : decodeWords L ws = .ok is) (hlen : ws.length = 16) (hv : is.head? = some i0)
    (h0 : i0 / 256 = 1) :
    decodeMnemonic L ws =
      if checksum5 (beBytes 24 (ofDigitsBE 4096 is / 32)) ≠ ofDigitsBE 4096 is % 32
      then .err .invalidChecksum else .ok (fields1 (ofDigitsBE 4096 is)) := by
  have hlt := decodeWords_lt hL hd
  have hl := decodeWords_length hd
  set w := ofDigitsBE 4096 is with hw
  have hwlt : w < 2 ^ 192 := by
    have := ofDigitsBE_lt hlt
    rw [hl, hlen] at this
    exact lt_of_lt_of_le this (by norm_num)
  cases ws with
  | nil => simp at hlen
  | cons x xs =>
    cases is with
    | nil => simp at hl
    | cons i is =>
      simp only [List.head?_cons, Option.some.injEq] at hv
      subst hv
      have hx := (decodeWords_ok_iff L _ _).mp hd
      simp only [List.map_cons, List.cons.injEq] at hx
      have hpv : parseMnemonicVersion L x = .ok 1 := by
        rw [parseVersion_eq, hx.1]; simp [h0]
      have hp : w / 2 ^ 5 < 2 ^ 187 := by omega
      have hp2 : w / 2 ^ 5 % 2 ^ 183 < 2 ^ 183 := Nat.mod_lt _ (by norm_num)
      have hp3 : w / 2 ^ 5 % 2 ^ 183 % 2 ^ 55 < 2 ^ 55 := Nat.mod_lt _ (by norm_num)
      have hp4 : w / 2 ^ 5 % 2 ^ 183 % 2 ^ 55 % 2 ^ 36 < 2 ^ 36 := Nat.mod_lt _ (by norm_num)
      have hp5 : w / 2 ^ 5 % 2 ^ 183 % 2 ^ 55 % 2 ^ 36 % 2 ^ 31 < 2 ^ 31 :=
        Nat.mod_lt _ (by norm_num)
      simp only [decodeMnemonic, hpv, Res.bind_ok, versionCheck, mnemonicVersionLatest,
        show mnemonicSize 1 = 16 from rfl, hlen, hd, decodeIndices_nat _ hlt, ← hw, bitsPerWord,
        show 16 * 12 = 192 from rfl, BitBuffer.new_nat hwlt, checksumBitCount,
        BitBuffer.popTrailing_nat (show 5 ≤ 192 by norm_num), BitBuffer.bytes_nat hp,
        show 192 - 5 = 187 from rfl, show (187 + 7) / 8 = 24 from rfl, uint64_natCast]
      simp only [show ¬ (1 : Nat) > 1 by norm_num, if_false, Res.bind_ok, ne_eq, not_true_eq_false,
        mnemonicVersionBitCount, entropyBitCount, creationOffsetBitCount, saltBitCount,
        encSeedVerifyBitCount,
        BitBuffer.popLeading_nat hp (show 4 ≤ 187 by norm_num), show 187 - 4 = 183 from rfl,
        BitBuffer.popLeading_nat hp2 (show 128 ≤ 183 by norm_num), show 183 - 128 = 55 from rfl,
        if_true,
        BitBuffer.popLeading_nat hp3 (show 19 ≤ 55 by norm_num), show 55 - 19 = 36 from rfl,
        BitBuffer.popLeading_nat hp4 (show 5 ≤ 36 by norm_num), show 36 - 5 = 31 from rfl,
        BitBuffer.popLeading_nat hp5 (show 31 ≤ 31 by norm_num), show 31 - 31 = 0 from rfl,
        BitBuffer.mkNat_bitLength, uint64_natCast]
      have e0 : w % 2 ^ 5 % 2 ^ 64 % 2 ^ 32 = w % 32 := by omega
      have e1 : w / 2 ^ 5 % 2 ^ 183 / 2 ^ 55 = w / 2 ^ 60 % 2 ^ 128 := by omega
      have e3 : w / 2 ^ 5 % 2 ^ 183 % 2 ^ 55 / 2 ^ 36 = w / 2 ^ 41 % 2 ^ 19 := by omega
      have e4 : w / 2 ^ 5 % 2 ^ 183 % 2 ^ 55 % 2 ^ 36 / 2 ^ 31 % 2 ^ 64 = w / 2 ^ 36 % 2 ^ 5 := by
        omega
      have e2 : w / 2 ^ 5 % 2 ^ 183 % 2 ^ 55 % 2 ^ 36 % 2 ^ 31 / 2 ^ 0 % 2 ^ 64 % 2 ^ 32
          = w / 2 ^ 5 % 2 ^ 31 := by omega
      rw [e0, e1, e2, e3, e4]
      rfl

end Verif.Model
