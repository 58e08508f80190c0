import Verif.Proofs.PhraseRoundTrip
import Verif.Proofs.Rand
import Verif.Proofs.Seed
import Verif.Instances

/-!
# Properties of recovery phrases: C01-C06, C09-C12

`L.Lawful` and `C.Lawful` are the contracts of the external word list and ciphers; the instances in
`Verif/Instances.lean` meet them.
-/

namespace Verif.Props

open Verif.Model Verif.Spec Verif.Instances

/-- Index of a word as typed by a user: look-up after lower-casing. -/
abbrev indexOf (L : WordList) : Bytes → Option Nat := fun w => L.lookup (L.toLower w)

/-! ## C01 -/

/-- C01. Plaintext round trip, for every seed accepted by NewSeed with non-negative entropy. -/
theorem c01_plaintext_round_trip {L : WordList} (hL : L.Lawful) (era x : Int) (hx : 0 ≤ x)
    (s : Seed) (hs : newSeed era x = .ok s) (off : Nat) (ho : off < 2 ^ 31) :
    ∃ ws dm, encodeMnemonicPlaintext L s off = .ok ws ∧ decodeMnemonic L ws = .ok dm ∧
      dm.version = 0 ∧ dm.encrypted = false ∧ dm.creationOffset = off ∧
      dm.seed = .ok s ∧ s.era = era ∧ s.value = x := by
  obtain ⟨hera, hx2, rfl⟩ := (newSeed_ok_iff era x s).mp hs
  subst hera
  obtain ⟨n, rfl⟩ := Int.eq_ofNat_of_zero_le hx
  have hn : n < 2 ^ 128 := by simpa using hx2
  refine ⟨(Contents.plaintext n off).words L.word, decodedOf (.plaintext n off), ?_, ?_, rfl, rfl,
    rfl, hs, rfl, rfl⟩
  · rw [words_plaintext _ hn ho]; exact encodePlaintext_nat L hn ho
  · exact decode_words hL ⟨hn, ho⟩

/-- A concrete seed and offset meeting the hypotheses of `c01_plaintext_round_trip`. -/
example : ∃ ws dm, encodeMnemonicPlaintext toyWordList ⟨0, 0xDEADBEEF⟩ 86400 = .ok ws ∧
    decodeMnemonic toyWordList ws = .ok dm ∧ dm.version = 0 ∧ dm.encrypted = false ∧
    dm.creationOffset = 86400 ∧ dm.seed = .ok ⟨0, 0xDEADBEEF⟩ ∧ (0 : Int) = 0 ∧
    (0xDEADBEEF : Int) = 0xDEADBEEF :=
  c01_plaintext_round_trip toyWordList_lawful 0 0xDEADBEEF (by norm_num) ⟨0, 0xDEADBEEF⟩ rfl 86400
    (by norm_num)

/-! ## C02 -/

/-- C02, plaintext: the words are those of the published layout, 14 of them. -/
theorem c02_plaintext_layout (L : WordList) (s off : Nat) (hs : s < 2 ^ 128) (ho : off < 2 ^ 31) :
    encodeMnemonicPlaintext L ⟨0, s⟩ off = .ok ((Contents.plaintext s off).words L.word) ∧
    ((Contents.plaintext s off).words L.word).length = 14 := by
  rw [words_plaintext _ hs ho]
  exact ⟨encodePlaintext_nat L hs ho, by simp⟩

/-- C02, encrypted: the words are those of the published layout for the salt drawn from the random
source (low 19 bits of the first three bytes), 16 of them. -/
theorem c02_encrypted_layout (L : WordList) {C : PhraseCrypto} (hC : C.Lawful) (s off : Nat)
    (hs : s < 2 ^ 128) (ho : off < 2 ^ 31) (password : Bytes) (hp : password ≠ [])
    (a b c : Byte) (rest : Bytes) :
    let salt := valueOfBytes [a, b, c] % 2 ^ 19
    encodeMnemonicEncrypted L C ⟨0, s⟩ off password (a :: b :: c :: rest) =
      .ok ((encryptSeed C password salt off s).words L.word, rest) ∧
    ((encryptSeed C password salt off s).words L.word).length = 16 := by
  have hsalt : valueOfBytes [a, b, c] % 2 ^ 19 = saltOf a b c := by
    have := a.toNat_lt
    have := b.toNat_lt
    have := c.toNat_lt
    rw [valueOfBytes_eq]
    simp only [setBytes_cons, saltOf, List.length_cons, List.length_nil, setBytes_nil]
    norm_num
    omega
  intro salt
  have hlt : salt < 2 ^ 19 := Nat.mod_lt _ (by norm_num)
  constructor
  · apply encodeEncrypted_spec L hC hs ho hp _ hlt
    rw [randInt_salt]
    simp only [salt, hsalt]
  · have hfit := encryptSeed_fits hC password (s := s) hlt ho
    unfold encryptSeed at hfit ⊢
    simp only at hfit ⊢
    rw [words_encrypted _ hfit.1 hfit.2.1 hfit.2.2.1 hfit.2.2.2]
    simp

example : encodeMnemonicEncrypted toyWordList toyPhraseCrypto ⟨0, (77 : Nat)⟩ 5 [1, 2] [9, 8, 7, 6]
    = .ok ((encryptSeed toyPhraseCrypto [1, 2] (valueOfBytes [9, 8, 7] % 2 ^ 19) 5 77).words
        toyWordList.word, [6]) :=
  (c02_encrypted_layout toyWordList toyPhraseCrypto_lawful 77 5 (by norm_num) (by norm_num) [1, 2]
    (by simp) 9 8 7 [6]).1

/-! ## C03, C04 -/

/-- C04. Decoding is the reader of the specification, with its error for the first failing check;
so the accepted lists are exactly those `readPhrase` accepts. -/
theorem c04_decode_is_specified {L : WordList} (hL : L.Lawful) (ws : List Bytes) :
    decodeMnemonic L ws = match readPhrase (indexOf L) ws with
      | .error e => .err e
      | .ok (.plaintext s o) => .ok ⟨0, (s : Int), none, 0, o⟩
      | .ok (.encrypted e s v o) => .ok ⟨1, (e : Int), some (s : Int), UInt8.ofNat v, o⟩ := by
  have h := decodeMnemonic_spec hL ws
  unfold indexOf
  cases hr : readPhrase (fun w => L.lookup (L.toLower w)) ws with
  | error e => rw [hr] at h; exact h
  | ok c => rw [hr] at h; cases c <;> exact h

/-- C04, the first word: ParseMnemonicVersion returns the top four bits of the index, or the
documented error. -/
theorem c04_parse_version {L : WordList} (hL : L.Lawful) (w : Bytes) :
    parseMnemonicVersion L w = match indexOf L w with
      | none => .err .invalidWord
      | some i => if val ((bits 12 i).take 4) ≤ 1 then .ok (val ((bits 12 i).take 4))
          else .err .invalidVersion := by
  rw [parseVersion_eq]
  unfold indexOf
  cases hl : L.lookup (L.toLower w) with
  | none => rfl
  | some i =>
    have hi := hL.lookup_lt hl
    have hver : val ((bits 12 i).take 4) = i / 256 := by
      rw [take_bits i (by norm_num), val_bits]; omega
    simp only [hver]
    by_cases h : i / 256 > 1
    · rw [if_pos h, if_neg (by omega)]
    · rw [if_neg h, if_pos (by omega)]

/-- An accepted phrase and one rejected for its checksum (the last word differs). -/
example : (readPhrase (indexOf toyWordList) ((Contents.plaintext 3 4).words toyWordList.word)
      = .ok (.plaintext 3 4)) ∧
    readPhrase (indexOf toyWordList) ((List.replicate 13 (toyWord 0)) ++ [toyWord 1])
      = .error .invalidChecksum := by
  constructor
  · exact readPhrase_words toyWordList_lawful ⟨by norm_num, by norm_num⟩
  · decide +kernel

/-- C03. Decoding never panics, and what it returns is in range. -/
theorem c03_decode_total {L : WordList} (hL : L.Lawful) (ws : List Bytes) :
    (∃ e, decodeMnemonic L ws = .err e) ∨
    ∃ dm, decodeMnemonic L ws = .ok dm ∧ (dm.version = 0 ∨ dm.version = 1) ∧
      (0 ≤ dm.entropy ∧ dm.entropy < 2 ^ 128) ∧ dm.creationOffset < 2 ^ 31 ∧
      (dm.version = 1 → ∃ salt, dm.salt = some salt ∧ 0 ≤ salt ∧ salt < 2 ^ 19 ∧
        dm.encSeedVerify < 32) := by
  have h := decodeMnemonic_spec hL ws
  cases hr : readPhrase (fun w => L.lookup (L.toLower w)) ws with
  | error e => rw [hr] at h; exact .inl ⟨e, h⟩
  | ok c =>
    rw [hr] at h
    have hf := readPhrase_fits hr
    refine .inr ⟨_, h, ?_⟩
    cases c with
    | plaintext s o =>
      obtain ⟨hs, ho⟩ := hf
      refine ⟨.inl rfl, ⟨by simp [decodedOf], ?_⟩, ho, by simp [decodedOf]⟩
      simp only [decodedOf]; exact_mod_cast hs
    | encrypted e s v o =>
      obtain ⟨he, hs, hv, ho⟩ := hf
      refine ⟨.inr rfl, ⟨by simp [decodedOf], ?_⟩, ho, ?_⟩
      · simp only [decodedOf]; exact_mod_cast he
      · intro _
        refine ⟨(s : Int), rfl, by simp, by exact_mod_cast hs, ?_⟩
        simp only [decodedOf]
        rw [UInt8.lt_iff_toNat_lt, UInt8.toNat_ofNat']
        have : (32 : UInt8).toNat = 32 := rfl
        rw [this]
        omega

/-- C03 for ParseMnemonicVersion. -/
theorem c03_parse_total (L : WordList) (w : Bytes) :
    (∃ e, parseMnemonicVersion L w = .err e) ∨ parseMnemonicVersion L w = .ok 0 ∨
      parseMnemonicVersion L w = .ok 1 := by
  rw [parseVersion_eq]
  cases L.lookup (L.toLower w) with
  | none => exact .inl ⟨_, rfl⟩
  | some i =>
    by_cases h : i / 256 > 1
    · exact .inl ⟨.invalidVersion, by simp [h]⟩
    · have : i / 256 = 0 ∨ i / 256 = 1 := by omega
      rcases this with h' | h' <;> simp [h']

/-! ## C05 -/

/-- C05. Every accepted phrase (of either version) is, up to letter case, the phrase that the
specification assigns to the contents read from it. -/
theorem c05_canonical {L : WordList} (hL : L.Lawful) (ws : List Bytes) (dm : DecodedMnemonic)
    (h : decodeMnemonic L ws = .ok dm) :
    ∃ c, readPhrase (indexOf L) ws = .ok c ∧ c.words L.word = ws.map L.toLower := by
  obtain ⟨c, _, _, hw, hr⟩ := decode_ok_words hL h
  exact ⟨c, hr, hw⟩

/-- C05. Re-encoding the seed and offset of an accepted plaintext phrase gives back its words. -/
theorem c05_reencode {L : WordList} (hL : L.Lawful) (ws : List Bytes) (dm : DecodedMnemonic)
    (h : decodeMnemonic L ws = .ok dm) (hv : dm.version = 0) :
    ∃ s, dm.seed = .ok s ∧ encodeMnemonicPlaintext L s dm.creationOffset = .ok (ws.map L.toLower)
    := by
  obtain ⟨c, hc, rfl, hw, _⟩ := decode_ok_words hL h
  cases c with
  | encrypted => simp [decodedOf] at hv
  | plaintext s o =>
    obtain ⟨hs, ho⟩ := hc
    refine ⟨⟨0, (s : Int)⟩, ?_, ?_⟩
    · have h1 : ¬ s.size > 128 := by rw [BitBuffer.size_gt_iff]; omega
      simp [DecodedMnemonic.seed, DecodedMnemonic.encrypted, decodedOf, versionEncrypted, newSeed,
        versionEra, eraCheck, eraLatest, entropyBitCount, h1]
    · rw [← hw]; exact (c02_plaintext_layout L s o hs ho).1

/-- C05. Two accepted plaintext phrases with the same seed and offset are equal up to case. -/
theorem c05_injective {L : WordList} (hL : L.Lawful) (ws ws' : List Bytes)
    (dm dm' : DecodedMnemonic) (h : decodeMnemonic L ws = .ok dm)
    (h' : decodeMnemonic L ws' = .ok dm') (hv : dm.version = 0) (hv' : dm'.version = 0)
    (hs : dm.seed = dm'.seed) (ho : dm.creationOffset = dm'.creationOffset) :
    ws.map L.toLower = ws'.map L.toLower := by
  obtain ⟨s, h1, h2⟩ := c05_reencode hL ws dm h hv
  obtain ⟨s', h1', h2'⟩ := c05_reencode hL ws' dm' h' hv'
  rw [h1, h1'] at hs
  simp only [Res.ok.injEq] at hs
  rw [hs, ho, h2'] at h2
  simpa using h2.symm

example : ∃ s, (decodedOf (.plaintext 3 4)).seed = .ok s ∧
    encodeMnemonicPlaintext toyWordList s 4 =
      .ok (((Contents.plaintext 3 4).words toyWordList.word).map toyWordList.toLower) :=
  c05_reencode toyWordList_lawful _ (decodedOf (.plaintext 3 4))
    (decode_words toyWordList_lawful ⟨by norm_num, by norm_num⟩) rfl

/-! ## C06 -/

theorem sameLetter_lower {a b : Byte} (h : sameLetter a b) : asciiLower a = asciiLower b := by
  obtain ⟨ha, hb, h⟩ := h
  rcases h with rfl | ⟨h1, h2, rfl⟩ | ⟨h1, h2, rfl⟩
  · rfl
  · have h3 : ¬ (0x41 ≤ a + 0x20 ∧ a + 0x20 ≤ 0x5A) := by
      rw [UInt8.le_iff_toNat_le, UInt8.le_iff_toNat_le, UInt8.toNat_add]
      rw [UInt8.le_iff_toNat_le] at h1 h2
      simp at h1 h2 ⊢
      omega
    unfold asciiLower
    rw [if_pos ⟨h1, h2⟩, if_neg h3]
  · have h3 : ¬ (0x41 ≤ b + 0x20 ∧ b + 0x20 ≤ 0x5A) := by
      rw [UInt8.le_iff_toNat_le, UInt8.le_iff_toNat_le, UInt8.toNat_add]
      rw [UInt8.le_iff_toNat_le] at h1 h2
      simp at h1 h2 ⊢
      omega
    unfold asciiLower
    rw [if_neg h3, if_pos ⟨h1, h2⟩]

theorem toLower_sameLetter {L : WordList} (hL : L.Lawful) {w w' : Bytes}
    (h : List.Forall₂ sameLetter w w') : L.toLower w = L.toLower w' := by
  have h1 : ∀ b ∈ w, b < 0x80 := by
    intro b hb
    induction h with
    | nil => simp at hb
    | cons hab _ ih =>
      rcases List.mem_cons.mp hb with rfl | hb
      · exact hab.1
      · exact ih hb
  have h2 : ∀ b ∈ w', b < 0x80 := by
    intro b hb
    clear h1
    induction h with
    | nil => simp at hb
    | cons hab _ ih =>
      rcases List.mem_cons.mp hb with rfl | hb
      · exact hab.2.1
      · exact ih hb
  rw [hL.lower_ascii _ h1, hL.lower_ascii _ h2]
  clear h1 h2
  induction h with
  | nil => rfl
  | cons hab _ ih => simp [sameLetter_lower hab, ih]

theorem decode_congr {L : WordList} (hL : L.Lawful) {ws ws' : List Bytes}
    (hmap : ws.map (indexOf L) = ws'.map (indexOf L)) : decodeMnemonic L ws = decodeMnemonic L ws' := by
  have hlen := congrArg List.length hmap
  simp only [List.length_map] at hlen
  rw [decodeMnemonic_spec hL, decodeMnemonic_spec hL]
  congr 1
  have hm : ws.mapM (indexOf L) = ws'.mapM (indexOf L) := by
    cases h2 : ws'.mapM (indexOf L) with
    | some is => rw [mapM_eq_some_iff, hmap]; exact (mapM_eq_some_iff _ _ _).mp h2
    | none =>
      rw [mapM_eq_none_iff'] at *
      obtain ⟨w, hw, hn⟩ := h2
      have : (none : Option Nat) ∈ ws'.map (indexOf L) := List.mem_map.mpr ⟨w, hw, hn⟩
      rw [← hmap, List.mem_map] at this
      exact this
  cases ws with
  | nil => cases ws' <;> simp_all
  | cons w ws =>
    cases ws' with
    | nil => simp at hlen
    | cons w' ws' =>
      simp only [List.map_cons, List.cons.injEq] at hmap
      unfold indexOf at hmap hm
      simp only [readPhrase]
      rw [hmap.1, hlen, hm]

/-- C06. Re-casing any ASCII letters of any words changes nothing. -/
theorem c06_case_insensitive {L : WordList} (hL : L.Lawful) (ws ws' : List Bytes)
    (h : List.Forall₂ (List.Forall₂ sameLetter) ws ws') :
    decodeMnemonic L ws = decodeMnemonic L ws' := by
  refine decode_congr hL ?_
  induction h with
  | nil => rfl
  | cons hab _ ih => simp [indexOf, toLower_sameLetter hL hab, ih]

/-- C06 for ParseMnemonicVersion. -/
theorem c06_parse_case_insensitive {L : WordList} (hL : L.Lawful) (w w' : Bytes)
    (h : List.Forall₂ sameLetter w w') : parseMnemonicVersion L w = parseMnemonicVersion L w' := by
  rw [parseVersion_eq, parseVersion_eq, toLower_sameLetter hL h]

/-- "aBc" and "Abc". -/
example : parseMnemonicVersion toyWordList [0x61, 0x42, 0x63] =
    parseMnemonicVersion toyWordList [0x41, 0x62, 0x63] :=
  c06_parse_case_insensitive toyWordList_lawful _ _ (by
    refine .cons ?_ (.cons ?_ (.cons ?_ .nil)) <;> unfold sameLetter <;> decide)

/-! ## C09 -/

/-- C09. Encrypted round trip, for every seed, offset, non-empty password and random source of at
least three bytes. -/
theorem c09_encrypted_round_trip {L : WordList} (hL : L.Lawful) {C : PhraseCrypto} (hC : C.Lawful)
    (s off : Nat) (hs : s < 2 ^ 128) (ho : off < 2 ^ 31) (password : Bytes) (hp : password ≠ [])
    (rnd : Bytes) (hr : 3 ≤ rnd.length) :
    ∃ ws rest dm, encodeMnemonicEncrypted L C ⟨0, s⟩ off password rnd = .ok (ws, rest) ∧
      decodeMnemonic L ws = .ok dm ∧ dm.version = 1 ∧ dm.encrypted = true ∧
      dm.creationOffset = off ∧ dm.decryptSeed C password = .ok ⟨0, s⟩ := by
  match rnd, hr with
  | a :: b :: c :: rest, _ =>
    have h1 := (c02_encrypted_layout L hC s off hs ho password hp a b c rest).1
    have hlt : valueOfBytes [a, b, c] % 2 ^ 19 < 2 ^ 19 := Nat.mod_lt _ (by norm_num)
    obtain ⟨e, v, h2, h3⟩ := decrypt_encrypt hC password hs hlt ho
    have hfit := encryptSeed_fits hC password (s := s) hlt ho
    refine ⟨_, _, decodedOf (.encrypted e (valueOfBytes [a, b, c] % 2 ^ 19) v off), h1, ?_, rfl, rfl, rfl, ?_⟩
    · rw [h2] at hfit ⊢
      exact decode_words hL hfit
    · rw [h2] at hfit
      rw [decryptSeed_spec hC password hfit, h3]

/-- C09. With fewer than three random bytes the result is the read error, never a phrase. -/
theorem c09_short_random (L : WordList) (C : PhraseCrypto) (s : Int) (off : Nat)
    (password : Bytes) (hp : password ≠ []) (rnd : Bytes) (hr : rnd.length < 3) :
    encodeMnemonicEncrypted L C ⟨0, s⟩ off password rnd = .err .randomRead := by
  have h : randInt rnd (2 ^ 19) = .err .randomRead := by
    rw [randInt_salt]
    match rnd, hr with
    | [], _ => rfl
    | [_], _ => rfl
    | [_, _], _ => rfl
  have hlen : password.length ≠ 0 := by simpa using hp
  have h0 : BitBuffer.new ((1 : Nat) : Int) mnemonicVersionBitCount = .ok (.mkNat 1 4) :=
    BitBuffer.new_nat (by decide)
  have h5 : eraCheck 0 = .ok () := rfl
  unfold encodeMnemonicEncrypted saltBitCount
  dsimp only
  rw [h5, Res.bind_ok, if_neg hlen, h0, Res.bind_ok, h, Res.bind_err]

example : ∃ ws rest dm, encodeMnemonicEncrypted toyWordList toyPhraseCrypto ⟨0, (123456789 : Nat)⟩
      1000 [0x70, 0x77] [0xFF, 0x01, 0x02] = .ok (ws, rest) ∧
    decodeMnemonic toyWordList ws = .ok dm ∧ dm.version = 1 ∧ dm.encrypted = true ∧
    dm.creationOffset = 1000 ∧
    dm.decryptSeed toyPhraseCrypto [0x70, 0x77] = .ok ⟨0, (123456789 : Nat)⟩ :=
  c09_encrypted_round_trip toyWordList_lawful toyPhraseCrypto_lawful 123456789 1000 (by norm_num)
    (by norm_num) [0x70, 0x77] (by simp) [0xFF, 0x01, 0x02] (by simp)

/-! ## C10 -/

/-- C10. DecryptSeed on an accepted encrypted phrase: the error exactly when the verify bits of
the password's key differ from those in the phrase, otherwise an era-0 seed below `2^128`. -/
theorem c10_password_check {L : WordList} (hL : L.Lawful) {C : PhraseCrypto} (hC : C.Lawful)
    (ws : List Bytes) (dm : DecodedMnemonic) (h : decodeMnemonic L ws = .ok dm)
    (henc : dm.encrypted = true) (password : Bytes) :
    ∃ e salt v off, readPhrase (indexOf L) ws = .ok (.encrypted e salt v off) ∧
      (verifyOf (Spec.phraseKey C password salt off) ≠ v →
        dm.decryptSeed C password = .err .mnemonicDecryption) ∧
      (verifyOf (Spec.phraseKey C password salt off) = v →
        ∃ s : Nat, s < 2 ^ 128 ∧ dm.decryptSeed C password = .ok ⟨0, s⟩) := by
  obtain ⟨c, hc, rfl, _, hr⟩ := decode_ok_words hL h
  cases c with
  | plaintext => simp [decodedOf, DecodedMnemonic.encrypted, versionEncrypted] at henc
  | encrypted e salt v off =>
    refine ⟨e, salt, v, off, hr, ?_, ?_⟩
    · intro hne
      rw [decryptSeed_spec hC password hc, Spec.decryptSeed, if_neg hne]
    · intro heq
      rw [decryptSeed_spec hC password hc, Spec.decryptSeed, if_pos heq]
      refine ⟨_, ?_, rfl⟩
      rw [valueOfBytes_eq]
      have hk : ((Spec.phraseKey C password salt off).take 16).length = 16 := by
        rw [spec_phraseKey C password hc.2.1 hc.2.2.2]
        simp [Model.phraseKey, hC.argon2id_length]
      rw [toBytes_bits _ _ hc.1]
      have := setBytes_lt (C.aesDec ((Spec.phraseKey C password salt off).take 16)
        (beBytes ((128 + 7) / 8) e))
      rw [hC.aesDec_length _ _ hk (beBytes_length _ _)] at this
      exact lt_of_lt_of_le this (by norm_num)

/-- C10. The right password is never rejected, and every other password is judged only by its
verify bits: two passwords whose keys have the same verify bits are both accepted. -/
theorem c10_collision {L : WordList} (hL : L.Lawful) {C : PhraseCrypto} (hC : C.Lawful)
    (s off : Nat) (hs : s < 2 ^ 128) (ho : off < 2 ^ 31) (p p' : Bytes) (hp : p ≠ [])
    (a b c : Byte) (r : Bytes)
    (hcol : verifyOf (Spec.phraseKey C p (valueOfBytes [a, b, c] % 2 ^ 19) off) =
      verifyOf (Spec.phraseKey C p' (valueOfBytes [a, b, c] % 2 ^ 19) off)) :
    ∃ words dm s', encodeMnemonicEncrypted L C ⟨0, s⟩ off p (a :: b :: c :: r) = .ok (words, r) ∧
      decodeMnemonic L words = .ok dm ∧ dm.decryptSeed C p' = .ok s' := by
  have h1 := (c02_encrypted_layout L hC s off hs ho p hp a b c r).1
  have hlt : valueOfBytes [a, b, c] % 2 ^ 19 < 2 ^ 19 := Nat.mod_lt _ (by norm_num)
  have hfit := encryptSeed_fits hC p (s := s) hlt ho
  have hd := decode_words hL hfit
  refine ⟨_, _, ⟨0, (valueOfBytes (C.aesDec ((Spec.phraseKey C p' (valueOfBytes [a, b, c] % 2 ^ 19)
      off).take 16) (toBytes (bits 128 (valueOfBytes (C.aesEnc ((Spec.phraseKey C p
        (valueOfBytes [a, b, c] % 2 ^ 19) off).take 16) (toBytes (bits 128 s))))))) : Nat)⟩,
    h1, hd, ?_⟩
  unfold encryptSeed at hfit ⊢
  dsimp only at hfit ⊢
  rw [decryptSeed_spec hC p' hfit, Spec.decryptSeed, if_pos hcol.symm]

/-- Encrypt with "ab", then decrypt with the given password. -/
def sampleDecrypt (password : Bytes) : Res Seed := do
  let (ws, _) ← encodeMnemonicEncrypted toyWordList toyPhraseCrypto ⟨0, 7⟩ 9 [0x61, 0x62] [1, 2, 3]
  let dm ← decodeMnemonic toyWordList ws
  dm.decryptSeed toyPhraseCrypto password

/-- Both outcomes of the check occur. -/
example : sampleDecrypt [0x61, 0x62] = .ok ⟨0, 7⟩ ∧
    sampleDecrypt [0x61, 0x63] = .err .mnemonicDecryption := by
  decide +kernel

/-! ## C11, C12 -/

/-- C11. On an accepted encrypted phrase Seed() always fails; on an accepted plaintext phrase
DecryptSeed is Seed() for every password, and succeeds. -/
theorem c11_seed_access {L : WordList} (hL : L.Lawful) (C : PhraseCrypto) (ws : List Bytes)
    (dm : DecodedMnemonic) (h : decodeMnemonic L ws = .ok dm) :
    (dm.version = 1 ∧ dm.encrypted = true ∧ dm.seed = .err .mnemonicDecryption) ∨
    (dm.version = 0 ∧ dm.encrypted = false ∧ ∃ s : Nat, s < 2 ^ 128 ∧ dm.seed = .ok ⟨0, s⟩ ∧
      ∀ password, dm.decryptSeed C password = .ok ⟨0, s⟩) := by
  obtain ⟨c, hc, rfl, _, _⟩ := decode_ok_words hL h
  cases c with
  | encrypted e salt v off => exact .inl ⟨rfl, rfl, rfl⟩
  | plaintext s o =>
    have h1 : ¬ s.size > 128 := by
      have := hc.1
      rw [BitBuffer.size_gt_iff]; omega
    have hseed : (decodedOf (.plaintext s o)).seed = .ok ⟨0, (s : Int)⟩ := by
      simp [DecodedMnemonic.seed, DecodedMnemonic.encrypted, decodedOf, versionEncrypted, newSeed,
        versionEra, eraCheck, eraLatest, entropyBitCount, h1]
    refine .inr ⟨rfl, rfl, s, hc.1, hseed, ?_⟩
    intro password
    rw [← hseed]
    rfl

/-- C12. An empty password is refused for every seed (of any era), offset and random source. -/
theorem c12_empty_password (L : WordList) (C : PhraseCrypto) (seed : Seed) (off : Nat)
    (rnd : Bytes) :
    ∃ e, encodeMnemonicEncrypted L C seed off [] rnd = .err e ∧
      (seed.era = 0 → e = .emptyPassword) := by
  unfold encodeMnemonicEncrypted eraCheck eraLatest
  by_cases h : seed.era > 0 ∨ seed.era < 0
  · refine ⟨.invalidEra, ?_, by omega⟩
    rw [if_pos h]; rfl
  · refine ⟨.emptyPassword, ?_, fun _ => rfl⟩
    rw [if_neg h]; rfl

example : encodeMnemonicEncrypted toyWordList toyPhraseCrypto ⟨0, 5⟩ 1 [] [1, 2, 3]
    = .err .emptyPassword := by decide

end Verif.Props
