import Verif.Proofs.PhraseSpec
import Verif.Model.Encoding

/-! Round trips between contents and words, and the encrypted case. -/

namespace Verif.Model

open Spec

theorem head_digitsBE (n W : Nat) :
    (digitsBE 4096 (n + 1) W).head? = some (W / 4096 ^ n % 4096) := by
  rw [digitsBE_succ_cons]; rfl

theorem ofDigits_digits_of_lt {b n v : Nat} (h : v < b ^ n) :
    ofDigitsBE b (digitsBE b n v) = v := by
  rw [ofDigitsBE_digitsBE, Nat.mod_eq_of_lt h]

/-- Decoding the words of well-sized contents gives the contents back. -/
theorem decode_words {L : WordList} (hL : L.Lawful) {c : Contents} (hc : c.Fits) :
    decodeMnemonic L (c.words L.word) = .ok (decodedOf c) := by
  cases c with
  | plaintext s o =>
    obtain ⟨hs, ho⟩ := hc
    rw [words_plaintext _ hs ho]
    have hp := payload0_lt hs ho
    have hW : codeword 21 (payload0 s o) < 2 ^ 164 := codeword_lt hp
    generalize hWd : codeword 21 (payload0 s o) = W at hW
    have hlt : ∀ i ∈ digitsBE 4096 14 W, i < 4096 := digitsBE_lt (by norm_num) _ _
    have hd := decodeWords_map_word hL _ hlt
    have hW4 : W < 4096 ^ 14 := lt_trans hW (by norm_num)
    have h0 : W / 4096 ^ 13 % 4096 / 256 = 0 := by omega
    rw [decodeMnemonic_v0 hL hd (by simp) (head_digitsBE 13 W) h0, ofDigits_digits_of_lt hW4]
    have hck := checksum5_lt (beBytes 21 (payload0 s o))
    have e1 : W / 32 = payload0 s o := by rw [← hWd, codeword]; omega
    have e2 : W % 32 = checksum5 (beBytes 21 (payload0 s o)) := by rw [← hWd, codeword]; omega
    rw [e1, e2, if_neg (by simp)]
    have e3 : W / 2 ^ 36 % 2 ^ 128 = s := by
      have : W / 2 ^ 36 = W / 32 / 2 ^ 31 := by omega
      rw [this, e1, payload0]; omega
    have e4 : W / 2 ^ 5 % 2 ^ 31 = o := by
      have : W / 2 ^ 5 = W / 32 := by omega
      rw [this, e1, payload0]; omega
    rw [fields0, e3, e4]; rfl
  | encrypted e s v o =>
    obtain ⟨he, hs, hv, ho⟩ := hc
    rw [words_encrypted _ he hs hv ho]
    have hp := payload1_lt he hs hv ho
    have hW : codeword 24 (payload1 e s v o) < 2 ^ 192 := codeword_lt hp
    generalize hWd : codeword 24 (payload1 e s v o) = W at hW
    have hlt : ∀ i ∈ digitsBE 4096 16 W, i < 4096 := digitsBE_lt (by norm_num) _ _
    have hd := decodeWords_map_word hL _ hlt
    have hW4 : W < 4096 ^ 16 := lt_of_lt_of_le hW (by norm_num)
    have hck := checksum5_lt (beBytes 24 (payload1 e s v o))
    have e1 : W / 32 = payload1 e s v o := by rw [← hWd, codeword]; omega
    have e2 : W % 32 = checksum5 (beBytes 24 (payload1 e s v o)) := by
      rw [← hWd, codeword]; omega
    have h0 : W / 4096 ^ 15 % 4096 / 256 = 1 := by
      have h1 : W / 4096 ^ 15 % 4096 / 256 = W / 32 / 2 ^ 183 := by omega
      rw [h1, e1, payload1]; omega
    rw [decodeMnemonic_v1 hL hd (by simp) (head_digitsBE 15 W) h0, ofDigits_digits_of_lt hW4]
    rw [e1, e2, if_neg (by simp)]
    have e3 : W / 2 ^ 60 % 2 ^ 128 = e := by
      have : W / 2 ^ 60 = W / 32 / 2 ^ 55 := by omega
      rw [this, e1, payload1]; omega
    have e4 : W / 2 ^ 5 % 2 ^ 31 = o := by
      have : W / 2 ^ 5 = W / 32 := by omega
      rw [this, e1, payload1]; omega
    have e5 : W / 2 ^ 41 % 2 ^ 19 = s := by
      have : W / 2 ^ 41 = W / 32 / 2 ^ 36 := by omega
      rw [this, e1, payload1]; omega
    have e6 : W / 2 ^ 36 % 2 ^ 5 = v := by
      have : W / 2 ^ 36 = W / 32 / 2 ^ 31 := by omega
      rw [this, e1, payload1]; omega
    rw [fields1, e3, e4, e5, e6]; rfl

/-! ### Everything that decodes is a phrase of the specification -/

theorem field_lt (l : List Bool) (a k : Nat) : field l a k < 2 ^ k := by
  refine lt_of_lt_of_le (val_lt _) (Nat.pow_le_pow_right (by norm_num) ?_)
  simp

theorem readPhrase_fits {index : Bytes → Option Nat} {ws : List Bytes} {c : Contents}
    (h : readPhrase index ws = .ok c) : c.Fits := by
  cases c with
  | plaintext s o =>
    have h2 : ∃ l, s = field l 4 128 ∧ o = field l 132 31 := by
      unfold readPhrase at h
      dsimp only at h
      repeat' split at h
      all_goals simp only [Except.ok.injEq, Contents.plaintext.injEq, reduceCtorEq] at h
      exact ⟨_, h.1.symm, h.2.symm⟩
    obtain ⟨l, rfl, rfl⟩ := h2
    exact ⟨field_lt _ _ _, field_lt _ _ _⟩
  | encrypted e s v o =>
    have h2 : ∃ l, e = field l 4 128 ∧ s = field l 132 19 ∧ v = field l 151 5 ∧
        o = field l 156 31 := by
      unfold readPhrase at h
      dsimp only at h
      repeat' split at h
      all_goals simp only [Except.ok.injEq, Contents.encrypted.injEq, reduceCtorEq] at h
      exact ⟨_, h.1.symm, h.2.1.symm, h.2.2.1.symm, h.2.2.2.symm⟩
    obtain ⟨l, rfl, rfl, rfl, rfl⟩ := h2
    exact ⟨field_lt _ _ _, field_lt _ _ _, field_lt _ _ _, field_lt _ _ _⟩

theorem decodedOf_inj {c d : Contents} (hc : c.Fits) (hd : d.Fits)
    (h : decodedOf c = decodedOf d) : c = d := by
  cases c with
  | plaintext s o =>
    cases d with
    | plaintext s' o' => simp only [decodedOf, DecodedMnemonic.mk.injEq, Nat.cast_inj] at h; simp [h]
    | encrypted => simp [decodedOf] at h
  | encrypted e s v o =>
    cases d with
    | plaintext => simp [decodedOf] at h
    | encrypted e' s' v' o' =>
      simp only [decodedOf, DecodedMnemonic.mk.injEq, Nat.cast_inj, Option.some.injEq] at h
      obtain ⟨_, h1, h2, h3, h4⟩ := h
      have hv := congrArg UInt8.toNat h3
      have hc3 := hc.2.2.1
      have hd3 := hd.2.2.1
      simp only [UInt8.toNat_ofNat'] at hv
      have : v = v' := by omega
      simp [h1, h2, this, h4]

theorem decode_ok_shape {L : WordList} {ws : List Bytes} {dm : DecodedMnemonic}
    (h : decodeMnemonic L ws = .ok dm) :
    ∃ is i, decodeWords L ws = .ok is ∧ is.head? = some i ∧
      (i / 256 = 0 ∧ ws.length = 14 ∨ i / 256 = 1 ∧ ws.length = 16) := by
  cases ws with
  | nil => simp [decodeMnemonic] at h
  | cons w ws' =>
    unfold decodeMnemonic at h
    simp only [Res.bind_eq_ok] at h
    obtain ⟨ver, hver, _, hvc, h⟩ := h
    rw [parseVersion_eq] at hver
    cases hl : L.lookup (L.toLower w) with
    | none => rw [hl] at hver; simp at hver
    | some i =>
      rw [hl] at hver
      by_cases hv : i / 256 > 1
      · simp [hv] at hver
      · simp only [hv, if_false, Res.ok.injEq] at hver
        subst hver
        split at h
        · simp at h
        · next hlen =>
          simp only [ne_eq, Decidable.not_not] at hlen
          simp only [Res.bind_eq_ok] at h
          obtain ⟨is, hd, h⟩ := h
          clear h
          refine ⟨is, i, hd, ?_, ?_⟩
          · have := (decodeWords_ok_iff L _ _).mp hd
            cases is with
            | nil => simp at this
            | cons j js =>
              simp only [List.map_cons, List.cons.injEq] at this
              rw [hl] at this
              simp only [Option.some.injEq] at this
              simp [this.1]
          · have : i / 256 = 0 ∨ i / 256 = 1 := by omega
            rcases this with h0 | h0
            · rw [h0] at hlen; exact .inl ⟨h0, hlen⟩
            · rw [h0] at hlen; exact .inr ⟨h0, hlen⟩

theorem head_ofDigitsBE {is : List Nat} {i : Nat} (hlt : ∀ j ∈ is, j < 4096)
    (hhead : is.head? = some i) : i = ofDigitsBE 4096 is / 4096 ^ (is.length - 1) := by
  cases is with
  | nil => simp at hhead
  | cons j js =>
    simp only [List.head?_cons, Option.some.injEq] at hhead
    subst hhead
    have hjs := ofDigitsBE_lt (fun k hk => hlt k (List.mem_cons_of_mem _ hk))
    rw [ofDigitsBE_cons, List.length_cons, Nat.add_sub_cancel,
      Nat.mul_comm, Nat.mul_add_div (by positivity), Nat.div_eq_of_lt hjs, Nat.add_zero]

theorem decode_ok_words' {L : WordList} (hL : L.Lawful) {ws : List Bytes} {dm : DecodedMnemonic}
    (h : decodeMnemonic L ws = .ok dm) :
    ∃ c : Contents, c.Fits ∧ dm = decodedOf c ∧ c.words L.word = ws.map L.toLower := by
  obtain ⟨is, i, hd, hhead, hcase⟩ := decode_ok_shape h
  have hlt := decodeWords_lt hL hd
  have hlis := decodeWords_length hd
  have hlow := decodeWords_map_lower hL hd
  have hW := ofDigitsBE_lt hlt
  have hdig := digitsBE_ofDigitsBE hlt
  have hi0 := head_ofDigitsBE hlt hhead
  rcases hcase with ⟨h0, hlen⟩ | ⟨h1, hlen⟩
  · rw [decodeMnemonic_v0 hL hd hlen hhead h0] at h
    rw [hlen] at hlis
    rw [hlis] at hi0 hW hdig
    generalize ofDigitsBE 4096 is = W at *
    by_cases hck : checksum5 (beBytes 21 (W / 32)) ≠ W % 32
    · rw [if_pos hck] at h; simp at h
    · rw [if_neg hck, Res.ok.injEq] at h
      simp only [ne_eq, Decidable.not_not] at hck
      have hs : W / 2 ^ 36 % 2 ^ 128 < 2 ^ 128 := Nat.mod_lt _ (by norm_num)
      have ho : W / 2 ^ 5 % 2 ^ 31 < 2 ^ 31 := Nat.mod_lt _ (by norm_num)
      refine ⟨.plaintext (W / 2 ^ 36 % 2 ^ 128) (W / 2 ^ 5 % 2 ^ 31), ⟨hs, ho⟩, ?_, ?_⟩
      · rw [← h]; rfl
      · rw [words_plaintext _ hs ho, hlow]
        have hp : payload0 (W / 2 ^ 36 % 2 ^ 128) (W / 2 ^ 5 % 2 ^ 31) = W / 32 := by
          rw [payload0]
          have : W < 2 ^ 164 := by omega
          omega
        have hcw : codeword 21 (W / 32) = W := by rw [codeword, hck]; omega
        rw [hp, hcw, hdig]
  · rw [decodeMnemonic_v1 hL hd hlen hhead h1] at h
    rw [hlen] at hlis
    rw [hlis] at hi0 hW hdig
    generalize ofDigitsBE 4096 is = W at *
    by_cases hck : checksum5 (beBytes 24 (W / 32)) ≠ W % 32
    · rw [if_pos hck] at h; simp at h
    · rw [if_neg hck, Res.ok.injEq] at h
      simp only [ne_eq, Decidable.not_not] at hck
      have he : W / 2 ^ 60 % 2 ^ 128 < 2 ^ 128 := Nat.mod_lt _ (by norm_num)
      have hs : W / 2 ^ 41 % 2 ^ 19 < 2 ^ 19 := Nat.mod_lt _ (by norm_num)
      have hv : W / 2 ^ 36 % 2 ^ 5 < 2 ^ 5 := Nat.mod_lt _ (by norm_num)
      have ho : W / 2 ^ 5 % 2 ^ 31 < 2 ^ 31 := Nat.mod_lt _ (by norm_num)
      refine ⟨.encrypted (W / 2 ^ 60 % 2 ^ 128) (W / 2 ^ 41 % 2 ^ 19) (W / 2 ^ 36 % 2 ^ 5)
        (W / 2 ^ 5 % 2 ^ 31), ⟨he, hs, hv, ho⟩, ?_, ?_⟩
      · rw [← h]; rfl
      · rw [words_encrypted _ he hs hv ho, hlow]
        have hp : payload1 (W / 2 ^ 60 % 2 ^ 128) (W / 2 ^ 41 % 2 ^ 19) (W / 2 ^ 36 % 2 ^ 5)
            (W / 2 ^ 5 % 2 ^ 31) = W / 32 := by
          rw [payload1]
          have h2 : W / 2 ^ 188 = 1 := by omega
          omega
        have hcw : codeword 24 (W / 32) = W := by rw [codeword, hck]; omega
        rw [hp, hcw, hdig]

/-- Everything that decodes is the phrase of well-sized contents, up to letter case. -/
theorem decode_ok_words {L : WordList} (hL : L.Lawful) {ws : List Bytes} {dm : DecodedMnemonic}
    (h : decodeMnemonic L ws = .ok dm) :
    ∃ c : Contents, c.Fits ∧ dm = decodedOf c ∧ c.words L.word = ws.map L.toLower ∧
      readPhrase (fun w => L.lookup (L.toLower w)) ws = .ok c := by
  obtain ⟨c, hc, hdm, hw⟩ := decode_ok_words' hL h
  refine ⟨c, hc, hdm, hw, ?_⟩
  have hspec := decodeMnemonic_spec hL ws
  rw [h] at hspec
  cases hr : readPhrase (fun w => L.lookup (L.toLower w)) ws with
  | error e => rw [hr] at hspec; simp [toRes] at hspec
  | ok d =>
    rw [hr] at hspec
    simp only [toRes, Res.ok.injEq] at hspec
    have := decodedOf_inj (readPhrase_fits hr) hc (by rw [← hspec, hdm])
    rw [this]

theorem readPhrase_words {L : WordList} (hL : L.Lawful) {c : Contents} (hc : c.Fits) :
    readPhrase (fun w => L.lookup (L.toLower w)) (c.words L.word) = .ok c := by
  have h := decode_words hL hc
  obtain ⟨d, hd, hdm, _, hr⟩ := decode_ok_words hL h
  rw [hr, decodedOf_inj hd hc hdm.symm]

/-! ### The encrypted case -/

theorem valueOfBytes_eq (b : Bytes) : valueOfBytes b = setBytes b := by
  induction b using List.reverseRecOn with
  | nil => rfl
  | append_singleton b x ih =>
    rw [setBytes_append_singleton, ← ih, valueOfBytes, List.flatMap_append, val_append]
    simp only [List.flatMap_cons, List.flatMap_nil, List.append_nil, bits_length, val_bits]
    have := x.toNat_lt
    rw [Nat.mod_eq_of_lt this]
    rfl

theorem spec_phraseKey (C : PhraseCrypto) (password : Bytes) {salt off : Nat}
    (hs : salt < 2 ^ 19) (ho : off < 2 ^ 31) :
    Spec.phraseKey C password salt off = Model.phraseKey C password salt off := by
  have hb : salt * 2 ^ 31 + off < 2 ^ (19 + 31) := by omega
  rw [Spec.phraseKey, Model.phraseKey, bits_append _ _ ho, toBytes_bits _ _ hb, argonSalt]

theorem spec_verifyOf {key : Bytes} (h : key.length = 17) : verifyOf key = verify5 key := by
  have h1 : key.getLast? = some (key.getD 16 0) := by
    rw [List.getLast?_eq_getElem?, h, List.getD_eq_getElem?_getD,
      List.getElem?_eq_getElem (by omega)]
    simp
  rw [verifyOf, h1, verify5]; rfl

theorem encryptSeed_fits {C : PhraseCrypto} (hC : C.Lawful) (password : Bytes) {salt off s : Nat}
    (hs : salt < 2 ^ 19) (ho : off < 2 ^ 31) : (encryptSeed C password salt off s).Fits := by
  refine ⟨?_, hs, Nat.mod_lt _ (by norm_num), ho⟩
  rw [valueOfBytes_eq]
  have hk : ((Spec.phraseKey C password salt off).take 16).length = 16 := by
    rw [spec_phraseKey C password hs ho]
    simp [Model.phraseKey, hC.argon2id_length]
  have hl : (C.aesEnc ((Spec.phraseKey C password salt off).take 16)
      (toBytes (bits 128 s))).length = 16 := by
    apply hC.aesEnc_length _ _ hk
    rw [← bits_mod, toBytes_bits _ _ (Nat.mod_lt _ (by positivity)), beBytes_length]
  have := setBytes_lt (C.aesEnc ((Spec.phraseKey C password salt off).take 16)
      (toBytes (bits 128 s)))
  rw [hl] at this
  exact lt_of_lt_of_le this (by norm_num)

/-- Encryption gives the specified contents. -/
theorem encodeEncrypted_spec (L : WordList) {C : PhraseCrypto} (hC : C.Lawful) {s off : Nat}
    (hs : s < 2 ^ 128) (ho : off < 2 ^ 31) {password : Bytes} (hp : password ≠ [])
    {rnd rest : Bytes} {salt : Nat} (hr : randInt rnd (2 ^ 19) = .ok (salt, rest))
    (hsalt : salt < 2 ^ 19) :
    encodeMnemonicEncrypted L C { era := 0, value := (s : Int) } off password rnd =
      .ok ((encryptSeed C password salt off s).words L.word, rest) := by
  rw [encodeEncrypted_nat L hC hs ho hp hr hsalt]
  have hfit := encryptSeed_fits hC password (s := s) hsalt ho
  have hkl : (Model.phraseKey C password salt off).length = 17 := hC.argon2id_length ..
  unfold encryptSeed at hfit ⊢
  simp only at hfit ⊢
  rw [words_encrypted _ hfit.1 hfit.2.1 hfit.2.2.1 hfit.2.2.2, spec_phraseKey C password hsalt ho,
    valueOfBytes_eq, toBytes_bits _ _ hs, spec_verifyOf hkl]

theorem decryptSeed_spec {C : PhraseCrypto} (hC : C.Lawful) (password : Bytes)
    {e salt v off : Nat} (hc : (Contents.encrypted e salt v off).Fits) :
    (decodedOf (.encrypted e salt v off)).decryptSeed C password =
      match Spec.decryptSeed C password e salt v off with
      | none => .err .mnemonicDecryption
      | some s => .ok { era := 0, value := (s : Int) } := by
  obtain ⟨he, hs, hv, ho⟩ := hc
  have hkl : (Model.phraseKey C password salt off).length = 17 := hC.argon2id_length ..
  have hkl' : ((Model.phraseKey C password salt off).take 16).length = 16 := by simp [hkl]
  have hfb : fillBytes ((e : Nat) : Int) 16 = .ok (beBytes 16 e) :=
    fillBytes_natCast e 16 (lt_of_lt_of_le he (by norm_num))
  have hdec : setBytes (C.aesDec ((Model.phraseKey C password salt off).take 16)
      (beBytes 16 e)) < 2 ^ 128 := by
    have := setBytes_lt (C.aesDec ((Model.phraseKey C password salt off).take 16) (beBytes 16 e))
    rw [hC.aesDec_length _ _ hkl' (beBytes_length _ _)] at this
    exact lt_of_lt_of_le this (by norm_num)
  have hns : ∀ x : Nat, x < 2 ^ 128 →
      newSeed (versionEra 1) (x : Int) = .ok { era := 0, value := (x : Int) } := by
    intro x hx
    have h1 : ¬ x.size > 128 := by rw [BitBuffer.size_gt_iff]; omega
    have h2 : versionEra 1 = 0 := rfl
    have h3 : eraCheck 0 = .ok () := rfl
    rw [newSeed, h2, h3, Res.bind_ok, bitLen_natCast, entropyBitCount, if_neg h1]
  have hk := encSeedKey_nat C password hs ho
  have hvb := verifyBits_ok hkl
  have h5 := verify5_lt (Model.phraseKey C password salt off)
  have hiff : UInt8.ofNat (verify5 (Model.phraseKey C password salt off)) = UInt8.ofNat v ↔
      verify5 (Model.phraseKey C password salt off) = v := by
    constructor
    · intro h'
      have := congrArg UInt8.toNat h'
      simp only [UInt8.toNat_ofNat'] at this
      omega
    · intro h'; rw [h']
  rw [Spec.decryptSeed, spec_phraseKey C password hs ho, spec_verifyOf hkl, decodedOf]
  generalize Model.phraseKey C password salt off = key at *
  by_cases h : verify5 key = v
  · rw [h] at hvb
    simp [DecodedMnemonic.decryptSeed, DecodedMnemonic.encrypted, versionEncrypted, hk, hvb,
      h, hfb, hns _ hdec, valueOfBytes_eq, toBytes_bits _ _ he]
  · simp [DecodedMnemonic.decryptSeed, DecodedMnemonic.encrypted, versionEncrypted, hk, hvb,
      hiff, h]

theorem decrypt_encrypt {C : PhraseCrypto} (hC : C.Lawful) (password : Bytes) {salt off s : Nat}
    (hsd : s < 2 ^ 128) (hs : salt < 2 ^ 19) (ho : off < 2 ^ 31) :
    ∃ e v, encryptSeed C password salt off s = .encrypted e salt v off ∧
      Spec.decryptSeed C password e salt v off = some s := by
  have hfit := encryptSeed_fits hC password (s := s) hs ho
  refine ⟨_, _, rfl, ?_⟩
  have hkl : (Model.phraseKey C password salt off).length = 17 := hC.argon2id_length ..
  have hkl' : ((Model.phraseKey C password salt off).take 16).length = 16 := by simp [hkl]
  have he := hfit.1
  simp only [Spec.decryptSeed, if_true, Option.some.injEq]
  rw [toBytes_bits _ _ he]
  simp only [spec_phraseKey C password hs ho, valueOfBytes_eq, toBytes_bits _ _ hsd,
    show (128 + 7) / 8 = 16 from rfl]
  have hl : (C.aesEnc ((Model.phraseKey C password salt off).take 16)
      (beBytes 16 s)).length = 16 := hC.aesEnc_length _ _ hkl' (beBytes_length _ _)
  have hb := beBytes_setBytes (C.aesEnc ((Model.phraseKey C password salt off).take 16)
      (beBytes 16 s))
  rw [hl] at hb
  rw [hb, hC.aes_inv _ _ hkl' (beBytes_length _ _), setBytes_beBytes]
  exact Nat.mod_eq_of_lt (lt_of_lt_of_le hsd (by norm_num))

end Verif.Model
