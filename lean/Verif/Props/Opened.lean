import Verif.Props.Places
import Mathlib.Data.Set.Card
import Mathlib.SetTheory.Cardinal.Finite

/-!
# C109: which passwords open an encrypted phrase

Phrases are lists of numbers of words (C98). `Opens` is from C13: DecodeMnemonic accepts the words, and DecryptSeed with
the password gives the seed.
-/

namespace Verif.Props

open Verif.Model Verif.Spec Verif.Instances

/-! ## Encrypted phrases by their contents -/

theorem groups_short (k : Nat) : ∀ (n : Nat) (l : List Bool), ∀ g ∈ groups k n l, g.length ≤ k
  | 0, _, _, h => by cases h
  | n + 1, l, g, h => by
    rcases List.mem_cons.1 h with rfl | h
    · simp
    · exact groups_short k n _ g h

theorem indices_lt (c : Contents) : ∀ x ∈ c.indices, x < 4096 := by
  intro x hx
  obtain ⟨g, hg, rfl⟩ := List.mem_map.1 hx
  exact lt_of_lt_of_le (val_lt g) (Nat.pow_le_pow_right (by norm_num) (groups_short 12 _ _ g hg))

theorem indices_length (c : Contents) : c.indices.length = c.wordCount := by
  have : ∀ (n : Nat) (l : List Bool), (groups 12 n l).length = n := by
    intro n
    induction n with
    | zero => intro l; rfl
    | succ n ih => intro l; simp [groups, ih]
  rw [Contents.indices, List.length_map, this]

theorem indices_inj {c d : Contents} (hc : c.Fits) (hd : d.Fits) (h : c.indices = d.indices) : c = d := by
  have h1 := readPhrase_words toyWordList_lawful hc
  have h2 := readPhrase_words toyWordList_lawful hd
  rw [Contents.words, h] at h1
  rw [Contents.words, h1] at h2
  exact Except.ok.inj h2

theorem decode_indices_of {L : WordList} (hL : L.Lawful) {c : Contents} (hc : c.Fits) :
    decodeMnemonic L (c.indices.map L.word) = .ok (decodedOf c) := decode_words hL hc

/-- Accepted phrases are the indices of contents -/
theorem indices_of_decode {L : WordList} (hL : L.Lawful) {js : List Nat} (hlt : ∀ x ∈ js, x < 4096)
    {dm : DecodedMnemonic} (h : decodeMnemonic L (js.map L.word) = .ok dm) :
    ∃ c : Contents, c.Fits ∧ dm = decodedOf c ∧ js = c.indices := by
  obtain ⟨c, hc, hdm, hw⟩ := decode_ok_words' hL h
  refine ⟨c, hc, hdm, ?_⟩
  have hlow : (js.map L.word).map L.toLower = js.map L.word := by
    rw [List.map_map]
    refine List.map_congr_left fun x hx => ?_
    have haz := hL.word_az x (hlt x hx)
    show L.toLower (L.word x) = L.word x
    rw [hL.lower_ascii _ fun b hb => ?_]
    · conv => rhs; rw [← List.map_id (L.word x)]
      refine List.map_congr_left fun b hb => ?_
      have := haz b hb
      unfold isLowerAz at this
      unfold asciiLower
      rw [if_neg]
      · rfl
      · simp only [Bool.and_eq_true, decide_eq_true_eq, UInt8.le_iff_toNat_le] at this ⊢
        intro hh
        have h1 := this.1
        have h2 := hh.2
        have e1 : (0x61 : UInt8).toNat = 97 := rfl
        have e2 : (0x5A : UInt8).toNat = 90 := rfl
        omega
    · have := haz b hb
      unfold isLowerAz at this
      simp only [Bool.and_eq_true, decide_eq_true_eq, UInt8.le_iff_toNat_le] at this
      rw [UInt8.lt_iff_toNat_lt]
      have e1 : (0x7A : UInt8).toNat = 122 := rfl
      have e2 : (0x80 : UInt8).toNat = 128 := rfl
      omega
  rw [hlow] at hw
  exact (word_inj hL (indices_lt c) hlt hw).symm

/-- A phrase of sixteen words, opened with a password: it is the encryption of the seed under the password. -/
theorem opens_encrypted {L : WordList} (hL : L.Lawful) {C : PhraseCrypto} (hC : C.Lawful) {js : List Nat}
    (hlen : js.length = 16) (hlt : ∀ x ∈ js, x < 4096) (p : Bytes) (s off : Nat) :
    Opens L C (js.map L.word) p s off ↔
      s < 2 ^ 128 ∧ off < 2 ^ 31 ∧ ∃ salt < 2 ^ 19, js = (encryptSeed C p salt off s).indices := by
  constructor
  · rintro ⟨dm, h, hd, ho⟩
    obtain ⟨c, hc, rfl, rfl⟩ := indices_of_decode hL hlt h
    cases c with
    | plaintext => rw [indices_length] at hlen; cases hlen
    | encrypted e salt v o =>
      obtain rfl : o = off := ho
      rw [decryptSeed_spec hC p hc] at hd
      obtain ⟨he, hs, hv, ho⟩ := hc
      cases hsd : Spec.decryptSeed C p e salt v o with
      | none => rw [hsd] at hd; cases hd
      | some s' =>
        rw [hsd] at hd
        simp only [Res.ok.injEq, Seed.mk.injEq, true_and, Nat.cast_inj] at hd
        subst hd
        obtain ⟨v', hv', f, hf, hfs⟩ := encrypt_onto hC p hs ho
        obtain ⟨t, ht⟩ := hf.2 ⟨e, he⟩
        obtain ⟨e', v'', h1, h2⟩ := decrypt_encrypt hC p t.2 hs ho
        have hft : (f t).1 = e := congrArg Fin.val ht
        rw [hfs t, hft] at h1
        simp only [Contents.encrypted.injEq, true_and, and_true] at h1
        obtain ⟨rfl, rfl⟩ := h1
        have hvv : v = v' := by
          unfold Spec.decryptSeed at hsd h2
          simp only at hsd h2
          by_cases h3 : verifyOf (Spec.phraseKey C p salt o) = v
          · by_cases h4 : verifyOf (Spec.phraseKey C p salt o) = v'
            · exact h3.symm.trans h4
            · rw [if_neg h4] at h2; cases h2
          · rw [if_neg h3] at hsd; cases hsd
        subst hvv
        rw [h2] at hsd
        obtain rfl := Option.some.inj hsd
        refine ⟨t.2, ho, salt, hs, ?_⟩
        rw [hfs t, hft]
  · rintro ⟨hs, ho, salt, hsalt, rfl⟩
    have hfit := encryptSeed_fits hC p (s := s) hsalt ho
    obtain ⟨e, v, h1, h2⟩ := decrypt_encrypt hC p hs hsalt ho
    rw [h1] at hfit ⊢
    refine ⟨_, decode_indices_of hL hfit, ?_, rfl⟩
    rw [decryptSeed_spec hC p hfit, h2]

theorem salt_drawn {salt : Nat} (h : salt < 2 ^ 19) : ∃ a b c : Byte, valueOfBytes [a, b, c] % 2 ^ 19 = salt := by
  have hl : (beBytes 3 salt).length = 3 := beBytes_length _ _
  match hb : beBytes 3 salt, hl with
  | [a, b, c], _ =>
    refine ⟨a, b, c, ?_⟩
    rw [valueOfBytes_eq, ← hb, setBytes_beBytes]
    omega

theorem encrypt_inj {C : PhraseCrypto} (hC : C.Lawful) (p : Bytes) {salt off s salt' off' s' : Nat} (hs : s < 2 ^ 128)
    (hsalt : salt < 2 ^ 19) (ho : off < 2 ^ 31) (hs' : s' < 2 ^ 128) (hsalt' : salt' < 2 ^ 19) (ho' : off' < 2 ^ 31)
    (h : (encryptSeed C p salt off s).indices = (encryptSeed C p salt' off' s').indices) :
    salt = salt' ∧ off = off' ∧ s = s' := by
  have h := indices_inj (encryptSeed_fits hC p hsalt ho) (encryptSeed_fits hC p hsalt' ho') h
  obtain ⟨e, v, h1, h2⟩ := decrypt_encrypt hC p hs hsalt ho
  obtain ⟨e', v', h1', h2'⟩ := decrypt_encrypt hC p hs' hsalt' ho'
  rw [h1, h1'] at h
  simp only [Contents.encrypted.injEq] at h
  obtain ⟨rfl, rfl, rfl, rfl⟩ := h
  rw [h2] at h2'
  exact ⟨rfl, rfl, Option.some.inj h2'⟩

/-! ## The claim -/

/-- A password opens an encrypted phrase to a seed exactly if EncodeMnemonicEncrypted makes that phrase of the seed with
the password, for some three bytes from the random source: a password that is accepted but was not the one used cannot
be told from the one used. -/
theorem c109_made {L : WordList} (hL : L.Lawful) {C : PhraseCrypto} (hC : C.Lawful) {js : List Nat}
    (hlen : js.length = 16) (hlt : ∀ x ∈ js, x < 4096) {p : Bytes} (hp : p ≠ []) (s off : Nat) :
    Opens L C (js.map L.word) p s off ↔ s < 2 ^ 128 ∧ off < 2 ^ 31 ∧
      ∃ a b c, ∀ rest, encodeMnemonicEncrypted L C ⟨0, s⟩ off p (a :: b :: c :: rest) = .ok (js.map L.word, rest) := by
  rw [opens_encrypted hL hC hlen hlt]
  constructor
  · rintro ⟨hs, ho, salt, hsalt, rfl⟩
    obtain ⟨a, b, c, rfl⟩ := salt_drawn hsalt
    exact ⟨hs, ho, a, b, c, fun rest => (c02_encrypted_layout L hC s off hs ho p hp a b c rest).1⟩
  · rintro ⟨hs, ho, a, b, c, h⟩
    refine ⟨hs, ho, valueOfBytes [a, b, c] % 2 ^ 19, Nat.mod_lt _ (by norm_num), ?_⟩
    have := h []
    rw [(c02_encrypted_layout L hC s off hs ho p hp a b c []).1] at this
    simp only [Res.ok.injEq, Prod.mk.injEq, and_true] at this
    exact (word_inj hL (indices_lt _) hlt this).symm

/-- The same for words in any spelling that is accepted, in the direction from the phrase to its making -/
theorem c109_reencode {L : WordList} (hL : L.Lawful) {C : PhraseCrypto} (hC : C.Lawful) {ws : List Bytes}
    {dm : DecodedMnemonic} (h : decodeMnemonic L ws = .ok dm) (henc : dm.encrypted = true) {p : Bytes} (hp : p ≠ [])
    {seed : Seed} (hd : dm.decryptSeed C p = .ok seed) :
    ∃ a b c, ∀ rest, encodeMnemonicEncrypted L C seed dm.creationOffset p (a :: b :: c :: rest) =
      .ok (ws.map L.toLower, rest) := by
  obtain ⟨c, hc, rfl, hw⟩ := decode_ok_words' hL h
  cases c with
  | plaintext => simp [decodedOf, DecodedMnemonic.encrypted, versionEncrypted] at henc
  | encrypted e salt v off =>
    rw [decryptSeed_spec hC p hc] at hd
    cases hsd : Spec.decryptSeed C p e salt v off with
    | none => rw [hsd] at hd; cases hd
    | some s =>
      rw [hsd] at hd
      obtain rfl := Res.ok.inj hd
      have hopen : Opens L C ((Contents.encrypted e salt v off).indices.map L.word) p s off := by
        refine ⟨_, decode_indices_of hL hc, ?_, rfl⟩
        rw [decryptSeed_spec hC p hc, hsd]
      obtain ⟨-, -, a, b, c, h⟩ := (c109_made hL hC (indices_length _) (indices_lt _) hp s off).1 hopen
      refine ⟨a, b, c, fun rest => ?_⟩
      rw [← hw]
      exact h rest

/-- Every password opens exactly one in thirty-two of all the `2 ^ 183` encrypted phrases. -/
theorem c109_one_in_32 {L : WordList} (hL : L.Lawful) {C : PhraseCrypto} (hC : C.Lawful) (p : Bytes) :
    {js : List Nat | js.length = 16 ∧ (∀ x ∈ js, x < 4096) ∧ ∃ s off, Opens L C (js.map L.word) p s off}.ncard =
      2 ^ 178 := by
  let g : Fin (2 ^ 19) × Fin (2 ^ 31) × Fin (2 ^ 128) → List Nat :=
    fun q => (encryptSeed C p q.1 q.2.1 q.2.2).indices
  have hset : {js : List Nat | js.length = 16 ∧ (∀ x ∈ js, x < 4096) ∧ ∃ s off, Opens L C (js.map L.word) p s off} =
      Set.range g := by
    ext js
    constructor
    · rintro ⟨hlen, hlt, s, off, h⟩
      obtain ⟨hs, ho, salt, hsalt, rfl⟩ := (opens_encrypted hL hC hlen hlt p s off).1 h
      exact ⟨(⟨salt, hsalt⟩, ⟨off, ho⟩, ⟨s, hs⟩), rfl⟩
    · rintro ⟨q, rfl⟩
      have hlen : (g q).length = 16 := by
        show (encryptSeed C p _ _ _).indices.length = 16
        rw [indices_length]; rfl
      refine ⟨hlen, indices_lt _, q.2.2, q.2.1, ?_⟩
      exact (opens_encrypted hL hC hlen (indices_lt _) p _ _).2 ⟨q.2.2.2, q.2.1.2, q.1, q.1.2, rfl⟩
  have hinj : Function.Injective g := by
    rintro ⟨a, b, c⟩ ⟨a', b', c'⟩ h
    obtain ⟨h1, h2, h3⟩ := encrypt_inj hC p c.2 a.2 b.2 c'.2 a'.2 b'.2 h
    rw [Fin.ext h1, Fin.ext h2, Fin.ext h3]
  rw [hset, ← Set.image_univ, Set.ncard_image_of_injective _ hinj, Set.ncard_univ, Nat.card_eq_fintype_card]
  simp only [Fintype.card_prod, Fintype.card_fin]
  norm_num

/-- Exactly `2 ^ 19` phrases, one for each salt, hold a seed and a time under a password. -/
theorem c109_phrases {L : WordList} (hL : L.Lawful) {C : PhraseCrypto} (hC : C.Lawful) (p : Bytes) {s off : Nat}
    (hs : s < 2 ^ 128) (ho : off < 2 ^ 31) :
    {js : List Nat | js.length = 16 ∧ (∀ x ∈ js, x < 4096) ∧ Opens L C (js.map L.word) p s off}.ncard = 2 ^ 19 := by
  let g : Fin (2 ^ 19) → List Nat := fun q => (encryptSeed C p q off s).indices
  have hset : {js : List Nat | js.length = 16 ∧ (∀ x ∈ js, x < 4096) ∧ Opens L C (js.map L.word) p s off} =
      Set.range g := by
    ext js
    constructor
    · rintro ⟨hlen, hlt, h⟩
      obtain ⟨-, -, salt, hsalt, rfl⟩ := (opens_encrypted hL hC hlen hlt p s off).1 h
      exact ⟨⟨salt, hsalt⟩, rfl⟩
    · rintro ⟨q, rfl⟩
      have hlen : (g q).length = 16 := by
        show (encryptSeed C p _ _ _).indices.length = 16
        rw [indices_length]; rfl
      exact ⟨hlen, indices_lt _, (opens_encrypted hL hC hlen (indices_lt _) p _ _).2 ⟨hs, ho, q, q.2, rfl⟩⟩
  have hinj : Function.Injective g := by
    intro a a' h
    exact Fin.ext (encrypt_inj hC p hs a.2 ho hs a'.2 ho h).1
  rw [hset, ← Set.image_univ, Set.ncard_image_of_injective _ hinj, Set.ncard_univ, Nat.card_eq_fintype_card]
  simp only [Fintype.card_fin]

/-- The part of an encrypted phrase behind the seed: four words, and the last without its five bits of checksum -/
def behindSeed (js : List Nat) : List Nat := (js.drop 11).take 4 ++ (js.drop 15).map (· / 32)

theorem behindSeed_indices {e salt v o : Nat} (h : (Contents.encrypted e salt v o).Fits) :
    behindSeed (Contents.encrypted e salt v o).indices =
      [salt / 2 ^ 7, salt % 2 ^ 7 * 32 + v, o / 2 ^ 19, o / 2 ^ 7 % 4096, o % 2 ^ 7] := by
  obtain ⟨he, hs, hv, ho⟩ := h
  obtain ⟨c, hc, hw⟩ := places_encrypted toyWordList.word he hs hv ho
  have : (Contents.encrypted e salt v o).indices = _ := word_inj toyWordList_lawful (indices_lt _) ?_ hw
  · rw [this, behindSeed, List.drop_left' (by simp), show 15 = 11 + 4 from rfl, ← List.drop_drop, List.drop_left' (by simp)]
    simp only [List.take_succ_cons, List.take_zero, List.drop_succ_cons, List.drop_zero, List.map_cons, List.map_nil,
      List.cons_append, List.nil_append, List.cons.injEq, and_true, true_and]
    omega
  · intro x hx
    rcases List.mem_append.1 hx with h | h
    · exact digitsBE_lt (by norm_num) _ _ x h
    · simp only [List.mem_cons, List.not_mem_nil, or_false] at h
      omega

theorem behindSeed_inj {e salt v o e' salt' v' o' : Nat} (h : (Contents.encrypted e salt v o).Fits)
    (h' : (Contents.encrypted e' salt' v' o').Fits)
    (heq : behindSeed (Contents.encrypted e salt v o).indices = behindSeed (Contents.encrypted e' salt' v' o').indices) :
    salt = salt' ∧ v = v' ∧ o = o' := by
  rw [behindSeed_indices h, behindSeed_indices h'] at heq
  simp only [List.cons.injEq, and_true] at heq
  obtain ⟨-, hs, hv, ho⟩ := h
  obtain ⟨-, hs', hv', ho'⟩ := h'
  omega

/-- Which passwords open a phrase is seen from what stands behind the seed: the seed has no part in it. -/
theorem c109_check {L : WordList} (hL : L.Lawful) {C : PhraseCrypto} (hC : C.Lawful) {js js' : List Nat}
    (hlen : js.length = 16) (hlt : ∀ x ∈ js, x < 4096) (hlen' : js'.length = 16) (hlt' : ∀ x ∈ js', x < 4096)
    (hok' : (decodeMnemonic L (js'.map L.word)).isOk = true)
    (hbehind : behindSeed js = behindSeed js') {p : Bytes} {s off : Nat} (h : Opens L C (js.map L.word) p s off) :
    ∃ s', Opens L C (js'.map L.word) p s' off := by
  obtain ⟨hs, ho, salt, hsalt, rfl⟩ := (opens_encrypted hL hC hlen hlt p s off).1 h
  cases hd : decodeMnemonic L (js'.map L.word) with
  | err => rw [hd] at hok'; cases hok'
  | panic => rw [hd] at hok'; cases hok'
  | ok dm =>
    obtain ⟨c, hc, rfl, rfl⟩ := indices_of_decode hL hlt' hd
    cases c with
    | plaintext => rw [indices_length] at hlen'; cases hlen'
    | encrypted e salt' v o =>
      obtain ⟨v', hv', f, hf, hfs⟩ := encrypt_onto hC p hsalt ho
      have h1 := encryptSeed_fits hC p (s := s) hsalt ho
      rw [hfs ⟨s, hs⟩] at hbehind h1
      obtain ⟨rfl, rfl, rfl⟩ := behindSeed_inj h1 hc hbehind
      obtain ⟨t, ht⟩ := hf.2 ⟨e, hc.1⟩
      refine ⟨t.1, (opens_encrypted hL hC hlen' hlt' p t.1 off).2 ⟨t.2, ho, salt, hsalt, ?_⟩⟩
      rw [hfs t, ht]

/-- Among the phrases that a password opens and that have the same words behind the seed, there is exactly one for each of
the `2 ^ 128` seeds: without a word of the seed part, a phrase and its password tell nothing about the seed. -/
theorem c109_any_seed {L : WordList} (hL : L.Lawful) {C : PhraseCrypto} (hC : C.Lawful) {js : List Nat}
    (hlen : js.length = 16) (hlt : ∀ x ∈ js, x < 4096) {p : Bytes} {s off : Nat} (h : Opens L C (js.map L.word) p s off)
    {t : Nat} (ht : t < 2 ^ 128) :
    ∃! js', js'.length = 16 ∧ (∀ x ∈ js', x < 4096) ∧ behindSeed js' = behindSeed js ∧
      Opens L C (js'.map L.word) p t off := by
  obtain ⟨hs, ho, salt, hsalt, rfl⟩ := (opens_encrypted hL hC hlen hlt p s off).1 h
  obtain ⟨v, hv, f, hf, hfs⟩ := encrypt_onto hC p hsalt ho
  have hb : ∀ t : Fin (2 ^ 128), behindSeed (encryptSeed C p salt off t.1).indices =
      [salt / 2 ^ 7, salt % 2 ^ 7 * 32 + v, off / 2 ^ 19, off / 2 ^ 7 % 4096, off % 2 ^ 7] := by
    intro t
    have := encryptSeed_fits hC p (s := t.1) hsalt ho
    rw [hfs t] at this ⊢
    exact behindSeed_indices this
  have hl : ∀ t, (encryptSeed C p salt off t).indices.length = 16 := fun t => indices_length _
  refine ⟨(encryptSeed C p salt off t).indices, ⟨hl t, indices_lt _, ?_, ?_⟩, ?_⟩
  · rw [hb ⟨t, ht⟩, hb ⟨s, hs⟩]
  · exact (opens_encrypted hL hC (hl t) (indices_lt _) p t off).2 ⟨ht, ho, salt, hsalt, rfl⟩
  · rintro js' ⟨hlen', hlt', hb', hopen⟩
    obtain ⟨-, -, salt', hsalt', rfl⟩ := (opens_encrypted hL hC hlen' hlt' p t off).1 hopen
    obtain ⟨v', hv', f', -, hfs'⟩ := encrypt_onto hC p hsalt' ho
    have h1 := encryptSeed_fits hC p (s := t) hsalt' ho
    have h2 := encryptSeed_fits hC p (s := s) hsalt ho
    rw [hfs' ⟨t, ht⟩] at hb' h1
    rw [hfs ⟨s, hs⟩] at hb' h2
    rw [(behindSeed_inj h1 h2 hb').1]

/-- What is hashed with a password (`phraseKey`, C02 and C10): seven bytes that differ for different salts and times, while
for the root key (C26) there are four: no two hashes that the program makes have the same input. -/
theorem c109_hashed {salt off salt' off' : Nat} (hsalt : salt < 2 ^ 19) (ho : off < 2 ^ 31) (hsalt' : salt' < 2 ^ 19)
    (ho' : off' < 2 ^ 31) :
    (toBytes (bits 19 salt ++ bits 31 off)).length = 7 ∧
    (toBytes (bits 19 salt ++ bits 31 off) = toBytes (bits 19 salt' ++ bits 31 off') → salt = salt' ∧ off = off') := by
  have key : ∀ {a b : Nat}, a < 2 ^ 19 → b < 2 ^ 31 → toBytes (bits 19 a ++ bits 31 b) = beBytes 7 (a * 2 ^ 31 + b) := by
    intro a b ha hb
    have h : a * 2 ^ 31 + b < 2 ^ (19 + 31) := by omega
    rw [bits_append _ _ hb, toBytes_bits _ _ h]
  rw [key hsalt ho, key hsalt' ho']
  refine ⟨beBytes_length _ _, fun h => ?_⟩
  have := congrArg setBytes h
  rw [setBytes_beBytes, setBytes_beBytes] at this
  omega

/-! Examples -/

/-- A phrase of sixteen words and a password that opens it -/
def openedPhrase : List Nat := (encryptSeed toyPhraseCrypto [1] 5 77 12345).indices

theorem openedPhrase_opens : Opens toyWordList toyPhraseCrypto (openedPhrase.map toyWordList.word) [1] 12345 77 :=
  (opens_encrypted toyWordList_lawful toyPhraseCrypto_lawful (indices_length _) (indices_lt _) _ _ _).2
    ⟨by norm_num, by norm_num, 5, by norm_num, rfl⟩

/-- Another password opens it too, to another seed: it is as good a phrase for that. -/
example : ∃ a b c, ∀ rest, encodeMnemonicEncrypted toyWordList toyPhraseCrypto
    ⟨0, (43035711110511601592413015876359475225 : Nat)⟩ 77 [33] (a :: b :: c :: rest) =
      .ok (openedPhrase.map toyWordList.word, rest) := by
  have h : (decodeMnemonic toyWordList (openedPhrase.map toyWordList.word)).bind
      (fun dm => .ok (dm.decryptSeed toyPhraseCrypto [33], dm.creationOffset)) =
        .ok (.ok ⟨0, (43035711110511601592413015876359475225 : Nat)⟩, 77) := by decide +kernel
  refine ((c109_made toyWordList_lawful toyPhraseCrypto_lawful (indices_length _) (indices_lt _) (by simp) _ 77).1 ?_).2.2
  cases hd : decodeMnemonic toyWordList (openedPhrase.map toyWordList.word) with
  | err => rw [hd] at h; cases h
  | panic => rw [hd] at h; cases h
  | ok dm =>
    rw [hd] at h
    have h := Res.ok.inj h
    exact ⟨dm, hd, congrArg Prod.fst h, congrArg Prod.snd h⟩

/-- It can have been made with the first password. -/
example : (∃ a b c, ∀ rest, encodeMnemonicEncrypted toyWordList toyPhraseCrypto ⟨0, (12345 : Nat)⟩ 77 [1] (a :: b :: c :: rest) =
    .ok (openedPhrase.map toyWordList.word, rest)) :=
  ((c109_made toyWordList_lawful toyPhraseCrypto_lawful (indices_length _) (indices_lt _) (by simp) 12345 77).1
    openedPhrase_opens).2.2

/-- One phrase with the same words behind the seed opens to 0. -/
example : ∃! js', js'.length = 16 ∧ (∀ x ∈ js', x < 4096) ∧ behindSeed js' = behindSeed openedPhrase ∧
    Opens toyWordList toyPhraseCrypto (js'.map toyWordList.word) [1] (0 : Nat) 77 :=
  c109_any_seed toyWordList_lawful toyPhraseCrypto_lawful (indices_length _) (indices_lt _) openedPhrase_opens (by norm_num)

end Verif.Props
