import Verif.Props.Seed
import Mathlib.Data.Fintype.EquivFin

/-!
# C100: where the seed and the time stand in a phrase

The first eleven words hold the seed and nothing else besides the version; the words after them do not depend on it,
apart from the checksum and, in an encrypted phrase, on nothing but the password, the salt and the time.
-/

namespace Verif.Props

open Verif.Model Verif.Spec Verif.Instances

theorem digits_three (v : Nat) : digitsBE 4096 3 v = [v / 2 ^ 24 % 4096, v / 2 ^ 12 % 4096, v % 4096] := by
  show [v / 4096 / 4096 % 4096, v / 4096 % 4096, v % 4096] = _
  simp only [Nat.div_div_eq_div_mul, Nat.reduceMul, Nat.reducePow]

theorem digits_five (v : Nat) : digitsBE 4096 5 v =
    [v / 2 ^ 48 % 4096, v / 2 ^ 36 % 4096, v / 2 ^ 24 % 4096, v / 2 ^ 12 % 4096, v % 4096] := by
  show [v / 4096 / 4096 / 4096 / 4096 % 4096, v / 4096 / 4096 / 4096 % 4096, v / 4096 / 4096 % 4096, v / 4096 % 4096,
    v % 4096] = _
  simp only [Nat.div_div_eq_div_mul, Nat.reduceMul, Nat.reducePow]

/-- The words of a plaintext phrase -/
theorem places_plaintext (word : Nat → Bytes) {s o : Nat} (hs : s < 2 ^ 128) (ho : o < 2 ^ 31) :
    ∃ c < 32, (Contents.plaintext s o).words word =
      (digitsBE 4096 11 s ++ [o / 2 ^ 19, o / 2 ^ 7 % 4096, o % 2 ^ 7 * 32 + c]).map word := by
  refine ⟨_, checksum5_lt (beBytes 21 (payload0 s o)), ?_⟩
  rw [words_plaintext _ hs ho, codeword]
  have hc := checksum5_lt (beBytes 21 (payload0 s o))
  generalize checksum5 (beBytes 21 (payload0 s o)) = c at hc ⊢
  congr 1
  rw [show 14 = 11 + 3 from rfl, digitsBE_add, payload0]
  congr 1
  · congr 1
    omega
  · rw [digits_three]
    simp only [List.cons.injEq, and_true]
    refine ⟨?_, ?_, ?_⟩ <;> omega

/-- The words of an encrypted phrase -/
theorem places_encrypted (word : Nat → Bytes) {e s v o : Nat} (he : e < 2 ^ 128) (hs : s < 2 ^ 19) (hv : v < 2 ^ 5)
    (ho : o < 2 ^ 31) : ∃ c < 32, (Contents.encrypted e s v o).words word =
      (digitsBE 4096 11 (2 ^ 128 + e) ++
        [s / 2 ^ 7, s % 2 ^ 7 * 32 + v, o / 2 ^ 19, o / 2 ^ 7 % 4096, o % 2 ^ 7 * 32 + c]).map word := by
  refine ⟨_, checksum5_lt (beBytes 24 (payload1 e s v o)), ?_⟩
  rw [words_encrypted _ he hs hv ho, codeword]
  have hc := checksum5_lt (beBytes 24 (payload1 e s v o))
  generalize checksum5 (beBytes 24 (payload1 e s v o)) = c at hc ⊢
  congr 1
  rw [show 16 = 11 + 5 from rfl, digitsBE_add, payload1]
  congr 1
  · congr 1
    omega
  · rw [digits_five]
    simp only [List.cons.injEq, and_true]
    refine ⟨?_, ?_, ?_, ?_, ?_⟩ <;> omega

/-- The first word and the ten after it -/
theorem digits_eleven {s d : Nat} (hs : s < 2 ^ 128) (hd : d < 16) : ∃ i0 is, digitsBE 4096 11 (d * 2 ^ 128 + s) =
    (d * 256 + i0) :: is ∧ i0 < 256 ∧ is.length = 10 ∧ ∀ i ∈ is, i < 4096 := by
  refine ⟨s / 2 ^ 120, digitsBE 4096 10 (d * 2 ^ 128 + s), ?_, by omega, by simp, digitsBE_lt (by norm_num) _ _⟩
  rw [digitsBE_succ_cons]
  congr 1
  rw [show (4096 : Nat) ^ 10 = 2 ^ 120 by norm_num]
  omega

theorem eleven_digits {i0 d : Nat} {is : List Nat} (h0 : i0 < 256) (hd : d < 16) (hl : is.length = 10)
    (hlt : ∀ i ∈ is, i < 4096) : ∃ s < 2 ^ 128, digitsBE 4096 11 (d * 2 ^ 128 + s) = (d * 256 + i0) :: is := by
  have h := digitsBE_ofDigitsBE (b := 4096) (l := is) hlt
  rw [hl] at h
  have hb : ofDigitsBE 4096 is < 4096 ^ 10 := by
    have := ofDigitsBE_digitsBE 4096 10 (ofDigitsBE 4096 is)
    rw [h] at this
    rw [this]
    exact Nat.mod_lt _ (by positivity)
  generalize ofDigitsBE 4096 is = t at h hb
  rw [show (4096 : Nat) ^ 10 = 2 ^ 120 by norm_num] at hb
  refine ⟨i0 * 2 ^ 120 + t, by omega, ?_⟩
  rw [digitsBE_succ_cons, ← digitsBE_mod, show (4096 : Nat) ^ 10 = 2 ^ 120 by norm_num,
    show (d * 2 ^ 128 + (i0 * 2 ^ 120 + t)) % 2 ^ 120 = t by omega, h]
  congr 1
  omega

theorem eleven_inj {s s' d : Nat} (hs : s < 2 ^ 128) (hs' : s' < 2 ^ 128)
    (h : digitsBE 4096 11 (d * 2 ^ 128 + s) = digitsBE 4096 11 (d * 2 ^ 128 + s')) : s = s' := by
  have := congrArg (ofDigitsBE 4096) h
  rw [ofDigitsBE_digitsBE, ofDigitsBE_digitsBE, show (4096 : Nat) ^ 11 = 2 ^ 132 by norm_num] at this
  omega

theorem word_inj {L : WordList} (hL : L.Lawful) {l l' : List Nat} (h1 : ∀ i ∈ l, i < 4096) (h2 : ∀ i ∈ l', i < 4096)
    (h : l.map L.word = l'.map L.word) : l = l' := by
  induction l generalizing l' with
  | nil => cases l' with
    | nil => rfl
    | cons _ _ => cases h
  | cons a l ih => cases l' with
    | nil => cases h
    | cons b l' =>
      simp only [List.map_cons, List.cons.injEq] at h
      rw [ih (fun i hi => h1 i (List.mem_cons_of_mem _ hi)) (fun i hi => h2 i (List.mem_cons_of_mem _ hi)) h.2]
      have ha := (hL.lookup_iff (L.word a) a).2 ⟨h1 a List.mem_cons_self, rfl⟩
      have hb := (hL.lookup_iff (L.word a) b).2 ⟨h2 b List.mem_cons_self, h.1.symm⟩
      rw [ha] at hb
      rw [Option.some.inj hb]

/-! ## Plaintext -/

/-- C100. A new plaintext phrase: eleven words with the seed, the first among the first 256 of the list, and three
words that depend on the time alone, but for the five low bits of the last. -/
theorem c100_plaintext_form (L : WordList) (rnd rest : Bytes) (hr : rnd.length = 16) (off : Nat) (ho : off < 2 ^ 31) :
    ∃ seed i0 is c, generateSeed (rnd ++ rest) = .ok (seed, rest) ∧ i0 < 256 ∧ is.length = 10 ∧
      (∀ i ∈ is, i < 4096) ∧ c < 32 ∧
      encodeMnemonicPlaintext L seed off =
        .ok ((i0 :: is ++ [off / 2 ^ 19, off / 2 ^ 7 % 4096, off % 2 ^ 7 * 32 + c]).map L.word) := by
  have hv : valueOfBytes rnd < 2 ^ 128 := by
    rw [valueOfBytes_eq]
    have := setBytes_lt rnd
    rw [hr] at this
    exact lt_of_lt_of_le this (by norm_num)
  obtain ⟨c, hc, h⟩ := places_plaintext L.word hv ho
  obtain ⟨i0, is, h1, h2, h3, h4⟩ := digits_eleven (d := 0) hv (by norm_num)
  refine ⟨⟨0, (valueOfBytes rnd : Nat)⟩, i0, is, c, ?_, h2, h3, h4, hc, ?_⟩
  · rw [c14_generate_seed, if_neg (by simp; omega), List.take_left' hr, List.drop_left' hr]
  · rw [(c02_plaintext_layout L _ off hv ho).1, h]
    simp only [Nat.zero_mul, Nat.zero_add] at h1
    rw [h1]

/-- C100. Every such beginning comes from exactly one string of sixteen random bytes: at any one second, the first
eleven words of a new phrase are as random as the bytes, and hold all of them. -/
theorem c100_plaintext_begin {L : WordList} (hL : L.Lawful) (off : Nat) (ho : off < 2 ^ 31) (i0 : Nat)
    (is : List Nat) (h0 : i0 < 256) (hl : is.length = 10) (hlt : ∀ i ∈ is, i < 4096) :
    ∃! rnd : Bytes, rnd.length = 16 ∧ ∃ seed ws, generateSeed rnd = .ok (seed, []) ∧
      encodeMnemonicPlaintext L seed off = .ok ws ∧ ws.take 11 = (i0 :: is).map L.word := by
  obtain ⟨s, hs, hd⟩ := eleven_digits (d := 0) h0 (by norm_num) hl hlt
  simp only [Nat.zero_mul, Nat.zero_add] at hd
  obtain ⟨rnd, ⟨hr, hg⟩, -⟩ := c14_bijection s hs
  obtain ⟨c, hc, h⟩ := places_plaintext L.word hs ho
  refine ⟨rnd, ⟨hr, _, _, hg, (c02_plaintext_layout L s off hs ho).1, ?_⟩, ?_⟩
  · rw [h, ← List.map_take, List.take_left' (by simp), hd]
  · rintro rnd' ⟨hr', seed, ws, hg', he, ht⟩
    have hv : valueOfBytes rnd' < 2 ^ 128 := by
      rw [valueOfBytes_eq]
      have := setBytes_lt rnd'
      rw [hr'] at this
      exact lt_of_lt_of_le this (by norm_num)
    have hg2 := hg'
    rw [c14_generate_seed, if_neg (by omega), List.take_of_length_le (by omega)] at hg2
    simp only [Res.ok.injEq, Prod.mk.injEq] at hg2
    rw [← hg2.1, (c02_plaintext_layout L _ off hv ho).1] at he
    obtain ⟨c', hc', h'⟩ := places_plaintext L.word hv ho
    rw [← Res.ok.inj he, h', ← List.map_take, List.take_left' (by simp)] at ht
    have hi := word_inj hL (digitsBE_lt (by norm_num) _ _) (by
      intro i hi
      rcases List.mem_cons.1 hi with rfl | hi
      · omega
      · exact hlt i hi) ht
    rw [← hd] at hi
    have := eleven_inj (d := 0) hv hs (by simpa using hi)
    have hu := (c14_bijection s hs).unique ⟨hr, hg⟩ (y₂ := rnd') ⟨hr', by rw [hg', ← hg2.1, this]⟩
    exact hu.symm

/-- C100. So who knows the first eleven words and the second knows the phrase. -/
theorem c100_plaintext_rest {L : WordList} (hL : L.Lawful) (s s' off : Nat) (hs : s < 2 ^ 128) (hs' : s' < 2 ^ 128)
    (ho : off < 2 ^ 31) (ws ws' : List Bytes) (h : encodeMnemonicPlaintext L ⟨0, s⟩ off = .ok ws)
    (h' : encodeMnemonicPlaintext L ⟨0, s'⟩ off = .ok ws') (ht : ws.take 11 = ws'.take 11) : ws = ws' := by
  have e := h
  have e' := h'
  rw [(c02_plaintext_layout L _ off hs ho).1] at e
  rw [(c02_plaintext_layout L _ off hs' ho).1] at e'
  obtain ⟨c, hc, hw⟩ := places_plaintext L.word hs ho
  obtain ⟨c', hc', hw'⟩ := places_plaintext L.word hs' ho
  rw [← Res.ok.inj e, ← Res.ok.inj e', hw, hw', ← List.map_take, ← List.map_take, List.take_left' (by simp),
    List.take_left' (by simp)] at ht
  have hi := word_inj hL (digitsBE_lt (by norm_num) _ _) (digitsBE_lt (by norm_num) _ _) ht
  have := eleven_inj (d := 0) hs hs' (by simpa using hi)
  rw [← Res.ok.inj e, ← Res.ok.inj e', this]

/-- C100. The twelfth and thirteenth words of two plaintext phrases are the same exactly if the two keys were created in
the same 128 seconds, whatever the seeds are. -/
theorem c100_plaintext_time {L : WordList} (hL : L.Lawful) (s s' off off' : Nat) (hs : s < 2 ^ 128)
    (hs' : s' < 2 ^ 128) (ho : off < 2 ^ 31) (ho' : off' < 2 ^ 31) (ws ws' : List Bytes)
    (h : encodeMnemonicPlaintext L ⟨0, s⟩ off = .ok ws) (h' : encodeMnemonicPlaintext L ⟨0, s'⟩ off' = .ok ws') :
    (ws[11]? = ws'[11]? ∧ ws[12]? = ws'[12]?) ↔ off / 128 = off' / 128 := by
  rw [(c02_plaintext_layout L _ off hs ho).1] at h
  rw [(c02_plaintext_layout L _ off' hs' ho').1] at h'
  obtain ⟨c, hc, hw⟩ := places_plaintext L.word hs ho
  obtain ⟨c', hc', hw'⟩ := places_plaintext L.word hs' ho'
  rw [← Res.ok.inj h, ← Res.ok.inj h', hw, hw']
  rw [List.map_append, List.map_append]
  rw [List.getElem?_append_right (by simp), List.getElem?_append_right (by simp),
    List.getElem?_append_right (by simp), List.getElem?_append_right (by simp)]
  simp only [List.length_map, digitsBE_length, List.map_cons, List.map_nil, Nat.sub_self, List.getElem?_cons_zero,
    List.getElem?_cons_succ, Nat.reduceSub, Option.some.injEq]
  constructor
  · rintro ⟨h1, h2⟩
    have := word_inj hL (l := [off / 2 ^ 19, off / 2 ^ 7 % 4096]) (l' := [off' / 2 ^ 19, off' / 2 ^ 7 % 4096])
      (by simp; omega) (by simp; omega)
      (by rw [List.map_cons, List.map_cons, List.map_cons, List.map_cons, h1, h2])
    simp only [List.cons.injEq, and_true] at this
    omega
  · intro h
    constructor <;> congr 1 <;> omega

/-- Two keys made one after the other, in the last second of 128 and the next: the thirteenth words differ -/
example : ∃ ws ws', encodeMnemonicPlaintext toyWordList ⟨0, (99 : Nat)⟩ 127 = .ok ws ∧
    encodeMnemonicPlaintext toyWordList ⟨0, (7 : Nat)⟩ 128 = .ok ws' ∧ ¬ (ws[11]? = ws'[11]? ∧ ws[12]? = ws'[12]?) := by
  have h1 := (c02_plaintext_layout toyWordList 99 127 (by norm_num) (by norm_num)).1
  have h2 := (c02_plaintext_layout toyWordList 7 128 (by norm_num) (by norm_num)).1
  refine ⟨_, _, h1, h2, ?_⟩
  rw [c100_plaintext_time toyWordList_lawful 99 7 127 128 (by norm_num) (by norm_num) (by norm_num) (by norm_num) _ _
    h1 h2]
  norm_num

/-- The hypotheses hold of the eleven first words of the list -/
example : ∃! rnd : Bytes, rnd.length = 16 ∧ ∃ seed ws, generateSeed rnd = .ok (seed, []) ∧
    encodeMnemonicPlaintext toyWordList seed 5 = .ok ws ∧
    ws.take 11 = (0 :: [1, 2, 3, 4, 5, 6, 7, 8, 9, 10]).map toyWordList.word :=
  c100_plaintext_begin toyWordList_lawful 5 (by norm_num) 0 _ (by norm_num) rfl (by decide)

/-! ## Encrypted -/

/-- The encryption of seeds under a password, a salt and a time is one-to-one -/
theorem encrypt_onto {C : PhraseCrypto} (hC : C.Lawful) (password : Bytes) {salt off : Nat}
    (hs : salt < 2 ^ 19) (ho : off < 2 ^ 31) : ∃ v < 2 ^ 5, ∃ f : Fin (2 ^ 128) → Fin (2 ^ 128), f.Bijective ∧
      ∀ s, encryptSeed C password salt off s.1 = .encrypted (f s).1 salt v off := by
  have hfit : ∀ s, (encryptSeed C password salt off s).Fits := fun s => encryptSeed_fits hC password hs ho
  refine ⟨_, (hfit 0).2.2.1, fun s => ⟨_, (hfit s.1).1⟩, ?_, fun s => rfl⟩
  refine Finite.injective_iff_bijective.1 ?_
  intro s s' h
  obtain ⟨e, v, h1, h2⟩ := decrypt_encrypt hC password s.2 hs ho
  obtain ⟨e', v', h1', h2'⟩ := decrypt_encrypt hC password s'.2 hs ho
  have hv := congrArg Fin.val h
  simp only at hv
  unfold encryptSeed at h1 h1'
  simp only [Contents.encrypted.injEq, true_and, and_true] at h1 h1'
  rw [h1.1, h1'.1] at hv
  have hvv : v = v' := h1.2.symm.trans h1'.2
  subst hvv
  rw [hv, h2'] at h2
  exact Fin.ext (Option.some.inj h2).symm

/-- C100. A new encrypted phrase: eleven words with the encrypted seed, two with the salt and the check of the password,
three that depend on the time alone, but for the five low bits of the last. The time is not encrypted. -/
theorem c100_encrypted_form (L : WordList) {C : PhraseCrypto} (hC : C.Lawful) (s off : Nat) (hs : s < 2 ^ 128)
    (ho : off < 2 ^ 31) (password : Bytes) (hp : password ≠ []) (a b c : Byte) (rest : Bytes) :
    ∃ i0 is v d, i0 < 256 ∧ is.length = 10 ∧ (∀ i ∈ is, i < 4096) ∧ v < 32 ∧ d < 32 ∧
      (let salt := valueOfBytes [a, b, c] % 2 ^ 19
       encodeMnemonicEncrypted L C ⟨0, s⟩ off password (a :: b :: c :: rest) =
        .ok (((256 + i0) :: is ++ [salt / 2 ^ 7, salt % 2 ^ 7 * 32 + v, off / 2 ^ 19, off / 2 ^ 7 % 4096,
          off % 2 ^ 7 * 32 + d]).map L.word, rest)) := by
  have hsalt : valueOfBytes [a, b, c] % 2 ^ 19 < 2 ^ 19 := Nat.mod_lt _ (by norm_num)
  obtain ⟨v, hv, f, -, hf⟩ := encrypt_onto hC password hsalt ho
  obtain ⟨d, hd, hw⟩ := places_encrypted L.word (f ⟨s, hs⟩).2 hsalt hv ho
  obtain ⟨i0, is, h1, h2, h3, h4⟩ := digits_eleven (d := 1) (f ⟨s, hs⟩).2 (by norm_num)
  refine ⟨i0, is, v, d, h2, h3, h4, hv, hd, ?_⟩
  simp only
  rw [(c02_encrypted_layout L hC s off hs ho password hp a b c rest).1]
  have := hf ⟨s, hs⟩
  simp only at this
  simp only [Nat.one_mul] at h1
  rw [this, hw, h1]

/-- C100. For every password, salt and time, every such beginning comes from exactly one string of sixteen random
bytes: the first eleven words tell nothing about the password. -/
theorem c100_encrypted_begin {L : WordList} (hL : L.Lawful) {C : PhraseCrypto} (hC : C.Lawful) (off : Nat)
    (ho : off < 2 ^ 31) (password : Bytes) (hp : password ≠ []) (a b c : Byte) (rest : Bytes) (i0 : Nat)
    (is : List Nat) (h0 : i0 < 256) (hl : is.length = 10) (hlt : ∀ i ∈ is, i < 4096) :
    ∃! rnd : Bytes, rnd.length = 16 ∧ ∃ seed ws, generateSeed rnd = .ok (seed, []) ∧
      encodeMnemonicEncrypted L C seed off password (a :: b :: c :: rest) = .ok (ws, rest) ∧
      ws.take 11 = ((256 + i0) :: is).map L.word := by
  have hsalt : valueOfBytes [a, b, c] % 2 ^ 19 < 2 ^ 19 := Nat.mod_lt _ (by norm_num)
  obtain ⟨v, hv, f, hbij, hf⟩ := encrypt_onto hC password hsalt ho
  obtain ⟨e, he, hd⟩ := eleven_digits (d := 1) h0 (by norm_num) hl hlt
  simp only [Nat.one_mul] at hd
  obtain ⟨s, hse⟩ := hbij.2 ⟨e, he⟩
  have hse' : (f s).1 = e := congrArg Fin.val hse
  obtain ⟨rnd, ⟨hr, hg⟩, -⟩ := c14_bijection s.1 s.2
  obtain ⟨d, -, hw⟩ := places_encrypted L.word (f s).2 hsalt hv ho
  refine ⟨rnd, ⟨hr, _, _, hg, (c02_encrypted_layout L hC s.1 off s.2 ho password hp a b c rest).1, ?_⟩, ?_⟩
  · rw [hf s, hw, ← List.map_take, List.take_left' (by simp), hse', hd]
  · rintro rnd' ⟨hr', seed, ws, hg', hen, ht⟩
    have hv' : valueOfBytes rnd' < 2 ^ 128 := by
      rw [valueOfBytes_eq]
      have := setBytes_lt rnd'
      rw [hr'] at this
      exact lt_of_lt_of_le this (by norm_num)
    have hg2 := hg'
    rw [c14_generate_seed, if_neg (by omega), List.take_of_length_le (by omega)] at hg2
    simp only [Res.ok.injEq, Prod.mk.injEq] at hg2
    rw [← hg2.1, (c02_encrypted_layout L hC _ off hv' ho password hp a b c rest).1] at hen
    simp only [Res.ok.injEq, Prod.mk.injEq, and_true] at hen
    have hf' := hf ⟨_, hv'⟩
    simp only at hf'
    obtain ⟨d', -, hw'⟩ := places_encrypted L.word (f ⟨_, hv'⟩).2 hsalt hv ho
    rw [← hen, hf', hw', ← List.map_take, List.take_left' (by simp)] at ht
    have hi := word_inj hL (digitsBE_lt (by norm_num) _ _) (by
      intro i hi
      rcases List.mem_cons.1 hi with rfl | hi
      · omega
      · exact hlt i hi) ht
    rw [← hd] at hi
    have h1 := eleven_inj (d := 1) (f ⟨_, hv'⟩).2 he (by simpa using hi)
    have h2 : (⟨_, hv'⟩ : Fin (2 ^ 128)) = s := hbij.1 (Fin.ext (h1.trans hse'.symm))
    have h3 : valueOfBytes rnd' = s.1 := congrArg Fin.val h2
    have hu := (c14_bijection s.1 s.2).unique ⟨hr, hg⟩ (y₂ := rnd') ⟨hr', by rw [hg', ← hg2.1, h3]⟩
    exact hu.symm

example : ∃! rnd : Bytes, rnd.length = 16 ∧ ∃ seed ws, generateSeed rnd = .ok (seed, []) ∧
    encodeMnemonicEncrypted toyWordList toyPhraseCrypto seed 5 [0x61] [7, 8, 9] = .ok (ws, []) ∧
    ws.take 11 = ((256 + 17) :: [1, 2, 3, 4, 5, 6, 7, 8, 9, 10]).map toyWordList.word :=
  c100_encrypted_begin toyWordList_lawful toyPhraseCrypto_lawful 5 (by norm_num) [0x61] (by decide) 7 8 9 [] 17 _
    (by norm_num) rfl (by decide)

end Verif.Props
