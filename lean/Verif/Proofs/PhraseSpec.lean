import Verif.Proofs.Phrase
import Verif.Proofs.Crc
import Verif.Proofs.Bits

/-! The model of phrase encoding and decoding agrees with the bit-string specification. -/

namespace Verif.Model

open Spec

/-- The model's decoded structure for given contents. -/
def decodedOf : Contents → DecodedMnemonic
  | .plaintext s o =>
    { version := 0, entropy := (s : Int), salt := none, encSeedVerify := 0, creationOffset := o }
  | .encrypted e s v o =>
    { version := 1, entropy := (e : Int), salt := some (s : Int),
      encSeedVerify := UInt8.ofNat v, creationOffset := o }

def toRes : Except Err Contents → Res DecodedMnemonic
  | .error e => .err e
  | .ok c => .ok (decodedOf c)

theorem mapM_eq_some_iff {α β : Type} (f : α → Option β) (ws : List α) (is : List β) :
    ws.mapM f = some is ↔ ws.map f = is.map some := by
  induction ws generalizing is with
  | nil => cases is <;> simp
  | cons w ws ih =>
    rw [List.mapM_cons]
    cases is with
    | nil => cases h : f w <;> cases h2 : List.mapM f ws <;> simp
    | cons i is =>
      simp only [List.map_cons, List.cons.injEq, ← ih]
      cases h : f w with
      | none => simp
      | some j =>
        cases h2 : List.mapM f ws <;> simp

theorem mapM_eq_none_iff' {α β : Type} (f : α → Option β) (ws : List α) :
    ws.mapM f = none ↔ ∃ w ∈ ws, f w = none := by
  induction ws with
  | nil => simp
  | cons w ws ih =>
    rw [List.mapM_cons]
    simp only [List.mem_cons, exists_eq_or_imp, ← ih]
    cases h : f w with
    | none => simp
    | some j => cases h2 : List.mapM f ws <;> simp

theorem bits5_eq_iff (a b : Nat) : bits 5 a = bits 5 b ↔ a % 32 = b % 32 := by
  constructor
  · intro h
    have := congrArg val h
    rw [val_bits, val_bits] at this
    exact this
  · intro h
    apply val_inj (by simp)
    rw [val_bits, val_bits]
    exact h

theorem checksum_bits {n v : Nat} (h : v < 2 ^ n) :
    checksum (bits n v) = bits 5 (checksum5 (beBytes ((n + 7) / 8) v)) := by
  rw [checksum, toBytes_bits n v h, bits5_eq_iff, checksum5_eq, Nat.mod_mod, crc32_spec]

theorem decodeMnemonic_spec {L : WordList} (hL : L.Lawful) (ws : List Bytes) :
    decodeMnemonic L ws = toRes (readPhrase (fun w => L.lookup (L.toLower w)) ws) := by
  cases ws with
  | nil => rfl
  | cons w ws' =>
    cases hl : L.lookup (L.toLower w) with
    | none =>
      simp only [decodeMnemonic, parseVersion_eq, hl, readPhrase, Res.bind_err, toRes]
    | some i =>
      have hi := hL.lookup_lt hl
      have hver : val ((bits 12 i).take 4) = i / 256 := by
        rw [take_bits i (by norm_num), val_bits]
        omega
      by_cases hv : i / 256 > 1
      · have h1 : i / 256 ≠ 0 ∧ i / 256 ≠ 1 := by omega
        simp only [decodeMnemonic, parseVersion_eq, hl, readPhrase, hver, hv, if_true,
          Res.bind_err, h1, ne_eq, not_false_eq_true, and_self, toRes]
      · have hv' : ¬ (i / 256 ≠ 0 ∧ i / 256 ≠ 1) := by omega
        have hpv : parseMnemonicVersion L w = .ok (i / 256) := by
          rw [parseVersion_eq, hl]; simp [hv]
        have hsize : mnemonicSize (i / 256) = if i / 256 = 0 then 14 else 16 := by
          have : i / 256 = 0 ∨ i / 256 = 1 := by omega
          rcases this with h | h <;> rw [h] <;> rfl
        have hvc : versionCheck (i / 256) = .ok () := by
          simp [versionCheck, mnemonicVersionLatest, hv]
        by_cases hlen : (w :: ws').length ≠ if i / 256 = 0 then 14 else 16
        · unfold decodeMnemonic readPhrase
          simp only [hpv, Res.bind_ok, hvc, hsize, hl, hver, if_neg hv', if_pos hlen, toRes]
        · have hlen' : (w :: ws').length = if i / 256 = 0 then 14 else 16 := by
            simpa using hlen
          rcases decodeWords_cases L (w :: ws') with ⟨is, hd⟩ | hd
          · have hm : (w :: ws').mapM (fun w => L.lookup (L.toLower w)) = some is := by
              rw [mapM_eq_some_iff]; exact (decodeWords_ok_iff L _ _).mp hd
            have hlt := decodeWords_lt hL hd
            have hlis := decodeWords_length hd
            have hhead : is.head? = some i := by
              have := (decodeWords_ok_iff L _ _).mp hd
              cases is with
              | nil => simp at this
              | cons j js =>
                simp only [List.map_cons, List.cons.injEq] at this
                rw [hl] at this
                simp only [Option.some.injEq] at this
                simp [this.1]
            have hW := ofDigitsBE_lt hlt
            have hfm := flatMap_bits is hlt
            unfold readPhrase
            simp only [hl, hver, if_neg hv', if_neg hlen, hm, hfm, bits_length]
            generalize hWdef : ofDigitsBE 4096 is = W at hW hfm
            by_cases h0 : i / 256 = 0
            · rw [if_pos h0] at hlen'
              rw [hlen'] at hlis
              have hW' : W < 2 ^ 168 := by
                rw [hlis] at hW; exact lt_of_lt_of_le hW (by norm_num)
              rw [decodeMnemonic_v0 hL hd hlen' hhead h0, hWdef, hlis]
              have hp : W / 2 ^ 5 < 2 ^ 163 := by omega
              rw [show 12 * 14 = 168 from rfl, show 168 - 5 = 163 from rfl,
                take_bits W (show 163 ≤ 168 by norm_num), show 168 - 163 = 5 from rfl,
                checksum_bits hp, drop_bits W (show 163 ≤ 168 by norm_num),
                show 168 - 163 = 5 from rfl, show (163 + 7) / 8 = 21 from rfl,
                field_bits W (show 4 + 128 ≤ 168 by norm_num),
                field_bits W (show 132 + 31 ≤ 168 by norm_num)]
              have hck := checksum5_lt (beBytes 21 (W / 2 ^ 5))
              have e : (bits 5 W ≠ bits 5 (checksum5 (beBytes 21 (W / 2 ^ 5)))) ↔
                  checksum5 (beBytes 21 (W / 32)) ≠ W % 32 := by
                rw [Ne, bits5_eq_iff, Nat.mod_eq_of_lt hck]
                constructor <;> exact fun h h' => h h'.symm
              by_cases hc : checksum5 (beBytes 21 (W / 32)) ≠ W % 32
              · rw [if_pos hc, if_pos (e.mpr hc)]; rfl
              · rw [if_neg hc, if_neg (fun h => hc (e.mp h)), if_pos h0]; rfl
            · have h1 : i / 256 = 1 := by omega
              rw [if_neg h0] at hlen'
              rw [hlen'] at hlis
              have hW' : W < 2 ^ 192 := by
                rw [hlis] at hW; exact lt_of_lt_of_le hW (by norm_num)
              rw [decodeMnemonic_v1 hL hd hlen' hhead h1, hWdef, hlis]
              have hp : W / 2 ^ 5 < 2 ^ 187 := by omega
              rw [show 12 * 16 = 192 from rfl, show 192 - 5 = 187 from rfl,
                take_bits W (show 187 ≤ 192 by norm_num), show 192 - 187 = 5 from rfl,
                checksum_bits hp, drop_bits W (show 187 ≤ 192 by norm_num),
                show 192 - 187 = 5 from rfl, show (187 + 7) / 8 = 24 from rfl,
                field_bits W (show 4 + 128 ≤ 192 by norm_num),
                field_bits W (show 132 + 19 ≤ 192 by norm_num),
                field_bits W (show 151 + 5 ≤ 192 by norm_num),
                field_bits W (show 156 + 31 ≤ 192 by norm_num)]
              have hck := checksum5_lt (beBytes 24 (W / 2 ^ 5))
              have e : (bits 5 W ≠ bits 5 (checksum5 (beBytes 24 (W / 2 ^ 5)))) ↔
                  checksum5 (beBytes 24 (W / 32)) ≠ W % 32 := by
                rw [Ne, bits5_eq_iff, Nat.mod_eq_of_lt hck]
                constructor <;> exact fun h h' => h h'.symm
              by_cases hc : checksum5 (beBytes 24 (W / 32)) ≠ W % 32
              · rw [if_pos hc, if_pos (e.mpr hc)]; rfl
              · rw [if_neg hc, if_neg (fun h => hc (e.mp h)), if_neg h0]; rfl
          · have hm : (w :: ws').mapM (fun w => L.lookup (L.toLower w)) = none := by
              rw [mapM_eq_none_iff']; exact (decodeWords_err_iff L _).mpr hd
            unfold decodeMnemonic readPhrase
            simp only [hpv, Res.bind_ok, hvc, hsize, hl, hver, if_neg hv', if_neg hlen, hm, hd,
              Res.bind_err, toRes]

/-! ### Encoding -/

theorem words_plaintext (word : Nat → Bytes) {s o : Nat} (hs : s < 2 ^ 128) (ho : o < 2 ^ 31) :
    (Contents.plaintext s o).words word =
      (digitsBE 4096 14 (codeword 21 (payload0 s o))).map word := by
  have hp : payload0 s o < 2 ^ 163 := lt_trans (payload0_lt hs ho) (by norm_num)
  have hpay : (Contents.plaintext s o).payload = bits 163 (payload0 s o) := by
    rw [Contents.payload, bits_append _ _ hs, bits_append _ _ ho, payload0]
    norm_num
  have hck := checksum5_lt (beBytes 21 (payload0 s o))
  rw [Contents.words, Contents.indices, hpay, checksum_bits hp,
    show (163 + 7) / 8 = 21 from rfl, bits_append _ _ hck]
  have hg := groups_bits 12 14 (codeword 21 (payload0 s o))
  have e : payload0 s o * 2 ^ 5 + checksum5 (beBytes 21 (payload0 s o)) =
      codeword 21 (payload0 s o) := by rw [codeword]; norm_num
  rw [e, show 163 + 5 = 12 * 14 from rfl, Contents.wordCount, hg]
  norm_num

theorem words_encrypted (word : Nat → Bytes) {e s v o : Nat} (he : e < 2 ^ 128) (hs : s < 2 ^ 19)
    (hv : v < 2 ^ 5) (ho : o < 2 ^ 31) :
    (Contents.encrypted e s v o).words word =
      (digitsBE 4096 16 (codeword 24 (payload1 e s v o))).map word := by
  have hp : payload1 e s v o < 2 ^ 187 := payload1_lt he hs hv ho
  have hpay : (Contents.encrypted e s v o).payload = bits 187 (payload1 e s v o) := by
    rw [Contents.payload, bits_append _ _ he, bits_append _ _ hs, bits_append _ _ hv,
      bits_append _ _ ho, payload1]
  have hck := checksum5_lt (beBytes 24 (payload1 e s v o))
  rw [Contents.words, Contents.indices, hpay, checksum_bits hp,
    show (187 + 7) / 8 = 24 from rfl, bits_append _ _ hck]
  have hg := groups_bits 12 16 (codeword 24 (payload1 e s v o))
  have e : payload1 e s v o * 2 ^ 5 + checksum5 (beBytes 24 (payload1 e s v o)) =
      codeword 24 (payload1 e s v o) := by rw [codeword]; norm_num
  rw [e, show 187 + 5 = 12 * 16 from rfl, Contents.wordCount, hg]
  norm_num

end Verif.Model
