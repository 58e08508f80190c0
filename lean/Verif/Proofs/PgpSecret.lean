import Verif.Proofs.PgpSign
import Mathlib.Data.List.Basic

/-! The secret part of a key packet: clear, and protected by a password. -/

namespace Verif.Proofs

open Verif.Model Verif.Model.Pgp Verif.Spec.OpenPGP

/-! ## S2K -/

theorem take_eq_map_range (l : Bytes) (n : Nat) (h : n ≤ l.length) :
    l.take n = (List.range n).map (fun i => l.getD i 0) := by
  apply List.ext_getElem
  · simp [h]
  · intro i h1 h2
    have : i < n := by simpa using h2
    simp [List.getElem?_eq_getElem (show i < l.length by omega)]

theorem repeat_eq (l : Bytes) (hl : 0 < l.length) (n : Nat) :
    (List.replicate (n / l.length) l).flatten ++ l.take (n % l.length) =
      (List.range n).map (fun i => l.getD (i % l.length) 0) := by
  induction n using Nat.strong_induction_on with
  | _ n ih =>
    by_cases h : n < l.length
    · rw [Nat.div_eq_of_lt h, Nat.mod_eq_of_lt h]
      simp only [List.replicate_zero, List.flatten_nil, List.nil_append]
      rw [take_eq_map_range l n (by omega)]
      apply List.map_congr_left
      intro i hi
      rw [List.mem_range] at hi
      rw [Nat.mod_eq_of_lt (by omega)]
    · obtain ⟨k, rfl⟩ : ∃ k, n = l.length + k := ⟨n - l.length, by omega⟩
      rw [Nat.add_div_left _ hl, Nat.add_mod_left, List.replicate_succ, List.flatten_cons,
        List.append_assoc, ih k (by omega), List.range_add, List.map_append, List.map_map]
      congr 1
      · conv_lhs => rw [← List.take_length (l := l)]
        rw [take_eq_map_range l l.length le_rfl]
        apply List.map_congr_left
        intro i hi
        rw [List.mem_range] at hi
        rw [Nat.mod_eq_of_lt hi]
      · apply List.map_congr_left
        intro i _
        simp

theorem s2kPreimage_eq (password salt : Bytes) (n : Nat) (h0 : 0 < (salt ++ password).length)
    (h : (salt ++ password).length ≤ n) : s2kPreimage password salt n = s2kOctets salt password n := by
  simp only [s2kPreimage, s2kOctets, max_eq_left h]
  exact repeat_eq _ h0 n

/-! ## CFB -/

theorem zip_xor_cancel (a k : Bytes) (h : a.length ≤ k.length) :
    List.zipWith (· ^^^ ·) (List.zipWith (· ^^^ ·) a k) k = a := by
  induction a generalizing k with
  | nil => simp
  | cons x a ih =>
    cases k with
    | nil => simp at h
    | cons y k =>
      simp only [List.zipWith_cons_cons, ih k (by simpa using h)]
      congr 1
      rw [UInt8.xor_assoc, UInt8.xor_self, UInt8.xor_zero]

theorem cfb_length (E : Bytes → Bytes) (hE : ∀ b : Bytes, b.length = 16 → (E b).length = 16)
    (fuel : Nat) (iv src : Bytes) (hiv : iv.length = 16) (hf : src.length ≤ fuel) :
    (cfbEncryptLoop E fuel iv src).length = src.length := by
  induction fuel generalizing iv src with
  | zero =>
    have : src = [] := List.length_eq_zero_iff.mp (by omega)
    simp [cfbEncryptLoop, this]
  | succ fuel ih =>
    by_cases hs : src = []
    · simp [cfbEncryptLoop, hs]
    · have hpos : 0 < src.length := List.length_pos_of_ne_nil hs
      have hb : (List.zipWith (· ^^^ ·) (src.take 16) (E iv)).length = min 16 src.length := by
        simp [hE iv hiv]
      simp only [cfbEncryptLoop, if_neg hs]
      by_cases h16 : src.length ≤ 16
      · have hd : src.drop 16 = [] := List.drop_eq_nil_of_le h16
        have : ∀ iv, cfbEncryptLoop E fuel iv [] = [] := by intro iv; cases fuel <;> simp [cfbEncryptLoop]
        rw [hd, this, List.append_nil, hb]; omega
      · rw [List.length_append, ih _ _ (by rw [hb]; omega) (by simp; omega), hb]
        simp; omega

theorem cfb_roundtrip (E : Bytes → Bytes) (hE : ∀ b : Bytes, b.length = 16 → (E b).length = 16)
    (fuel : Nat) (iv src : Bytes) (hiv : iv.length = 16) (hf : src.length ≤ fuel) :
    ∀ fuel', src.length ≤ fuel' → cfbDecryptFuel E fuel' iv (cfbEncryptLoop E fuel iv src) = src := by
  induction fuel generalizing iv src with
  | zero =>
    intro fuel' _
    have : src = [] := List.length_eq_zero_iff.mp (by omega)
    subst this
    cases fuel' <;> simp [cfbEncryptLoop, cfbDecryptFuel]
  | succ fuel ih =>
    intro fuel' hf'
    by_cases hs : src = []
    · subst hs
      cases fuel' <;> simp [cfbEncryptLoop, cfbDecryptFuel]
    · have hpos : 0 < src.length := List.length_pos_of_ne_nil hs
      obtain ⟨f', rfl⟩ : ∃ k, fuel' = k + 1 := ⟨fuel' - 1, by omega⟩
      have hb : (List.zipWith (· ^^^ ·) (src.take 16) (E iv)).length = min 16 src.length := by
        simp [hE iv hiv]
      have hx := zip_xor_cancel (src.take 16) (E iv) (by rw [hE iv hiv]; simp)
      simp only [cfbEncryptLoop, if_neg hs]
      generalize List.zipWith (· ^^^ ·) (src.take 16) (E iv) = blk at *
      have hne : blk ++ cfbEncryptLoop E fuel blk (src.drop 16) ≠ [] := by
        intro hc
        have := congrArg List.length hc
        simp only [List.length_append, hb, List.length_nil] at this
        omega
      simp only [cfbDecryptFuel, if_neg hne]
      by_cases h16 : src.length ≤ 16
      · have hd : src.drop 16 = [] := List.drop_eq_nil_of_le h16
        have : ∀ iv, cfbEncryptLoop E fuel iv [] = [] := by intro iv; cases fuel <;> simp [cfbEncryptLoop]
        have h2 : ∀ iv, cfbDecryptFuel E f' iv [] = [] := by intro iv; cases f' <;> simp [cfbDecryptFuel]
        rw [hd, this, List.append_nil, List.take_of_length_le (by omega),
          List.drop_eq_nil_of_le (by omega), h2, List.append_nil, hx, List.take_of_length_le h16]
      · have hbl : blk.length = 16 := by rw [hb]; omega
        rw [List.take_left' hbl, List.drop_left' hbl, hx,
          ih blk (src.drop 16) hbl (by simp; omega) f' (by simp; omega), List.take_append_drop]

/-! ## Clear secret part -/

def clearPart (priv : Bytes) : Bytes :=
  0 :: encodeMPI (setBytes priv : Int) ++ checksumMPI (encodeMPI (setBytes priv : Int))

theorem encodePrivate_clear (C : Crypto) (key : ECKey) (rnd : Bytes) :
    key.encodePrivate C [] rnd = .ok (key.encodePublic ++ clearPart key.privateSerialized, rnd) := by
  simp [ECKey.encodePrivate, clearPart]

theorem readSecret_clearPart (priv : Bytes) (h : priv.length = 32) :
    readSecret (clearPart priv) = some (.clear (num priv)) := by
  rw [num_eq]
  apply readSecret_clear
  have := setBytes_size_le priv
  omega

theorem clearPart_length (priv : Bytes) : (clearPart priv).length ≤ 5 + priv.length := by
  have := encodeMPI_setBytes_length priv
  simp only [clearPart, List.length_cons, List.length_append, checksumMPI, beBytes_length]
  omega

/-! ## Protected secret part -/

/-- What is encrypted: the MPI and its SHA-1. -/
def lockedPlain (C : Crypto) (priv : Bytes) : Bytes :=
  encodeMPI (setBytes priv : Int) ++ C.sha1 (encodeMPI (setBytes priv : Int))

def lockedData (C : Crypto) (priv password rnd : Bytes) : Bytes :=
  cfbEncrypt (C.aes256Enc (C.sha256 (s2kPreimage password (rnd.take 8) 65011712)))
    ((rnd.drop 8).take 16) (lockedPlain C priv)

def lockedPart (C : Crypto) (priv password rnd : Bytes) : Bytes :=
  [254, 9, 3, 8] ++ rnd.take 8 ++ [255] ++ (rnd.drop 8).take 16 ++ lockedData C priv password rnd

theorem countMax : s2kCountDecode s2kCountMaximum = 65011712 := by decide
theorem countMax' : s2kCount (255 : Byte).toNat = 65011712 := by decide

theorem encryptS2K_eq {C : Crypto} (hC : C.Lawful) (priv password rnd : Bytes)
    (h : 24 ≤ rnd.length) :
    encryptS2K C defaultStringToKeyHashFunc priv password rnd =
      .ok (lockedPart C priv password rnd, rnd.drop 24) := by
  have h1 : randRead rnd 8 = .ok (rnd.take 8, rnd.drop 8) := by
    simp [randRead]; omega
  have h2 : randRead (rnd.drop 8) 16 = .ok ((rnd.drop 8).take 16, rnd.drop 24) := by
    unfold randRead
    rw [if_neg (by simp; omega), List.drop_drop]
  have h3 : ∀ n, stringToKey C defaultStringToKeyHashFunc password (rnd.take 8) n =
      .ok (C.sha256 (s2kPreimage password (rnd.take 8) n)) := by
    intro n
    unfold stringToKey
    rw [if_neg (by simp; intro hh; simp [hh] at h)]
    rfl
  have h4 : ∀ m, aesNewCipher C (C.sha256 m) = .ok (C.aes256Enc (C.sha256 m)) := by
    intro m
    simp [aesNewCipher, hC.sha256_length]
  unfold encryptS2K
  rw [h1, Res.bind_ok]
  dsimp only
  rw [h2, Res.bind_ok]
  dsimp only
  rw [countMax, h3, Res.bind_ok, h4, Res.bind_ok]
  rfl

theorem encodePrivate_locked {C : Crypto} (hC : C.Lawful) (key : ECKey) (password rnd : Bytes)
    (hp : password ≠ []) (h : 24 ≤ rnd.length) :
    key.encodePrivate C password rnd =
      .ok (key.encodePublic ++ lockedPart C key.privateSerialized password rnd, rnd.drop 24) := by
  unfold ECKey.encodePrivate
  rw [if_pos (List.length_pos_of_ne_nil hp), encryptS2K_eq hC _ _ _ h]
  rfl

theorem lockedPlain_length {C : Crypto} (hC : C.Lawful) (priv : Bytes) :
    (lockedPlain C priv).length ≤ 22 + priv.length := by
  have := encodeMPI_setBytes_length priv
  simp only [lockedPlain, List.length_append, hC.sha1_length]
  omega

theorem lockedPart_length {C : Crypto} (hC : C.Lawful) (priv password rnd : Bytes)
    (h : 24 ≤ rnd.length) : (lockedPart C priv password rnd).length ≤ 51 + priv.length := by
  have h1 := lockedPlain_length hC priv
  have h2 : (lockedData C priv password rnd).length = (lockedPlain C priv).length := by
    apply cfb_length _ _ _ _ _ (by simp; omega) le_rfl
    intro b hb
    exact hC.aes256_length _ _ (hC.sha256_length _) hb
  simp only [lockedPart, List.length_append, List.length_take, List.length_drop, h2,
    List.length_cons, List.length_nil]
  omega

/-- What a reader sees of a protected secret. -/
def lockedView (C : Crypto) (priv password rnd : Bytes) : Secret :=
  .locked 9 8 (rnd.take 8) 65011712 ((rnd.drop 8).take 16) (lockedData C priv password rnd)

theorem readSecret_lockedPart (C : Crypto) (priv password rnd : Bytes) (h : 24 ≤ rnd.length) :
    readSecret (lockedPart C priv password rnd) = some (lockedView C priv password rnd) := by
  have := readSecret_locked 9 8 255 (rnd.take 8) ((rnd.drop 8).take 16)
    (lockedData C priv password rnd) (by simp; omega) (by simp; omega)
  rw [countMax'] at this
  exact this

theorem openSecret_lockedView {C : Crypto} (hC : C.Lawful) (priv password rnd : Bytes)
    (hpl : priv.length = 32) (h : 24 ≤ rnd.length) (hpw : password.length ≤ 65011704) :
    openSecret C password (lockedView C priv password rnd) = some (num priv) := by
  have hpre : s2kPreimage password (rnd.take 8) 65011712 =
      s2kOctets (rnd.take 8) password 65011712 :=
    s2kPreimage_eq _ _ _ (by simp; omega)
      (by rw [List.length_append, List.length_take]; omega)
  simp only [lockedView, openSecret, ← hpre]
  rw [if_pos ⟨trivial, trivial⟩]
  have hdec : cfbDecrypt (C.aes256Enc (C.sha256 (s2kPreimage password (rnd.take 8) 65011712)))
      ((rnd.drop 8).take 16) (lockedData C priv password rnd) = lockedPlain C priv := by
    have hE : ∀ b : Bytes, b.length = 16 → (C.aes256Enc (C.sha256
        (s2kPreimage password (rnd.take 8) 65011712)) b).length = 16 :=
      fun b hb => hC.aes256_length _ _ (hC.sha256_length _) hb
    have hivl : ((rnd.drop 8).take 16).length = 16 := by simp; omega
    unfold cfbDecrypt lockedData cfbEncrypt
    rw [cfb_length _ hE _ _ _ hivl le_rfl]
    exact cfb_roundtrip _ hE _ _ _ hivl le_rfl _ le_rfl
  rw [hdec]
  unfold lockedPlain
  rw [readMPI_encode _ (by have := setBytes_size_le priv; omega)]
  simp only [Option.bind_eq_bind, Option.bind_some]
  rw [List.length_append, Nat.add_sub_cancel, List.take_left' rfl, if_pos rfl, num_eq]

end Verif.Proofs
