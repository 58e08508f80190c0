import Verif.Proofs.PgpKeys

/-! Signatures made by the code pass the reader's check. -/

namespace Verif.Proofs

open Verif.Model Verif.Model.Pgp Verif.Spec.OpenPGP

/-- Closed form of a key made by `newEdKey`. -/
def edKey (C : Crypto) (seed : Bytes) (creation expiry : Int) : EdKey :=
  { base := {
      privateSerialized := seed
      publicSerialized := C.ed25519Pub seed
      privateSigning := some (seed ++ C.ed25519Pub seed)
      publicSigning := some (C.ed25519Pub seed)
      creation := creation
      algorithm := keyAlgorithmEDDSA
      curveOID := Pgp.oidED25519
      extraPublicData := none }
    priv := seed ++ C.ed25519Pub seed
    pub := C.ed25519Pub seed
    creation := creation
    expiry := expiry }

theorem newEdKey_eq (C : Crypto) (seed : Bytes) (h : seed.length = 32) (creation expiry : Int) :
    newEdKey C seed creation expiry = .ok (edKey C seed creation expiry) := by
  have e : (seed ++ C.ed25519Pub seed).take 32 = seed := by rw [← h]; simp
  unfold newEdKey
  rw [if_neg (by simpa using h)]
  simp only [e]
  rfl

theorem modify_length (l : Bytes) (i : Nat) (f : Byte → Byte) : (l.modify i f).length = l.length := by
  simp

theorem reverseLoop_get (l : Bytes) (i : Nat) (hi : i ≤ l.length) :
    (reverseLoop l i).length = l.length ∧
    ∀ j, j < l.length → (reverseLoop l i).getD j 0 =
      if l.length - i ≤ j then l.getD (l.length - 1 - j) 0 else 0 := by
  induction i with
  | zero =>
    refine ⟨by simp [reverseLoop], ?_⟩
    intro j hj
    have : ¬ (l.length - 0 ≤ j) := by omega
    rw [if_neg this]
    simp [reverseLoop, List.getD_eq_getElem?_getD, hj]
  | succ i ih =>
    obtain ⟨h1, h2⟩ := ih (by omega)
    refine ⟨by simp [reverseLoop, h1], ?_⟩
    intro j hj
    have := h2 j hj
    simp only [reverseLoop, List.getD_eq_getElem?_getD, List.getElem?_set] at *
    by_cases hji : l.length - i - 1 = j
    · rw [if_pos hji, if_pos (by rw [h1]; omega), if_pos (by omega)]
      simp only [Option.getD_some]
      congr 2; omega
    · rw [if_neg hji, this]
      by_cases h3 : l.length - i ≤ j
      · rw [if_pos h3, if_pos (by omega)]
      · rw [if_neg h3, if_neg (by omega)]

theorem reverse_eq (l : Bytes) : Pgp.reverse l = l.reverse := by
  obtain ⟨h1, h2⟩ := reverseLoop_get l l.length le_rfl
  apply List.ext_getElem
  · simp [Pgp.reverse, h1]
  · intro j hj1 hj2
    have hj : j < l.length := by simpa using hj2
    have := h2 j hj
    rw [if_pos (by omega)] at this
    simp only [Pgp.reverse, List.getElem_reverse]
    rw [List.getD_eq_getElem _ _ (by omega), List.getD_eq_getElem _ _ (by omega)] at this
    exact this

/-- Closed form of a key made by `newCurveKey` with nil parameters. -/
def curveKey (C : Crypto) (seed : Bytes) (creation expiry : Int) : CurveKey :=
  { base := {
      privateSerialized := (clampScalar seed).reverse
      publicSerialized := C.x25519Base seed
      privateSigning := none
      publicSigning := none
      creation := creation
      algorithm := keyAlgorithmECDH
      curveOID := Pgp.oidCurve25519
      extraPublicData := some defaultKDFParameters.encode }
    priv := clampScalar seed
    pub := C.x25519Base seed
    creation := creation
    expiry := expiry
    kdf := defaultKDFParameters }

theorem clamp_steps (seed : Bytes) :
    (((seed.modify 0 (fun b => b &&& 248)).modify 31 (fun b => b &&& 127)).modify 31
      (fun b => b ||| 64)) = clampScalar seed := by
  apply List.ext_getElem
  · simp [clampScalar]
  · intro i h1 h2
    simp only [clampScalar, List.getElem_modify]
    by_cases h31 : 31 = i
    · simp [h31]
    · simp [h31]

theorem newCurveKey_eq (C : Crypto) (seed : Bytes) (h : seed.length = 32) (creation expiry : Int) :
    newCurveKey C seed creation expiry none = .ok (curveKey C seed creation expiry) := by
  unfold newCurveKey
  rw [if_neg (by simpa using h)]
  simp only [clamp_steps, reverse_eq]
  rfl

theorem edKey_shape (C : Crypto) (seed : Bytes) (c e : Int) : KeyShape (edKey C seed c e).base none :=
  KeyShape.eddsa _ rfl rfl rfl

theorem curveKey_shape (C : Crypto) (seed : Bytes) (c e : Int) :
    KeyShape (curveKey C seed c e).base (some (8, 7)) :=
  KeyShape.ecdh _ defaultKDFParameters rfl rfl rfl

theorem fingerprint_length {C : Crypto} (hC : C.Lawful) (key : ECKey) :
    (key.fingerprintV4 C).length = 20 := hC.sha1_length _

/-- Closed form of a signature made by `sign` with SHA-256. -/
def signed (C : Crypto) (priv : Bytes) (req : SignatureRequest) : Signature :=
  let hashed : List Subpacket :=
    [{ type := subpacketTypeIssuerFingerprint,
       body := keyPacketVersion :: req.signingKeyFingerprint },
     { type := subpacketTypeCreationTime, body := beBytes 4 (u32 (unix req.time)) }] ++
      req.hashedSubpackets
  let preimage : Bytes := [sigPacketVersion, req.type, keyAlgorithmEDDSA, hashFuncSHA256] ++
    encodeSubpackets hashed
  let h := C.sha256 (req.data ++ preimage ++ signatureTrailer ++ beBytes 4 preimage.length)
  { hashedSubpackets := hashed
    unhashedSubpackets :=
      { type := subpacketTypeIssuer, body := req.signingKeyFingerprint.drop 12 } ::
        req.unhashedSubpackets
    type := req.type
    hashFunction := hashFuncSHA256
    sigHash := h
    r := (setBytes ((C.ed25519Sign priv h).take 32) : Int)
    s := (setBytes ((C.ed25519Sign priv h).drop 32) : Int) }

theorem sign_eq (C : Crypto) (priv : Bytes) (req : SignatureRequest)
    (hf : req.signingKeyFingerprint.length = 20) (hh : req.hashFunction = hashFuncSHA256) :
    sign C priv req = .ok (signed C priv req) := by
  unfold sign
  simp only [hf]
  rw [if_neg (by norm_num)]
  simp only [hh, hashNew, if_true]
  rfl

theorem setBytes_size_le (b : Bytes) : (setBytes b).size ≤ 8 * b.length := by
  rw [Nat.size_le]
  have := setBytes_lt b
  rwa [show (256 : Nat) = 2 ^ 8 by norm_num, ← pow_mul] at this

theorem encodeMPI_setBytes_length (b : Bytes) :
    (encodeMPI (setBytes b : Int)).length ≤ 2 + b.length := by
  rw [encodeMPI_length, bitLen_natCast]
  have := setBytes_size_le b
  omega

theorem signed_rs {C : Crypto} (hC : C.Lawful) (priv : Bytes) (hp : priv.length = 64)
    (req : SignatureRequest) :
    ∃ rb sb : Bytes, rb.length = 32 ∧ sb.length = 32 ∧
      rb ++ sb = C.ed25519Sign priv (signed C priv req).sigHash ∧
      (signed C priv req).r = (setBytes rb : Int) ∧ (signed C priv req).s = (setBytes sb : Int) := by
  have hl := hC.ed25519Sign_length priv (signed C priv req).sigHash hp
  exact ⟨_, _, by rw [List.length_take, hl]; rfl, by rw [List.length_drop, hl],
    List.take_append_drop 32 _, rfl, rfl⟩

theorem read_signed {C : Crypto} (hC : C.Lawful) (priv : Bytes) (hp : priv.length = 64)
    (req : SignatureRequest)
    (h1 : ((signed C priv req).hashedSubpackets.map Subpacket.encode).flatten.length < 65536)
    (h2 : ((signed C priv req).unhashedSubpackets.map Subpacket.encode).flatten.length < 65536) :
    readSignature (signed C priv req).encode = some (viewSig (signed C priv req)) := by
  obtain ⟨rb, sb, hr, hs, -, er, es⟩ := signed_rs hC priv hp req
  apply readSignature_encode _ _ _ er es _ _ _ h1 h2
  · have := setBytes_size_le rb; omega
  · have := setBytes_size_le sb; omega
  · simp [signed, hC.sha256_length]

theorem octets_setBytes {b : Bytes} {n : Nat} (h : b.length = n) : octets n (setBytes b) = b := by
  rw [octets_eq, ← h, beBytes_setBytes]

theorem check_signed {C : Crypto} (hC : C.Lawful) (seed : Bytes) (hs : seed.length = 32)
    (req : SignatureRequest) (key : PublicKey) 
    (ha : key.algorithm = 22) (hpt : key.point = C.ed25519Pub seed)
    (hfp : key.fingerprint = req.signingKeyFingerprint)
    (h33 : ∀ sp ∈ req.hashedSubpackets, sp.type ≠ subpacketTypeIssuerFingerprint)
    (h16 : ∀ sp ∈ req.unhashedSubpackets, sp.type ≠ subpacketTypeIssuer) :
    checkSignature C key req.data (viewSig (signed C (seed ++ C.ed25519Pub seed) req)) = true := by
  have hpl : (seed ++ C.ed25519Pub seed).length = 64 := by
    rw [List.length_append, hs, hC.ed25519Pub_length _ hs]
  obtain ⟨rb, sb, hr, hsl, ers, er, es⟩ := signed_rs hC _ hpl req
  have hver := hC.ed25519_verify seed (signed C (seed ++ C.ed25519Pub seed) req).sigHash hs
  rw [← ers] at hver
  have hrl := setBytes_lt rb
  have hsl' := setBytes_lt sb
  rw [hr] at hrl
  rw [hsl] at hsl'
  have hH : C.sha256 (req.data ++ (viewSig (signed C (seed ++ C.ed25519Pub seed) req)).hashedPart ++
      [0x04, 0xFF] ++ octets 4 (viewSig (signed C (seed ++ C.ed25519Pub seed) req)).hashedPart.length)
      = (signed C (seed ++ C.ed25519Pub seed) req).sigHash := by
    rw [octets_eq]; rfl
  unfold checkSignature
  simp only [hH]
  have f33 : only 33 (viewSig (signed C (seed ++ C.ed25519Pub seed) req)).hashed =
      some (4 :: key.fingerprint) := by
    have : List.filter (fun p => p.1 == 33)
        (req.hashedSubpackets.map (fun sp => (sp.type.toNat, sp.body))) = [] := by
      rw [List.filter_eq_nil_iff]
      intro p hp
      obtain ⟨sp, hsp, rfl⟩ := List.mem_map.mp hp
      have := h33 sp hsp
      simp only [beq_iff_eq]
      intro hc
      exact this (UInt8.toNat_inj.mp hc)
    simp only [viewSig, signed, only, List.map_append, List.filter_append, this]
    rw [hfp]
    rfl
  have f16 : only 16 (viewSig (signed C (seed ++ C.ed25519Pub seed) req)).unhashed =
      some (key.fingerprint.drop 12) := by
    have : List.filter (fun p => p.1 == 16)
        (req.unhashedSubpackets.map (fun sp => (sp.type.toNat, sp.body))) = [] := by
      rw [List.filter_eq_nil_iff]
      intro p hp
      obtain ⟨sp, hsp, rfl⟩ := List.mem_map.mp hp
      have := h16 sp hsp
      simp only [beq_iff_eq]
      intro hc
      exact this (UInt8.toNat_inj.mp hc)
    simp only [viewSig, signed, only, List.map_cons]
    rw [List.filter_cons_of_pos (by rfl), this, hfp]
  have eR : (viewSig (signed C (seed ++ C.ed25519Pub seed) req)).r = setBytes rb := by
    simp [viewSig, er]
  have eS : (viewSig (signed C (seed ++ C.ed25519Pub seed) req)).s = setBytes sb := by
    simp [viewSig, es]
  rw [f33, f16, eR, eS, octets_setBytes hr, octets_setBytes hsl, hpt, hver, ha]
  norm_num at hrl hsl'
  simp [hrl, hsl', viewSig, signed, hashFuncSHA256]

end Verif.Proofs
