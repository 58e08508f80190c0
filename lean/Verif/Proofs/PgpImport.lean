import Verif.Proofs.PgpSecret
import Verif.Model.Pgp.KeySet

/-! Certifications and bindings pass the reader. -/

namespace Verif.Proofs

open Verif.Model Verif.Model.Pgp Verif.Spec.OpenPGP

/-- The expiration a reader should see. -/
def expiresView (C : Crypto) (expiry creation : Int) : Option Nat :=
  if isZero expiry then none else some (C.secondsU32 (timeSub expiry creation))

theorem priv_length {C : Crypto} (hC : C.Lawful) {seed : Bytes} (hs : seed.length = 32) :
    (seed ++ C.ed25519Pub seed).length = 64 := by
  rw [List.length_append, hs, hC.ed25519Pub_length _ hs]

theorem num_seconds {C : Crypto} (hC : C.Lawful) (d : Int) :
    num (beBytes 4 (C.secondsU32 d)) = C.secondsU32 d :=
  num_beBytes (by have := hC.seconds_lt d; norm_num at *; omega)

theorem num_u32 (x : Int) : num (beBytes 4 (u32 x)) = u32 x :=
  num_beBytes (by have := u32_lt x; norm_num at *; omega)

theorem signed_length {C : Crypto} (hC : C.Lawful) (priv : Bytes) (hp : priv.length = 64)
    (req : SignatureRequest) :
    (signed C priv req).encode.length ≤ 78 +
      ((signed C priv req).hashedSubpackets.map Subpacket.encode).flatten.length +
      ((signed C priv req).unhashedSubpackets.map Subpacket.encode).flatten.length := by
  obtain ⟨rb, sb, hr, hs, -, er, es⟩ := signed_rs hC priv hp req
  have h1 := encodeMPI_setBytes_length rb
  have h2 := encodeMPI_setBytes_length sb
  have h3 : ((signed C priv req).sigHash.take 2).length ≤ 2 := by simp
  rw [hr, ← er] at h1
  rw [hs, ← es] at h2
  simp only [Signature.encode, Signature.encodePreimage, encodeSubpackets, List.length_append,
    beBytes_length, List.length_cons, List.length_nil] at *
  omega

/-- the request of selfCertify -/
def certReq (C : Crypto) (key : EdKey) (userID : UserID) : SignatureRequest :=
  { signingKeyFingerprint := key.base.fingerprintV4 C
    hashFunction := hashFuncSHA256
    data := [publicKeyPrefixV4] ++ beBytes 2 key.base.encodePublic.length ++
      key.base.encodePublic ++ [userIDPrefix] ++ beBytes 4 userID.encode.length ++ userID.encode
    type := signatureTypePositiveCertification
    hashedSubpackets :=
      [{ type := subpacketTypeKeyFlags, body := [keyFlagCertify] }] ++
      expirySubpacket C key.expiry key.creation ++
      [{ type := subpacketTypePreferredCipherAlgorithms,
         body := [cipherAlgoAES256, cipherAlgoAES192, cipherAlgoAES128, cipherAlgoDES] },
       { type := subpacketTypePreferredHashAlgorithms,
         body := [hashFuncSHA512, hashFuncSHA384, hashFuncSHA256, hashFuncSHA224, hashFuncSHA1] },
       { type := subpacketTypePreferredCompressionAlgorithms,
         body := [compressionAlgoZLIB, compressionAlgoBZIP2, compressionAlgoZIP] },
       { type := subpacketTypeFeatures, body := [1] },
       { type := subpacketTypeKeyServerPreferences, body := [keyServerNoModifyFlag] }]
    unhashedSubpackets := []
    time := key.creation }

theorem selfCertify_eq {C : Crypto} (hC : C.Lawful) (key : EdKey) (userID : UserID) :
    key.selfCertify C userID = .ok (signed C key.priv (certReq C key userID)) := by
  unfold EdKey.selfCertify
  exact sign_eq C key.priv (certReq C key userID) (fingerprint_length hC _) rfl

theorem expirySubpacket_cases (C : Crypto) (e c : Int) :
    (isZero e = true ∧ expirySubpacket C e c = []) ∨
    (isZero e = false ∧ expirySubpacket C e c =
      [{ type := subpacketTypeExpiry, body := beBytes 4 (C.secondsU32 (timeSub e c)) }]) := by
  unfold expirySubpacket
  cases isZero e <;> simp

/-- What a reader should see of the certification. -/
def certView (C : Crypto) (creation expiry : Int) : CertInfo :=
  { info := { created := u32 (unix creation), flags := 1, expires := expiresView C expiry creation }
    ciphers := [9, 8, 7, 2]
    hashes := [10, 9, 8, 11, 2]
    compressions := [2, 3, 1]
    features := [1]
    keyServer := [128] }

theorem cert_read {C : Crypto} (hC : C.Lawful) (seed : Bytes) (hs : seed.length = 32)
    (creation expiry : Int) (uid : UserID) :
    let m := edKey C seed creation expiry
    let sig := signed C m.priv (certReq C m uid)
    readCert C (viewPublic C m.base none) m.base.encodePublic uid.encode sig.encode =
      some (certView C creation expiry) ∧ sig.encode.length < 2 ^ 32 := by
  intro m sig
  have hp := priv_length hC hs
  have hfp : (m.base.fingerprintV4 C).length = 20 := fingerprint_length hC _
  have hH : (sig.hashedSubpackets.map Subpacket.encode).flatten.length ≤ 100 := by
    rcases expirySubpacket_cases C m.expiry m.creation with ⟨-, h⟩ | ⟨-, h⟩ <;>
    simp [sig, signed, certReq, h, Subpacket.encode, packetLengthEncode, hfp]
  have hU : (sig.unhashedSubpackets.map Subpacket.encode).flatten.length ≤ 100 := by
    simp [sig, signed, certReq, Subpacket.encode, packetLengthEncode, hfp]
  have hread : readSignature sig.encode = some (viewSig sig) :=
    read_signed hC _ hp _ (lt_of_le_of_lt hH (by norm_num)) (lt_of_le_of_lt hU (by norm_num))
  have hchk : checkSignature C (viewPublic C m.base none)
      (certPreimage m.base.encodePublic uid.encode) (viewSig sig) = true := by
    have : certPreimage m.base.encodePublic uid.encode = (certReq C m uid).data := by
      simp [certPreimage, keyPreimage, certReq, octets_eq, publicKeyPrefixV4, userIDPrefix]
    rw [this]
    apply check_signed hC seed hs
    · rfl
    · rfl
    · rfl
    · intro sp hsp
      rcases expirySubpacket_cases C m.expiry m.creation with ⟨-, h⟩ | ⟨-, h⟩
      · simp only [certReq, h, List.append_nil, List.cons_append, List.nil_append, List.mem_cons,
          List.not_mem_nil, or_false] at hsp
        rcases hsp with rfl | rfl | rfl | rfl | rfl | rfl <;> decide
      · simp only [certReq, h, List.cons_append, List.nil_append, List.mem_cons,
          List.not_mem_nil, or_false] at hsp
        rcases hsp with rfl | rfl | rfl | rfl | rfl | rfl | rfl <;>
          first | decide | exact show subpacketTypeExpiry ≠ subpacketTypeIssuerFingerprint by decide
    · simp [certReq]
  refine ⟨?_, ?_⟩
  · unfold readCert
    rw [hread]
    simp only [Option.bind_eq_bind, Option.bind_some]
    rw [if_pos ⟨by rfl, hchk⟩]
    have key : (viewSig sig).hashed = [(33, keyPacketVersion :: m.base.fingerprintV4 C),
        (2, beBytes 4 (u32 (unix creation))), (27, [1])] ++
        (expirySubpacket C m.expiry m.creation).map (fun sp => (sp.type.toNat, sp.body)) ++
        [(11, [9, 8, 7, 2]), (21, [10, 9, 8, 11, 2]), (22, [2, 3, 1]), (30, [1]), (23, [128])] := by
      simp only [viewSig, sig, signed, certReq, List.map_append, List.map_cons, List.map_nil,
        List.cons_append, List.nil_append, List.append_assoc]
      rfl
    rcases expirySubpacket_cases C m.expiry m.creation with ⟨hz, h⟩ | ⟨hz, h⟩
    · rw [h] at key
      have hz' : isZero expiry = true := hz
      simp [key, sigInfo, only, num_u32, certView, expiresView, hz', num_singleton]
    · rw [h] at key
      have hz' : isZero expiry = false := hz
      have e1 : m.expiry = expiry := rfl
      have e2 : m.creation = creation := rfl
      rw [e1, e2] at key
      simp [key, sigInfo, only, num_u32, certView, expiresView, hz', num_singleton,
        subpacketTypeExpiry, num_seconds hC]
  · have := signed_length hC _ hp (certReq C m uid)
    refine lt_of_le_of_lt this ?_
    have h3 : 78 + 100 + 100 < 2 ^ 32 := by norm_num
    refine lt_of_le_of_lt ?_ h3
    exact Nat.add_le_add (Nat.add_le_add_left hH _) hU

/-! ## Bindings -/

def bindData (master sub : ECKey) : Bytes :=
  [publicKeyPrefixV4] ++ beBytes 2 master.encodePublic.length ++ master.encodePublic ++
    [publicKeyPrefixV4] ++ beBytes 2 sub.encodePublic.length ++ sub.encodePublic

/-- the request of the embedded signature -/
def crossReq (C : Crypto) (master sub : ECKey) : SignatureRequest :=
  { signingKeyFingerprint := sub.fingerprintV4 C
    hashFunction := hashFuncSHA256
    data := bindData master sub
    type := signatureTypePrimaryKeyBinding
    hashedSubpackets := []
    unhashedSubpackets := []
    time := sub.creation }

/-- the request of bindSubkey -/
def bindReq (C : Crypto) (master sub : ECKey) (flags : Byte) (expiry : Int)
    (unhashed : List Subpacket) : SignatureRequest :=
  { signingKeyFingerprint := master.fingerprintV4 C
    hashFunction := hashFuncSHA256
    data := bindData master sub
    type := signatureTypeSubkeyBinding
    hashedSubpackets := [{ type := subpacketTypeKeyFlags, body := [flags] }] ++
      expirySubpacket C expiry sub.creation
    unhashedSubpackets := unhashed
    time := sub.creation }

theorem bindSubkey_plain {C : Crypto} (hC : C.Lawful) (m : EdKey) (sub : ECKey) (flags : Byte)
    (expiry : Int) (hf : flags &&& keyFlagSign = 0) :
    m.bindSubkey C sub flags expiry = .ok (signed C m.priv (bindReq C m.base sub flags expiry [])) := by
  unfold EdKey.bindSubkey
  simp only
  rw [if_neg (by simpa using hf), Res.bind_ok]
  exact sign_eq C m.priv (bindReq C m.base sub flags expiry []) (fingerprint_length hC _) rfl

def crossSub (C : Crypto) (priv : Bytes) (master sub : ECKey) : Subpacket :=
  { type := subpacketTypeEmbeddedSignature
    body := (signed C priv (crossReq C master sub)).encode }

theorem bindSubkey_sign {C : Crypto} (hC : C.Lawful) (m : EdKey) (sub : ECKey) (priv : Bytes)
    (expiry : Int) (hsub : sub.privateSigning = some priv) :
    m.bindSubkey C sub keyFlagSign expiry =
      .ok (signed C m.priv (bindReq C m.base sub keyFlagSign expiry
        [crossSub C priv m.base sub])) := by
  unfold EdKey.bindSubkey
  simp only
  rw [if_pos (by decide)]
  simp only [hsub]
  have h1 := sign_eq C priv (crossReq C m.base sub) (fingerprint_length hC _) rfl
  have h2 := sign_eq C m.priv (bindReq C m.base sub keyFlagSign expiry
        [crossSub C priv m.base sub]) (fingerprint_length hC _) rfl
  unfold crossReq bindData at h1
  rw [h1]
  exact h2

theorem bindData_eq (master sub : ECKey) :
    bindPreimage master.encodePublic sub.encodePublic = bindData master sub := by
  simp [bindPreimage, keyPreimage, bindData, octets_eq, publicKeyPrefixV4]

def bindView (C : Crypto) (sub : ECKey) (flags : Byte) (expiry : Int) : SigInfo :=
  { created := u32 (unix sub.creation), flags := flags.toNat,
    expires := expiresView C expiry sub.creation }

theorem bind_common {C : Crypto} (hC : C.Lawful) (seed : Bytes) (hs : seed.length = 32)
    (creation expiry : Int) (sub : ECKey) (flags : Byte) (expiry' : Int) (un : List Subpacket)
    (hun : (un.map Subpacket.encode).flatten.length ≤ 200)
    (hun16 : ∀ sp ∈ un, sp.type ≠ subpacketTypeIssuer) :
    let m := edKey C seed creation expiry
    let sig := signed C m.priv (bindReq C m.base sub flags expiry' un)
    readSignature sig.encode = some (viewSig sig) ∧
    checkSignature C (viewPublic C m.base none) (bindData m.base sub) (viewSig sig) = true ∧
    sigInfo (viewSig sig) = some (bindView C sub flags expiry') ∧
    sig.encode.length < 2 ^ 32 := by
  intro m sig
  have hp := priv_length hC hs
  have hfp : (m.base.fingerprintV4 C).length = 20 := fingerprint_length hC _
  have hH : (sig.hashedSubpackets.map Subpacket.encode).flatten.length ≤ 100 := by
    rcases expirySubpacket_cases C expiry' sub.creation with ⟨-, h⟩ | ⟨-, h⟩ <;>
    simp [sig, signed, bindReq, h, Subpacket.encode, packetLengthEncode, hfp]
  have hU : (sig.unhashedSubpackets.map Subpacket.encode).flatten.length ≤ 300 := by
    have e : sig.unhashedSubpackets =
      { type := subpacketTypeIssuer, body := (m.base.fingerprintV4 C).drop 12 } :: un := rfl
    rw [e, List.map_cons, List.flatten_cons, List.length_append]
    have : (Subpacket.encode ⟨subpacketTypeIssuer, (m.base.fingerprintV4 C).drop 12⟩).length = 10 := by
      simp [Subpacket.encode, packetLengthEncode, hfp]
    omega
  refine ⟨read_signed hC _ hp _ (lt_of_le_of_lt hH (by norm_num)) (lt_of_le_of_lt hU (by norm_num)),
    ?_, ?_, ?_⟩
  · refine check_signed hC seed hs (bindReq C m.base sub flags expiry' un) _ rfl rfl rfl ?_ hun16
    intro sp hsp
    rcases expirySubpacket_cases C expiry' sub.creation with ⟨-, h⟩ | ⟨-, h⟩
    · simp only [bindReq, h, List.append_nil, List.mem_cons, List.not_mem_nil, or_false] at hsp
      rcases hsp with rfl
      exact show subpacketTypeKeyFlags ≠ subpacketTypeIssuerFingerprint by decide
    · simp only [bindReq, h, List.cons_append, List.nil_append, List.mem_cons,
        List.not_mem_nil, or_false] at hsp
      rcases hsp with rfl | rfl
      · exact show subpacketTypeKeyFlags ≠ subpacketTypeIssuerFingerprint by decide
      · exact show subpacketTypeExpiry ≠ subpacketTypeIssuerFingerprint by decide
  · have key : (viewSig sig).hashed = [(33, keyPacketVersion :: m.base.fingerprintV4 C),
        (2, beBytes 4 (u32 (unix sub.creation))), (27, [flags])] ++
        (expirySubpacket C expiry' sub.creation).map (fun sp => (sp.type.toNat, sp.body)) := by
      simp only [viewSig, sig, signed, bindReq, List.map_cons,
        List.cons_append, List.nil_append]
      rfl
    rcases expirySubpacket_cases C expiry' sub.creation with ⟨hz, h⟩ | ⟨hz, h⟩
    · rw [h] at key
      simp [key, sigInfo, only, num_u32, bindView, expiresView, hz, num_singleton]
    · rw [h] at key
      simp [key, sigInfo, only, num_u32, bindView, expiresView, hz, num_singleton,
        subpacketTypeExpiry, num_seconds hC]
  · have := signed_length hC _ hp (bindReq C m.base sub flags expiry' un)
    refine lt_of_le_of_lt this ?_
    have h3 : 78 + 100 + 300 < 2 ^ 32 := by norm_num
    refine lt_of_le_of_lt ?_ h3
    exact Nat.add_le_add (Nat.add_le_add_left hH _) hU

theorem flag_bit (flags : Byte) : (flags &&& keyFlagSign = 0) ↔ flags.toNat / 2 % 2 = 0 := by
  have := UInt8.toNat_lt flags
  rw [← UInt8.toNat_inj, UInt8.toNat_and]
  have : keyFlagSign.toNat = 2 := rfl
  rw [this]
  have h0 : (0 : UInt8).toNat = 0 := rfl
  rw [h0]
  have : flags.toNat &&& 2 = flags.toNat / 2 % 2 * 2 := by
    have : ∀ n < 256, n &&& 2 = n / 2 % 2 * 2 := by decide +kernel
    exact this _ (UInt8.toNat_lt flags)
  rw [this]
  omega

/-- A group made for a subkey that does not sign. -/
theorem subkey_plain {C : Crypto} (hC : C.Lawful) (seed : Bytes) (hs : seed.length = 32)
    (creation expiry : Int) (sub : ECKey) (kdf : Option (Nat × Nat)) (hk : KeyShape sub kdf)
    (hpl : sub.publicSerialized.length = 32) (flags : Byte) (hf : flags &&& keyFlagSign = 0)
    (expiry' : Int) (part : Bytes) (sec : Secret) (hsec : readSecret part = some sec) :
    let m := edKey C seed creation expiry
    let sig := signed C m.priv (bindReq C m.base sub flags expiry' [])
    readSubkey C (viewPublic C m.base none) m.base.encodePublic (sub.encodePublic ++ part)
      sig.encode = some { key := viewPublic C sub kdf, secret := sec,
                          binding := bindView C sub flags expiry', cross := none } := by
  intro m sig
  obtain ⟨h1, h2, h3, h4⟩ := bind_common hC seed hs creation expiry sub flags expiry' []
    (by simp) (by simp)
  have hfl : ¬ ((bindView C sub flags expiry').flags / 2 % 2 = 1) := by
    have := (flag_bit flags).mp hf
    simp only [bindView]; omega
  unfold readSubkey
  rw [readPublic_encode C sub kdf hk hpl]
  simp only [Option.bind_eq_bind, Option.bind_some]
  rw [hsec]
  simp only [Option.bind_some]
  rw [h1]
  simp only [Option.bind_some, bindData_eq]
  rw [if_pos ⟨by rfl, h2⟩, h3]
  simp only [Option.bind_some]
  rw [if_neg hfl]

/-- The group made for the signing subkey. -/
theorem subkey_sign {C : Crypto} (hC : C.Lawful) (seed : Bytes) (hs : seed.length = 32)
    (creation expiry : Int) (seed' : Bytes) (hs' : seed'.length = 32) (creation' expiry' : Int)
    (part : Bytes) (sec : Secret) (hsec : readSecret part = some sec) :
    let m := edKey C seed creation expiry
    let sub := (edKey C seed' creation' expiry').base
    let sig := signed C m.priv (bindReq C m.base sub keyFlagSign expiry'
      [crossSub C (seed' ++ C.ed25519Pub seed') m.base sub])
    readSubkey C (viewPublic C m.base none) m.base.encodePublic (sub.encodePublic ++ part)
      sig.encode = some { key := viewPublic C sub none, secret := sec,
                          binding := bindView C sub keyFlagSign expiry',
                          cross := some (u32 (unix creation')) } ∧
    sig.encode.length < 2 ^ 32 := by
  intro m sub sig
  have hfp : (sub.fingerprintV4 C).length = 20 := fingerprint_length hC _
  have hfd : ((sub.fingerprintV4 C).drop 12).length = 8 := by simp [hfp]
  have hp' := priv_length hC hs'
  have eH : ((signed C (seed' ++ C.ed25519Pub seed') (crossReq C m.base sub)).hashedSubpackets.map
      Subpacket.encode).flatten.length = 29 := by
    simp [signed, crossReq, Subpacket.encode, packetLengthEncode, hfp]
  have eU : ((signed C (seed' ++ C.ed25519Pub seed') (crossReq C m.base sub)).unhashedSubpackets.map
      Subpacket.encode).flatten.length = 10 := by
    simp [signed, crossReq, Subpacket.encode, packetLengthEncode, hfp]
  have hlen := signed_length hC _ hp' (crossReq C m.base sub)
  rw [eH, eU] at hlen
  have eread := read_signed hC _ hp' (crossReq C m.base sub) (by rw [eH]; norm_num)
    (by rw [eU]; norm_num)
  have echk := check_signed hC seed' hs' (crossReq C m.base sub) (viewPublic C sub none) rfl rfl rfl
    (by simp [crossReq]) (by simp [crossReq])
  obtain ⟨h1, h2, h3, h4⟩ := bind_common hC seed hs creation expiry sub keyFlagSign expiry'
    [crossSub C (seed' ++ C.ed25519Pub seed') m.base sub]
    (by
      simp only [List.map_cons, List.map_nil, List.flatten_cons, List.flatten_nil, List.append_nil,
        Subpacket.encode, crossSub, List.length_append, List.length_cons]
      have := (packetLengthEncode_length ((signed C (seed' ++ C.ed25519Pub seed')
        (crossReq C m.base sub)).encode.length + 1)).2
      omega)
    (by intro sp hsp; simp only [List.mem_singleton] at hsp; subst hsp
        exact show subpacketTypeEmbeddedSignature ≠ subpacketTypeIssuer by decide)
  refine ⟨?_, h4⟩
  have e32 : only 32 (viewSig sig).unhashed =
      some (signed C (seed' ++ C.ed25519Pub seed') (crossReq C m.base sub)).encode := by
    have : (viewSig sig).unhashed = [(16, (m.base.fingerprintV4 C).drop 12),
      (32, (signed C (seed' ++ C.ed25519Pub seed') (crossReq C m.base sub)).encode)] := rfl
    rw [this]; rfl
  have e2 : only 2 (viewSig (signed C (seed' ++ C.ed25519Pub seed')
      (crossReq C m.base sub))).hashed = some (beBytes 4 (u32 (unix creation'))) := by
    have : (viewSig (signed C (seed' ++ C.ed25519Pub seed') (crossReq C m.base sub))).hashed =
      [(33, keyPacketVersion :: sub.fingerprintV4 C), (2, beBytes 4 (u32 (unix creation')))] := rfl
    rw [this]; rfl
  unfold readSubkey
  rw [readPublic_encode C sub none (edKey_shape C seed' creation' expiry')
    (hC.ed25519Pub_length _ hs')]
  simp only [Option.bind_eq_bind, Option.bind_some]
  rw [hsec]
  simp only [Option.bind_some]
  rw [h1]
  simp only [Option.bind_some, bindData_eq]
  rw [if_pos ⟨by rfl, h2⟩, h3]
  simp only [Option.bind_some]
  rw [if_pos (show (bindView C sub keyFlagSign expiry').flags / 2 % 2 = 1 by
    simp [bindView, keyFlagSign]), e32]
  simp only [Option.bind_some]
  rw [eread]
  simp only [Option.bind_some]
  rw [e2]
  simp only [Option.bind_some]
  rw [if_pos ⟨by rfl, echk⟩, num_u32]

end Verif.Proofs
