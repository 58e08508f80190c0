import Verif.Proofs.PgpPacket
import Verif.Model.Pgp.Keys

/-! The reader undoes public keys, secret parts and signatures. -/

namespace Verif.Proofs

open Verif.Model Verif.Model.Pgp Verif.Spec.OpenPGP

theorem u32_lt (x : Int) : u32 x < 2 ^ 32 := by
  simp only [u32]; omega

theorem num_singleton (b : Byte) : num [b] = b.toNat := by simp [num]

theorem split_one (x : Byte) (b : Bytes) : split 1 ([x] ++ b) = some ([x], b) :=
  split_append [x] b rfl

theorem setBytes_cons (x : Byte) (b : Bytes) :
    setBytes (x :: b) = x.toNat * 256 ^ b.length + setBytes b := by
  have := setBytes_append [x] b
  simpa [setBytes] using this

/-- The two kinds of public key the code makes, with what a reader should see as KDF. -/
inductive KeyShape : ECKey → Option (Nat × Nat) → Prop where
  | eddsa (key : ECKey) : key.algorithm = keyAlgorithmEDDSA → key.curveOID = Pgp.oidED25519 →
      key.extraPublicData = none → KeyShape key none
  | ecdh (key : ECKey) (kdf : KeyDerivationParameters) : key.algorithm = keyAlgorithmECDH →
      key.curveOID = Pgp.oidCurve25519 → key.extraPublicData = some kdf.encode →
      KeyShape key (some (kdf.hashFunction.toNat, kdf.cipherAlgorithm.toNat))

/-- What a reader should see for the key. -/
def viewPublic (C : Crypto) (key : ECKey) (kdf : Option (Nat × Nat)) : PublicKey :=
  { created := u32 (unix key.creation), algorithm := key.algorithm.toNat, oid := key.curveOID,
    point := key.publicSerialized, kdf := kdf, fingerprint := key.fingerprintV4 C }

theorem point_value (pub : Bytes) (h : pub.length = 32) :
    setBytes (mpiPrefixEddsaPoint :: pub) / 256 ^ 32 = 0x40 ∧
    setBytes (mpiPrefixEddsaPoint :: pub) % 256 ^ 32 = setBytes pub ∧
    (setBytes (mpiPrefixEddsaPoint :: pub)).size = 263 := by
  have hl := setBytes_lt pub
  rw [h] at hl
  have e : setBytes (mpiPrefixEddsaPoint :: pub) = 0x40 * 256 ^ 32 + setBytes pub := by
    rw [setBytes_cons, h]; rfl
  rw [e]
  refine ⟨by omega, by omega, ?_⟩
  apply le_antisymm
  · rw [Nat.size_le]; norm_num at hl ⊢; omega
  · apply Nat.lt_size.mpr; norm_num; omega

theorem readPublic_encode (C : Crypto) (key : ECKey) (kdf : Option (Nat × Nat))
    (hk : KeyShape key kdf) (hp : key.publicSerialized.length = 32) (rest : Bytes) :
    readPublic C (key.encodePublic ++ rest) =
      some (viewPublic C key kdf, key.encodePublic, rest) := by
  have hpt := point_value _ hp
  have htake : (key.encodePublic ++ rest).take
      ((key.encodePublic ++ rest).length - rest.length) = key.encodePublic := by
    rw [List.length_append, Nat.add_sub_cancel, List.take_left']
    rfl
  have hoid : (UInt8.ofNat key.curveOID.length).toNat = key.curveOID.length := by
    cases hk <;> simp_all [Pgp.oidED25519, Pgp.oidCurve25519]
  have hfp : C.sha1 (keyPreimage key.encodePublic) = key.fingerprintV4 C := by
    simp [keyPreimage, ECKey.fingerprintV4, octets_eq, publicKeyPrefixV4]
  have e : key.encodePublic ++ rest = [keyPacketVersion] ++ (beBytes 4 (u32 (unix key.creation)) ++
      ([key.algorithm] ++ ([UInt8.ofNat key.curveOID.length] ++ (key.curveOID ++
      (encodeMPI (setBytes (mpiPrefixEddsaPoint :: key.publicSerialized) : Int) ++
      (key.extraPublicData.getD [] ++ rest)))))) := by simp [ECKey.encodePublic]
  generalize hb : key.encodePublic ++ rest = b at *
  subst e
  unfold readPublic
  rw [split_one]
  simp only [Option.bind_eq_bind, Option.bind_some]
  rw [split_append _ _ (beBytes_length 4 _).symm]
  simp only [Option.bind_some]
  rw [split_one]
  simp only [Option.bind_some]
  rw [split_one]
  simp only [Option.bind_some, num_singleton, hoid]
  rw [split_append key.curveOID _ rfl]
  simp only [Option.bind_some]
  rw [readMPI_encode _ (by rw [hpt.2.2]; norm_num)]
  simp only [Option.bind_some]
  rw [if_neg (by rw [hpt.1]; simp [keyPacketVersion])]
  have e1 : num (beBytes 4 (u32 (unix key.creation))) = u32 (unix key.creation) :=
    num_beBytes (by have := u32_lt (unix key.creation); norm_num at *; omega)
  rw [hpt.2.1]
  have e2 : octets 32 (setBytes key.publicSerialized) = key.publicSerialized := by
    rw [octets_eq, ← hp, beBytes_setBytes]
  cases hk with
  | eddsa ha ho he =>
    rw [if_pos ⟨by rw [ha]; rfl, by rw [ho]; rfl⟩]
    simp only [he, Option.getD_none, List.nil_append] at htake
    simp only [Option.bind_some, he, Option.getD_none, List.nil_append, e1, e2]
    rw [htake, hfp]
    rfl
  | ecdh kdf' ha ho he =>
    rw [if_neg (by rw [ha]; simp [keyAlgorithmECDH]), if_pos ⟨by rw [ha]; rfl, by rw [ho]; rfl⟩]
    simp only [he, Option.getD_some, KeyDerivationParameters.encode, List.cons_append,
      List.nil_append] at htake
    simp only [he, Option.getD_some, KeyDerivationParameters.encode, List.cons_append,
      List.nil_append, Option.bind_some, e1, e2]
    rw [htake, hfp]
    rfl

theorem encodePublic_length (key : ECKey) (kdf : Option (Nat × Nat)) (hk : KeyShape key kdf)
    (hp : key.publicSerialized.length = 32) : key.encodePublic.length ≤ 56 := by
  have hpt := (point_value _ hp).2.2
  cases hk with
  | eddsa ha ho he =>
    simp [ECKey.encodePublic, encodeMPI_length, he, ho, Pgp.oidED25519, hpt]
  | ecdh kdf' ha ho he =>
    simp [ECKey.encodePublic, encodeMPI_length, he, ho, Pgp.oidCurve25519, hpt,
      KeyDerivationParameters.encode]

/-! ## Secret part -/

theorem readSecret_clear (v : Nat) (h : v.size < 65536) :
    readSecret (0 :: encodeMPI (v : Int) ++ checksumMPI (encodeMPI (v : Int))) =
      some (.clear v) := by
  simp only [List.cons_append, readSecret]
  rw [readMPI_encode v h]
  simp only [Option.bind_eq_bind, Option.bind_some]
  rw [List.length_append, Nat.add_sub_cancel, List.take_left' rfl, checksumMPI_eq]
  simp

theorem readSecret_stub :
    readSecret ([stringToKeySpecifierPrefix, 0, s2kExtensionGNUDummy, 0] ++ s2kGNUExtensionID ++
      [s2kExtensionGNUDummy - 100]) = some .stub := by
  decide

theorem readSecret_locked (cipher hash count : Byte) (salt iv data : Bytes) (hs : salt.length = 8)
    (hi : iv.length = 16) :
    readSecret ([254, cipher, 3, hash] ++ salt ++ [count] ++ iv ++ data) =
      some (.locked cipher.toNat hash.toNat salt (s2kCount count.toNat) iv data) := by
  simp only [List.cons_append, List.nil_append, List.append_assoc, readSecret]
  rw [split_append salt _ hs.symm]
  simp only [Option.bind_eq_bind, Option.bind_some]
  rw [show count :: (iv ++ data) = [count] ++ (iv ++ data) from rfl, split_one]
  simp only [Option.bind_some]
  rw [split_append iv _ hi.symm]
  simp [num_singleton]

/-! ## Subpackets -/

theorem packetLengthEncode_length (n : Nat) :
    1 ≤ (packetLengthEncode n).length ∧ (packetLengthEncode n).length ≤ 5 := by
  unfold packetLengthEncode
  split
  · simp
  · split <;> simp

theorem subpacket_ne (sp : Subpacket) (r : Bytes) : sp.encode ++ r ≠ [] := by
  intro h
  have := congrArg List.length h
  have := (packetLengthEncode_length (sp.body.length + 1)).1
  simp [Subpacket.encode] at *

theorem readSubpackets_encode (sps : List Subpacket)
    (h : ∀ sp ∈ sps, sp.body.length + 1 < 2 ^ 32) (fuel : Nat) (hf : sps.length ≤ fuel) :
    readSubpacketsFuel fuel (sps.map Subpacket.encode).flatten =
      some (sps.map (fun sp => (sp.type.toNat, sp.body))) := by
  induction sps generalizing fuel with
  | nil => cases fuel <;> simp [readSubpacketsFuel]
  | cons sp sps ih =>
    cases fuel with
    | zero => simp at hf
    | succ fuel =>
      simp only [List.map_cons, List.flatten_cons, readSubpacketsFuel]
      rw [if_neg (subpacket_ne _ _)]
      simp only [Subpacket.encode, List.append_assoc]
      rw [readSubLength_encode _ (h sp (by simp))]
      simp only [Option.bind_eq_bind, Option.bind_some]
      rw [split_append (sp.type :: sp.body) _ (by simp)]
      simp only [Option.bind_some]
      rw [ih (fun q hq => h q (by simp [hq])) fuel (by simpa using hf)]
      simp

theorem subpackets_length (sps : List Subpacket) :
    sps.length ≤ (sps.map Subpacket.encode).flatten.length := by
  induction sps with
  | nil => simp
  | cons sp sps ih =>
    have := (packetLengthEncode_length (sp.body.length + 1)).1
    have h2 : 1 ≤ sp.encode.length := by simp [Subpacket.encode]; omega
    simp only [List.map_cons, List.flatten_cons, List.length_append, List.length_cons]
    omega

theorem subpacket_body_le (sps : List Subpacket) (sp : Subpacket) (h : sp ∈ sps) :
    sp.body.length + 2 ≤ (sps.map Subpacket.encode).flatten.length := by
  induction sps with
  | nil => simp at h
  | cons q sps ih =>
    have := (packetLengthEncode_length (q.body.length + 1)).1
    rcases List.mem_cons.mp h with rfl | h
    · simp only [List.map_cons, List.flatten_cons, List.length_append, Subpacket.encode,
        List.length_cons]
      omega
    · have := ih h
      simp only [List.map_cons, List.flatten_cons, List.length_append]
      omega

theorem readArea_encode (sps : List Subpacket)
    (h : (sps.map Subpacket.encode).flatten.length < 65536) (rest : Bytes) :
    readArea (encodeSubpackets sps ++ rest) =
      some (sps.map (fun sp => (sp.type.toNat, sp.body)), rest) := by
  simp only [readArea, encodeSubpackets, List.append_assoc]
  rw [split_append _ _ (beBytes_length 2 _).symm]
  simp only [Option.bind_eq_bind, Option.bind_some]
  rw [num_beBytes (lt_of_lt_of_le h (by norm_num)), split_append _ _ rfl]
  simp only [Option.bind_some, readSubpackets]
  rw [readSubpackets_encode sps _ _ (subpackets_length sps)]
  · simp
  · intro sp hsp
    have := subpacket_body_le sps sp hsp
    omega

/-- What a reader should see for a signature. -/
def viewSig (sig : Signature) : Sig :=
  { type := sig.type.toNat, keyAlgorithm := 22, hashAlgorithm := sig.hashFunction.toNat,
    hashed := sig.hashedSubpackets.map (fun sp => (sp.type.toNat, sp.body)),
    unhashed := sig.unhashedSubpackets.map (fun sp => (sp.type.toNat, sp.body)),
    left16 := sig.sigHash.take 2, r := sig.r.toNat, s := sig.s.toNat,
    hashedPart := sig.encodePreimage }

theorem readSignature_encode (sig : Signature) (r s : Nat) (hr : sig.r = r) (hs : sig.s = s)
    (hr' : r.size < 65536) (hs' : s.size < 65536) (hh : 2 ≤ sig.sigHash.length)
    (h1 : (sig.hashedSubpackets.map Subpacket.encode).flatten.length < 65536)
    (h2 : (sig.unhashedSubpackets.map Subpacket.encode).flatten.length < 65536) :
    readSignature sig.encode = some (viewSig sig) := by
  have e : sig.encode = 4 :: sig.type :: 22 :: sig.hashFunction ::
      (encodeSubpackets sig.hashedSubpackets ++ (encodeSubpackets sig.unhashedSubpackets ++
        (sig.sigHash.take 2 ++ (encodeMPI sig.r ++ (encodeMPI sig.s ++ []))))) := by
    simp [Signature.encode, Signature.encodePreimage, sigPacketVersion, keyAlgorithmEDDSA]
  have ht : sig.encode.take (sig.encode.length - (encodeSubpackets sig.unhashedSubpackets ++
        (sig.sigHash.take 2 ++ (encodeMPI sig.r ++ (encodeMPI sig.s ++ [])))).length) =
      sig.encodePreimage := by
    have : sig.encode = sig.encodePreimage ++ (encodeSubpackets sig.unhashedSubpackets ++
        (sig.sigHash.take 2 ++ (encodeMPI sig.r ++ (encodeMPI sig.s ++ [])))) := by
      simp [Signature.encode]
    rw [this, List.length_append, Nat.add_sub_cancel, List.take_left' rfl]
  generalize hb : sig.encode = b at *
  subst e
  simp only [readSignature]
  rw [readArea_encode _ h1]
  simp only [Option.bind_eq_bind, Option.bind_some]
  rw [readArea_encode _ h2]
  simp only [Option.bind_some]
  rw [split_append _ _ (show 2 = (sig.sigHash.take 2).length by simp; omega)]
  simp only [Option.bind_some]
  rw [hr, readMPI_encode r hr']
  simp only [Option.bind_some]
  rw [hs, readMPI_encode s hs']
  simp only [Option.bind_some, if_true]
  rw [hr, hs] at ht
  rw [ht]
  simp [viewSig, hr, hs]

end Verif.Proofs
