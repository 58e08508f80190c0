import Verif.Proofs.PgpImport
import Verif.Proofs.Seed
import Verif.Model.Mnemonikey
import Verif.Spec.Export

/-! Closed forms of key derivation, and the export of a key set. -/

namespace Verif.Proofs

open Verif.Model Verif.Model.Pgp Verif.Spec.OpenPGP

/-! ## Derivation -/

/-- Closed form of `derivePGPKeySet`. -/
def keySetOf (C : Crypto) (seed second : Nat) (creation expiry : Int) (opts : KeyOptions) : KeySet :=
  { userID := { name := opts.name, email := opts.email }
    masterKey := edKey C (Spec.masterSeed C seed second) creation expiry
    encryptionSubkey := if opts.subkeyEnabled subkeyTypeEncryption then
      some (curveKey C (Spec.subkeySeed C seed second "encryption" opts.encryptionSubkeyIndex.toNat)
        creation expiry) else none
    authenticationSubkey := if opts.subkeyEnabled subkeyTypeAuthentication then
      some (edKey C (Spec.subkeySeed C seed second "authentication"
        opts.authenticationSubkeyIndex.toNat) creation expiry) else none
    signingSubkey := if opts.subkeyEnabled subkeyTypeSigning then
      some (edKey C (Spec.subkeySeed C seed second "signing" opts.signingSubkeyIndex.toNat)
        creation expiry) else none }

theorem seed_bytes_eq (s : Seed) (h : s.value.natAbs < 2 ^ 128) :
    s.bytes = .ok (octets 16 s.value.natAbs) := by
  rw [octets_eq]
  unfold Seed.bytes fillBytes
  have : (entropyBitCount + 7) / 8 = 16 := rfl
  rw [this]
  rw [if_pos (lt_of_lt_of_eq h (by norm_num))]

theorem rootKey_eq (C : Crypto) (s : Seed) (h : s.value.natAbs < 2 ^ 128) (creation : Int) :
    Model.rootKey C s creation =
      .ok (Spec.rootKey C s.value.natAbs (u32 (unix creation))) := by
  unfold Model.rootKey
  rw [seed_bytes_eq s h, Res.bind_ok, Spec.rootKey, ← octets_eq]
  rfl

theorem subkeyInfo_eq (t : String) (i : UInt16) :
    keyExpandInfoSubkey (str t) i = Spec.subkeyInfo t i.toNat := by
  simp [keyExpandInfoSubkey, Spec.subkeyInfo, octets_eq]

theorem masterSeed_length {C : Crypto} (hC : C.Lawful) (s t : Nat) :
    (Spec.masterSeed C s t).length = 32 := hC.hkdf_length _ _ _

theorem subkeySeed_length {C : Crypto} (hC : C.Lawful) (s t : Nat) (ty : String) (i : Nat) :
    (Spec.subkeySeed C s t ty i).length = 32 := hC.hkdf_length _ _ _

theorem derive_eq {C : Crypto} (hC : C.Lawful) (s : Seed) (h : s.value.natAbs < 2 ^ 128)
    (creation : Int) (opts : KeyOptions) :
    derivePGPKeySet C s creation opts =
      .ok (keySetOf C s.value.natAbs (u32 (unix creation)) creation
        (expiryOf creation opts.ttl) opts) := by
  unfold derivePGPKeySet
  simp only
  rw [rootKey_eq C s h, Res.bind_ok]
  have hm := newEdKey_eq C (Spec.masterSeed C s.value.natAbs (u32 (unix creation)))
    (masterSeed_length hC _ _) creation (expiryOf creation opts.ttl)
  have he := newCurveKey_eq C (Spec.subkeySeed C s.value.natAbs (u32 (unix creation)) "encryption"
    opts.encryptionSubkeyIndex.toNat) (subkeySeed_length hC _ _ _ _) creation
    (expiryOf creation opts.ttl)
  have ha := newEdKey_eq C (Spec.subkeySeed C s.value.natAbs (u32 (unix creation)) "authentication"
    opts.authenticationSubkeyIndex.toNat) (subkeySeed_length hC _ _ _ _) creation
    (expiryOf creation opts.ttl)
  have hs := newEdKey_eq C (Spec.subkeySeed C s.value.natAbs (u32 (unix creation)) "signing"
    opts.signingSubkeyIndex.toNat) (subkeySeed_length hC _ _ _ _) creation
    (expiryOf creation opts.ttl)
  simp only [Spec.masterSeed, Spec.subkeySeed, ← subkeyInfo_eq] at hm he ha hs
  unfold keyExpandInfoMaster subkeyTypeEncryption subkeyTypeAuthentication subkeyTypeSigning
  rw [hm, Res.bind_ok, he, ha, hs]
  unfold keySetOf
  simp only [Spec.masterSeed, Spec.subkeySeed, ← subkeyInfo_eq]
  unfold subkeyTypeEncryption subkeyTypeAuthentication subkeyTypeSigning
  cases opts.subkeyEnabled (str "encryption") <;> cases opts.subkeyEnabled (str "authentication") <;>
    cases opts.subkeyEnabled (str "signing") <;> rfl

/-! ## New -/

theorem maxCreation_eq : maxCreationTime = (1672531200 + (2 ^ 31 - 1)) * 10 ^ 9 := by
  decide

theorem epochStart_eq : epochStart = 1672531200 * 10 ^ 9 := rfl

/-- The creation time that New keeps. -/
theorem floor_eq (creation : Int) (h1 : epochStart ≤ creation) (h2 : creation ≤ maxCreationTime) :
    timeAdd epochStart (durMul epochIncrement (durDiv (timeSub creation epochStart) epochIncrement)) =
      creation / 10 ^ 9 * 10 ^ 9 := by
  rw [maxCreation_eq] at h2
  rw [epochStart_eq] at *
  have e : timeSub creation (1672531200 * 10 ^ 9) = creation - 1672531200 * 10 ^ 9 := by
    unfold timeSub; omega
  rw [e]
  have h3 : durDiv (creation - 1672531200 * 10 ^ 9) epochIncrement =
      (creation - 1672531200 * 10 ^ 9) / 10 ^ 9 := by
    unfold durDiv
    rw [show epochIncrement = (10 ^ 9 : Int) from rfl]
    exact Int.tdiv_eq_ediv_of_nonneg (by omega)
  rw [h3]
  unfold timeAdd durMul wrap64
  rw [show epochIncrement = (10 ^ 9 : Int) from rfl]
  omega

/-- Closed form of New. -/
theorem new_eq {C : Crypto} (hC : C.Lawful) (s : Seed) (h : s.value.natAbs < 2 ^ 128)
    (creation : Int) (opts : Option KeyOptions) :
    new C s creation opts =
      if s.era ≠ 0 then .err .invalidEra
      else if (opts.getD KeyOptions.zero).ttl < 0 then .err .ttlInvalid
      else if creation > maxCreationTime then .err .creationTooLate
      else if creation < epochStart then .err .creationTooEarly
      else .ok { seed := s, keyCreationTime := creation / 10 ^ 9 * 10 ^ 9,
                 pgpKeySet := keySetOf C s.value.natAbs (creation / 10 ^ 9).toNat
                  (creation / 10 ^ 9 * 10 ^ 9)
                  (expiryOf (creation / 10 ^ 9 * 10 ^ 9) (opts.getD KeyOptions.zero).ttl)
                  (opts.getD KeyOptions.zero) } := by
  unfold new
  by_cases he : s.era = 0
  · have h1 : eraCheck s.era = .ok () := by rw [he]; rfl
    rw [h1, Res.bind_ok, if_neg (show ¬ (s.era ≠ 0) by simpa using he)]
    simp only
    by_cases h2 : (opts.getD KeyOptions.zero).ttl < 0
    · rw [if_pos h2, if_pos h2]
    · rw [if_neg h2, if_neg h2]
      by_cases h3 : creation > maxCreationTime
      · rw [if_pos h3, if_pos h3]
      · rw [if_neg h3, if_neg h3]
        by_cases h4 : creation < epochStart
        · rw [if_pos h4, if_pos h4]
        · rw [if_neg h4, if_neg h4]
          rw [floor_eq creation (not_lt.mp h4) (not_lt.mp h3), derive_eq hC s h, Res.bind_ok]
          have hu : u32 (unix (creation / 10 ^ 9 * 10 ^ 9)) = (creation / 10 ^ 9).toNat := by
            rw [maxCreation_eq] at h3
            rw [epochStart_eq] at h4
            unfold u32 unix second
            omega
          rw [hu]
  · have h1 : eraCheck s.era = .err .invalidEra := by
      unfold eraCheck
      rw [if_pos]
      rw [show eraLatest = 0 from rfl]; omega
    rw [h1, if_pos he]; rfl

/-! ## Shuffle -/

theorem swap_perm {α : Type} (l : List α) (i j : Nat) (a b : α) (hi : l[i]? = some a)
    (hj : l[j]? = some b) : ((l.set i b).set j a).Perm l := by
  obtain ⟨hi', rfl⟩ := List.getElem?_eq_some_iff.mp hi
  obtain ⟨hj', rfl⟩ := List.getElem?_eq_some_iff.mp hj
  exact List.set_set_perm hi' hj'

theorem shuffle_perm (draw : Nat → Nat) (hd : ∀ i, draw i ≤ i) {α : Type} (n : Nat) (l : List α)
    (hn : n < l.length) :
    ∃ l' : List α, l'.Perm l ∧ ∀ f : α → Bytes, shuffleLoop draw n (l.map f) = .ok (l'.map f) := by
  induction n generalizing l with
  | zero => exact ⟨l, List.Perm.refl _, fun f => rfl⟩
  | succ n ih =>
    have h1 : l[n + 1]? = some l[n + 1] := List.getElem?_eq_getElem hn
    have hj : draw (n + 1) < l.length := lt_of_le_of_lt (hd _) hn
    have h2 : l[draw (n + 1)]? = some l[draw (n + 1)] := List.getElem?_eq_getElem hj
    obtain ⟨l', hp, hf⟩ := ih ((l.set (n + 1) l[draw (n + 1)]).set (draw (n + 1)) l[n + 1])
      (by simp; omega)
    refine ⟨l', hp.trans (swap_perm l _ _ _ _ h1 h2), fun f => ?_⟩
    have e : swap (l.map f) (n + 1) (draw (n + 1)) =
        .ok (((l.set (n + 1) l[draw (n + 1)]).set (draw (n + 1)) l[n + 1]).map f) := by
      unfold swap
      rw [List.getElem?_map, List.getElem?_map, h1, h2]
      simp [List.map_set]
    rw [shuffleLoop, e, Res.bind_ok, hf]

/-! ## Packet groups -/

/-- A group of an export: what is written and what a reader should see. -/
structure Grp where
  keyBody : Bytes
  sigBody : Bytes
  info : SubkeyInfo

def Grp.packets (g : Grp) : List (Byte × Bytes) :=
  [(packetTagSecretSubkey, g.keyBody), (packetTagSignature, g.sigBody)]

def Grp.bytes (g : Grp) : Bytes :=
  encodePacket packetTagSecretSubkey g.keyBody ++ encodePacket packetTagSignature g.sigBody

def grpBytes (o : Option Grp) : Bytes := (o.map Grp.bytes).getD []
def grpPackets (o : Option Grp) : List (Byte × Bytes) := (o.map Grp.packets).getD []

theorem grpBytes_eq (o : Option Grp) :
    grpBytes o = ((grpPackets o).map (fun p => encodePacket p.1 p.2)).flatten := by
  cases o <;> simp [grpBytes, grpPackets, Grp.bytes, Grp.packets]

theorem grps_bytes (os : List (Option Grp)) :
    (os.map grpBytes).flatten =
      ((os.flatMap grpPackets).map (fun p => encodePacket p.1 p.2)).flatten := by
  induction os with
  | nil => rfl
  | cons o os ih => simp [grpBytes_eq, ih]

def Grp.Good (C : Crypto) (key : PublicKey) (body : Bytes) (g : Grp) : Prop :=
  readSubkey C key body g.keyBody g.sigBody = some g.info ∧
    g.keyBody.length < 2 ^ 32 ∧ g.sigBody.length < 2 ^ 32

theorem readSubkeys_grps (C : Crypto) (key : PublicKey) (body : Bytes) (os : List (Option Grp))
    (h : ∀ g, some g ∈ os → g.Good C key body) :
    readSubkeys C key body ((os.flatMap grpPackets).map (fun p => (p.1.toNat, p.2))) =
      some (os.filterMap (fun o => o.map Grp.info)) := by
  induction os with
  | nil => rfl
  | cons o os ih =>
    have ih' := ih (fun g hg => h g (by simp [hg]))
    cases o with
    | none => simpa [grpPackets] using ih'
    | some g =>
      have hg := (h g (by simp)).1
      rw [List.flatMap_cons, List.map_append]
      have : (grpPackets (some g)).map (fun p => (p.1.toNat, p.2)) =
        [(7, g.keyBody), (2, g.sigBody)] := rfl
      rw [this]
      simp only [List.cons_append, List.nil_append, readSubkeys]
      rw [hg]
      simp only [Option.bind_eq_bind, Option.bind_some]
      rw [ih']
      simp

theorem readSubkeys_nocert (os : List (Option Grp)) (r) (sigBody : Bytes) :
    ((os.flatMap grpPackets).map (fun p => (p.1.toNat, p.2))) ≠ (2, sigBody) :: r := by
  induction os with
  | nil => simp
  | cons o os ih =>
    cases o with
    | none => simpa [grpPackets] using ih
    | some g =>
      simp [grpPackets, Grp.packets, packetTagSecretSubkey]

end Verif.Proofs
