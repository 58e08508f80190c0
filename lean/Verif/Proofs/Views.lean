import Verif.Proofs.Export
import Verif.Spec.Options

/-! What is exported is what the specification of exports wants. -/

namespace Verif.Proofs

open Verif.Model Verif.Model.Pgp Verif.Spec.OpenPGP
open Verif.Spec (unlockSubkey)

theorem mpi_point (pub : Bytes) (h : pub.length = 32) :
    encodeMPI (setBytes (mpiPrefixEddsaPoint :: pub) : Int) = [0x01, 0x07, 0x40] ++ pub := by
  have hpt := (point_value pub h).2.2
  unfold encodeMPI intBytes
  rw [bitLen_natCast, hpt, Int.natAbs_natCast]
  have e1 : beBytes 2 263 = [0x01, 0x07] := by decide
  have e2 : beBytes ((263 + 7) / 8) (setBytes (mpiPrefixEddsaPoint :: pub)) =
      mpiPrefixEddsaPoint :: pub := by
    have : (263 + 7) / 8 = (mpiPrefixEddsaPoint :: pub).length := by simp [h]
    rw [this, beBytes_setBytes]
  rw [e1, e2]
  rfl

theorem edBody_eq {C : Crypto} (hC : C.Lawful) (seed : Bytes) (hs : seed.length = 32)
    (creation expiry : Int) :
    (edKey C seed creation expiry).base.encodePublic =
      Spec.edBody (u32 (unix creation)) (C.ed25519Pub seed) := by
  unfold ECKey.encodePublic
  have := mpi_point (C.ed25519Pub seed) (hC.ed25519Pub_length _ hs)
  rw [show (edKey C seed creation expiry).base.publicSerialized = C.ed25519Pub seed from rfl, this]
  simp [Spec.edBody, octets_eq, edKey, keyPacketVersion, keyAlgorithmEDDSA, Pgp.oidED25519,
    oidEd25519]

theorem ecdhBody_eq {C : Crypto} (hC : C.Lawful) (seed : Bytes) (hs : seed.length = 32)
    (creation expiry : Int) :
    (curveKey C seed creation expiry).base.encodePublic =
      Spec.ecdhBody (u32 (unix creation)) (C.x25519Base seed) := by
  unfold ECKey.encodePublic
  have := mpi_point (C.x25519Base seed) (hC.x25519_length _ hs)
  rw [show (curveKey C seed creation expiry).base.publicSerialized = C.x25519Base seed from rfl, this]
  simp [Spec.ecdhBody, octets_eq, curveKey, keyPacketVersion, keyAlgorithmECDH, Pgp.oidCurve25519,
    Spec.OpenPGP.oidCurve25519, KeyDerivationParameters.encode, defaultKDFParameters, hashFuncSHA256,
    cipherAlgoAES128]

theorem fingerprint_eq (C : Crypto) (key : ECKey) :
    key.fingerprintV4 C = Spec.fingerprint C key.encodePublic := by
  simp [ECKey.fingerprintV4, Spec.fingerprint, keyPreimage, octets_eq, publicKeyPrefixV4]

theorem viewEd {C : Crypto} (hC : C.Lawful) (seed : Bytes) (hs : seed.length = 32)
    (creation expiry : Int) :
    viewPublic C (edKey C seed creation expiry).base none =
      Spec.edPublic C (u32 (unix creation)) seed := by
  unfold viewPublic Spec.edPublic
  rw [fingerprint_eq, edBody_eq hC seed hs]
  rfl

theorem viewCurve {C : Crypto} (hC : C.Lawful) (seed : Bytes) (hs : seed.length = 32)
    (creation expiry : Int) :
    viewPublic C (curveKey C seed creation expiry).base (some (8, 7)) =
      Spec.ecdhPublic C (u32 (unix creation)) seed := by
  unfold viewPublic Spec.ecdhPublic
  rw [fingerprint_eq, ecdhBody_eq hC seed hs]
  rfl

/-! ## Options -/

theorem subkeyListed_iff (t : Bytes) (l : List Bytes) : subkeyListed t l = true ↔ t ∈ l := by
  induction l with
  | nil => simp [subkeyListed]
  | cons a l ih =>
    unfold subkeyListed
    by_cases h : a = t
    · simp [h]
    · rw [if_neg h, ih]
      simp [Ne.symm h]

theorem subkeyEnabled_iff (opts : KeyOptions) (type : String) :
    opts.subkeyEnabled (str type) = true ↔ Spec.Selected opts type := by
  unfold KeyOptions.subkeyEnabled Spec.Selected
  cases h : opts.subkeys with
  | none => simp
  | some l => simp [subkeyListed_iff]

theorem userID_encode (name email : Bytes) :
    (UserID.mk name email).encode = Spec.userID name email := by
  unfold UserID.encode Spec.userID
  have e1 : str " <" = [0x20, 0x3C] := by decide
  have e2 : str ">" = [0x3E] := by decide
  cases name <;> cases email <;> simp [e1, e2]

theorem expiresView_eq (C : Crypto) (second : Nat) (h2 : second < 2 ^ 32) (ttl : Int)
    (h0 : 0 ≤ ttl) (h1 : ttl < 2 ^ 63) :
    expiresView C (expiryOf (second * 10 ^ 9) ttl) (second * 10 ^ 9) = Spec.wantedExpires C ttl := by
  unfold expiresView expiryOf Spec.wantedExpires
  by_cases h : ttl = 0
  · subst h
    simp [isZero]
  · rw [if_pos (show ttl > 0 by omega), if_neg h]
    have hz : isZero (unix (timeAdd ((second : Int) * 10 ^ 9) ttl) * Model.second) = false := by
      unfold isZero zeroTime unix timeAdd Model.second
      simp only [beq_eq_false_iff_ne, ne_eq]
      omega
    rw [hz]
    simp only [Bool.false_eq_true, if_false]
    have : timeSub (unix (timeAdd ((second : Int) * 10 ^ 9) ttl) * Model.second)
        ((second : Int) * 10 ^ 9) = ttl / 10 ^ 9 * 10 ^ 9 := by
      unfold timeSub unix timeAdd Model.second
      omega
    rw [this]

/-- The seeds of a key set. -/
def selSeed (C : Crypto) (seed second : Nat) (type : String) (o : Option Nat) : Option Bytes :=
  o.map (Spec.subkeySeed C seed second type)

theorem keySetOf_eq (C : Crypto) (seed second : Nat) (creation expiry : Int) (opts : KeyOptions) :
    keySetOf C seed second creation expiry opts =
      mkKS C { name := opts.name, email := opts.email } (Spec.masterSeed C seed second) creation
        expiry (selSeed C seed second "encryption" (Spec.wanted C opts).encryption)
        (selSeed C seed second "authentication" (Spec.wanted C opts).authentication)
        (selSeed C seed second "signing" (Spec.wanted C opts).signing) := by
  have h : ∀ (type : String) (α : Type) (x : α),
      (if opts.subkeyEnabled (str type) = true then some x else none) =
        if Spec.Selected opts type then some x else none := by
    intro type α x
    by_cases hs : Spec.Selected opts type
    · rw [if_pos hs, if_pos ((subkeyEnabled_iff opts type).mpr hs)]
    · rw [if_neg hs, if_neg (fun hc => hs ((subkeyEnabled_iff opts type).mp hc))]
  unfold keySetOf mkKS selSeed Spec.wanted subkeyTypeEncryption subkeyTypeAuthentication
    subkeyTypeSigning
  simp only [h]
  by_cases h1 : Spec.Selected opts "encryption" <;> by_cases h2 : Spec.Selected opts "authentication" <;>
    by_cases h3 : Spec.Selected opts "signing" <;> simp [h1, h2, h3]

theorem selSeed_length {C : Crypto} (hC : C.Lawful) (seed second : Nat) (type : String)
    (o : Option Nat) : ∀ s, selSeed C seed second type o = some s → s.length = 32 := by
  intro s hs
  obtain ⟨i, -, rfl⟩ := Option.map_eq_some_iff.mp hs
  exact subkeySeed_length hC _ _ _ _

theorem u32_second (second : Nat) (h : second < 2 ^ 32) : u32 (unix ((second : Int) * 10 ^ 9)) = second := by
  unfold u32 unix Model.second
  omega

/-- What a reader sees of the subkeys, with the secrets replaced by the given function of the
private octets. -/
theorem ksGrps_slots {C : Crypto} (hC : C.Lawful) (seed second : Nat) (h32 : second < 2 ^ 32)
    (opts : KeyOptions) (h0 : 0 ≤ opts.ttl) (h1 : opts.ttl < 2 ^ 63) (rnd : Bytes) :
    (ksGrps C (keySetOf C seed second (second * 10 ^ 9) (expiryOf (second * 10 ^ 9) opts.ttl) opts)
      [] rnd).map (fun o => o.map Grp.info) =
      Spec.wantedSlots C seed second (Spec.wanted C opts) := by
  rw [keySetOf_eq]
  have hu := u32_second second h32
  have hx := expiresView_eq C second h32 opts.ttl h0 h1
  unfold ksGrps mkKS selSeed Spec.wantedSlots
  have e : ∀ i, (encGrp C (edKey C (Spec.masterSeed C seed second) (second * 10 ^ 9)
      (expiryOf (second * 10 ^ 9) opts.ttl)) (curveKey C (Spec.subkeySeed C seed second "encryption" i)
        (second * 10 ^ 9) (expiryOf (second * 10 ^ 9) opts.ttl)) [] rnd).info =
      Spec.encryptionSubkey C seed second (Spec.wanted C opts).expires i := by
    intro i
    have hv := viewCurve hC (Spec.subkeySeed C seed second "encryption" i)
      (subkeySeed_length hC _ _ _ _) (second * 10 ^ 9) (expiryOf (second * 10 ^ 9) opts.ttl)
    rw [hu] at hv
    simp only [encGrp, hv, bindView]
    simp only [curveKey, hu, hx, secView, if_true, clamp_num _ (subkeySeed_length hC seed second "encryption" i)]
    rfl
  have a : ∀ i rnd', (authGrp C (edKey C (Spec.masterSeed C seed second) (second * 10 ^ 9)
      (expiryOf (second * 10 ^ 9) opts.ttl)) (edKey C (Spec.subkeySeed C seed second "authentication" i)
        (second * 10 ^ 9) (expiryOf (second * 10 ^ 9) opts.ttl)) [] rnd').info =
      Spec.authenticationSubkey C seed second (Spec.wanted C opts).expires i := by
    intro i rnd'
    have hv := viewEd hC (Spec.subkeySeed C seed second "authentication" i)
      (subkeySeed_length hC _ _ _ _) (second * 10 ^ 9) (expiryOf (second * 10 ^ 9) opts.ttl)
    rw [hu] at hv
    simp only [authGrp, hv, bindView]
    simp only [edKey, hu, hx]
    rfl
  have g : ∀ i rnd', (signGrp C (edKey C (Spec.masterSeed C seed second) (second * 10 ^ 9)
      (expiryOf (second * 10 ^ 9) opts.ttl)) (edKey C (Spec.subkeySeed C seed second "signing" i)
        (second * 10 ^ 9) (expiryOf (second * 10 ^ 9) opts.ttl)) [] rnd').info =
      Spec.signingSubkey C seed second (Spec.wanted C opts).expires i := by
    intro i rnd'
    have hv := viewEd hC (Spec.subkeySeed C seed second "signing" i)
      (subkeySeed_length hC _ _ _ _) (second * 10 ^ 9) (expiryOf (second * 10 ^ 9) opts.ttl)
    rw [hu] at hv
    simp only [signGrp, hv, bindView]
    simp only [edKey, hu, hx]
    rfl
  generalize (second : Int) * 10 ^ 9 = cr at *
  cases (Spec.wanted C opts).encryption <;> cases (Spec.wanted C opts).authentication <;>
    cases (Spec.wanted C opts).signing <;> simp [e, a, g]

theorem ksGrps_infos {C : Crypto} (hC : C.Lawful) (seed second : Nat) (h32 : second < 2 ^ 32)
    (opts : KeyOptions) (h0 : 0 ≤ opts.ttl) (h1 : opts.ttl < 2 ^ 63) (rnd : Bytes) :
    (ksGrps C (keySetOf C seed second (second * 10 ^ 9) (expiryOf (second * 10 ^ 9) opts.ttl) opts)
      [] rnd).filterMap (fun o => o.map Grp.info) =
      Spec.wantedSubkeys C seed second (Spec.wanted C opts) := by
  have h := congrArg (List.filterMap id) (ksGrps_slots hC seed second h32 opts h0 h1 rnd)
  rw [List.filterMap_map] at h
  refine Eq.trans h ?_
  unfold Spec.wantedSlots Spec.wantedSubkeys
  cases (Spec.wanted C opts).encryption <;> cases (Spec.wanted C opts).authentication <;>
    cases (Spec.wanted C opts).signing <;> rfl

theorem certView_eq (C : Crypto) (second : Nat) (h32 : second < 2 ^ 32) (opts : KeyOptions)
    (h0 : 0 ≤ opts.ttl) (h1 : opts.ttl < 2 ^ 63) :
    certView C (second * 10 ^ 9) (expiryOf (second * 10 ^ 9) opts.ttl) =
      Spec.wantedCert second (Spec.wanted C opts) := by
  unfold certView
  rw [u32_second second h32, expiresView_eq C second h32 opts.ttl h0 h1]
  rfl

/-! ## Opening the secrets -/

/-- A group read with a password opens to the group written without one. -/
theorem grp_unlock {C : Crypto} (hC : C.Lawful) (uid : UserID) (ms : Bytes)
    (creation expiry : Int) (e a g : Option Bytes) (he : ∀ s, e = some s → s.length = 32)
    (ha : ∀ s, a = some s → s.length = 32) (hg : ∀ s, g = some s → s.length = 32)
    (password rnd : Bytes) (h : Enough 3 password rnd) (hpw : password.length ≤ 65011704)
    (i : Nat) :
    (((ksGrps C (mkKS C uid ms creation expiry e a g) password rnd).getD i none).map
      (fun x => (unlockSubkey C password x.info))) =
    (((ksGrps C (mkKS C uid ms creation expiry e a g) [] []).getD i none).map
      (fun x => some x.info)) := by
  have h0 : Enough 1 password rnd := enough_mono (by omega) h
  have h1 := enough_afterIf (mkKS C uid ms creation expiry e a g).encryptionSubkey h
  have h2 := enough_afterIf (mkKS C uid ms creation expiry e a g).authenticationSubkey h1
  have h1' := enough_mono (show 1 ≤ 2 by omega) h1
  match i with
  | 0 =>
    cases e with
    | none => rfl
    | some s =>
      have hl : (curveKey C s creation expiry).base.privateSerialized.length = 32 := by
        simp [curveKey, clamp_length, he s rfl]
      have := openSecret_secView hC password rnd _ hl h0 hpw
      simp only [ksGrps, mkKS, Option.map_some, List.getD_cons_zero, unlockSubkey, encGrp, this,
        Option.bind_eq_bind, Option.bind_some]
      rfl
  | 1 =>
    cases a with
    | none => rfl
    | some s =>
      have hl : (edKey C s creation expiry).base.privateSerialized.length = 32 := ha s rfl
      have := openSecret_secView hC password _ _ hl h1' hpw
      simp only [ksGrps, mkKS, Option.map_some, List.getD_cons_zero, List.getD_cons_succ,
        unlockSubkey, authGrp] at this ⊢
      rw [this]
      rfl
  | 2 =>
    cases g with
    | none => rfl
    | some s =>
      have hl : (edKey C s creation expiry).base.privateSerialized.length = 32 := hg s rfl
      have := openSecret_secView hC password _ _ hl h2 hpw
      simp only [ksGrps, mkKS, Option.map_some, List.getD_cons_zero, List.getD_cons_succ,
        unlockSubkey, signGrp] at this ⊢
      rw [this]
      rfl
  | i + 3 => simp [ksGrps]

theorem infos_unlock {C : Crypto} (hC : C.Lawful) (uid : UserID) (ms : Bytes)
    (creation expiry : Int) (e a g : Option Bytes) (he : ∀ s, e = some s → s.length = 32)
    (ha : ∀ s, a = some s → s.length = 32) (hg : ∀ s, g = some s → s.length = 32)
    (order : List Nat)
    (password rnd : Bytes) (h : Enough 3 password rnd) (hpw : password.length ≤ 65011704) :
    (ksInfos C (mkKS C uid ms creation expiry e a g) order password rnd).mapM
      (unlockSubkey C password) =
      some (ksInfos C (mkKS C uid ms creation expiry e a g) order [] []) := by
  unfold ksInfos
  induction order with
  | nil => rfl
  | cons i order ih =>
    have hu := grp_unlock hC uid ms creation expiry e a g he ha hg password rnd h hpw i
    simp only [List.map_cons]
    cases hx : (ksGrps C (mkKS C uid ms creation expiry e a g) password rnd).getD i none with
    | none =>
      cases hy : (ksGrps C (mkKS C uid ms creation expiry e a g) [] []).getD i none with
      | none => simpa using ih
      | some y => rw [hx, hy] at hu; simp at hu
    | some x =>
      cases hy : (ksGrps C (mkKS C uid ms creation expiry e a g) [] []).getD i none with
      | none => rw [hx, hy] at hu; simp at hu
      | some y =>
        rw [hx, hy] at hu
        simp only [Option.map_some, Option.some.injEq] at hu
        simp only [List.filterMap_cons, Option.map_some, List.mapM_cons, hu, Option.bind_eq_bind,
          Option.bind_some, ih]
        rfl

/-- Without a password the random bytes do not matter. -/
theorem ksGrps_nopass (C : Crypto) (ks : KeySet) (rnd rnd' : Bytes) :
    ksGrps C ks [] rnd = ksGrps C ks [] rnd' := rfl

theorem secView_protected (C : Crypto) (password rnd priv : Bytes) (hp : password ≠ [])
    (h : Enough 1 password rnd) : Spec.Protected (secView C password rnd priv) := by
  have : 24 ≤ rnd.length := by rcases h with h | h; exact absurd h hp; omega
  simp only [secView, if_neg hp, lockedView, Spec.Protected]
  refine ⟨trivial, trivial, ?_, trivial, ?_⟩ <;> simp <;> omega

theorem grp_protected {C : Crypto} (ks : KeySet)
    (password rnd : Bytes) (hp : password ≠ []) (h : Enough 3 password rnd) :
    ∀ x, some x ∈ ksGrps C ks password rnd → Spec.Protected x.info.secret := by
  have h0 : Enough 1 password rnd := enough_mono (by omega) h
  have h1 := enough_afterIf ks.encryptionSubkey h
  have h2 := enough_afterIf ks.authenticationSubkey h1
  have h1' := enough_mono (show 1 ≤ 2 by omega) h1
  intro x hx
  simp only [ksGrps, List.mem_cons, List.not_mem_nil, or_false] at hx
  rcases hx with hx | hx | hx
  · obtain ⟨k, hk, rfl⟩ := Option.map_eq_some_iff.mp hx.symm
    exact secView_protected C password _ _ hp h0
  · obtain ⟨k, hk, rfl⟩ := Option.map_eq_some_iff.mp hx.symm
    exact secView_protected C password _ _ hp h1'
  · obtain ⟨k, hk, rfl⟩ := Option.map_eq_some_iff.mp hx.symm
    exact secView_protected C password _ _ hp h2

theorem infos_protected {C : Crypto} (ks : KeySet) (order : List Nat)
    (password rnd : Bytes) (hp : password ≠ []) (h : Enough 3 password rnd) :
    ∀ s ∈ ksInfos C ks order password rnd, Spec.Protected s.secret := by
  intro s hs
  unfold ksInfos at hs
  obtain ⟨o, ho, hs⟩ := List.mem_filterMap.mp hs
  obtain ⟨x, rfl, rfl⟩ := Option.map_eq_some_iff.mp hs
  obtain ⟨i, -, hi⟩ := List.mem_map.mp ho
  exact grp_protected ks password rnd hp h x (mem_getD _ _ _ hi)

/-! ## Keys built by New -/

/-- Everything known about a key built by New. -/
theorem new_shape {C : Crypto} (hC : C.Lawful) {era x : Int} {s : Seed}
    (hs : newSeed era x = .ok s) {creation : Int} {opts : Option KeyOptions} {mnk : Mnemonikey}
    (h : new C s creation opts = .ok mnk) :
    ∃ second : Nat, creation / 10 ^ 9 = second ∧ 1672531200 ≤ second ∧
      second < 1672531200 + 2 ^ 31 ∧ 0 ≤ (opts.getD KeyOptions.zero).ttl ∧ s = ⟨0, x⟩ ∧
      x.natAbs < 2 ^ 128 ∧
      mnk = { seed := s, keyCreationTime := second * 10 ^ 9,
              pgpKeySet := keySetOf C x.natAbs second (second * 10 ^ 9)
                (expiryOf (second * 10 ^ 9) (opts.getD KeyOptions.zero).ttl)
                (opts.getD KeyOptions.zero) } := by
  obtain ⟨rfl, hx, rfl⟩ := (newSeed_ok_iff era x s).mp hs
  rw [new_eq hC ⟨0, x⟩ hx] at h
  rw [if_neg (by simp)] at h
  split at h
  · cases h
  · rename_i h0
    split at h
    · cases h
    · rename_i h3
      split at h
      · cases h
      · rename_i h4
        rw [maxCreation_eq] at h3
        rw [epochStart_eq] at h4
        refine ⟨(creation / 10 ^ 9).toNat, by omega, by omega, by omega, by omega, rfl, hx, ?_⟩
        have e : ((creation / 10 ^ 9).toNat : Int) = creation / 10 ^ 9 := by omega
        rw [e]
        exact (Res.ok.inj h).symm

end Verif.Proofs
