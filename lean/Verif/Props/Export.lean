import Verif.Props.Keys
import Verif.Proofs.Exported

/-!
# Properties of OpenPGP exports: C27-C32

`Spec.OpenPGP.importKey` is the RFC 4880 reader; `Spec.wantedKey` says what it should find.
-/

namespace Verif.Props

open Verif.Model Verif.Model.Pgp Verif.Proofs Verif.Instances
open Verif.Spec.OpenPGP (importKey readPackets readPacket readMPI readPublic octets num SubkeyInfo
  KeyInfo PublicKey s2kOctets)
open Verif.Spec (Selected wanted wantedSubkeys wantedKey wantedCert unlock unlockSubkey)

/-- A key of the examples, with user ID `alice <a@b.c>`, a year to live, two of the subkeys. -/
theorem sample_key : ∃ mnk, newSeed 0 5 = .ok ⟨0, 5⟩ ∧
    new toyCrypto ⟨0, 5⟩ sampleTime (some sampleOpts) = .ok mnk ∧
    (inForce (some sampleOpts)).ttl < 2 ^ 63 ∧ mnk.userID.length < 2 ^ 32 := by
  obtain ⟨mnk, h, -⟩ := (c20_new toyCrypto_lawful 5 (by decide) 0 sampleTime
    (some sampleOpts)).2.2.2.2 rfl (by decide) (by decide) (by decide)
  have hs : newSeed 0 5 = .ok ⟨0, 5⟩ := by decide
  refine ⟨mnk, hs, h, by decide, ?_⟩
  obtain ⟨a, -, -, -, -, -, -, rfl⟩ := new_shape toyCrypto_lawful hs h
  have : (Spec.userID sampleOpts.name sampleOpts.email).length = 13 := by decide
  simp only [Mnemonikey.userID, keySetOf, Option.getD_some]
  rw [userID_encode, this]
  norm_num

/-! ## C32 -/

/-- C32. The export without a password reads back as the specified key with the selected subkeys,
each exactly once, and agrees with what the Mnemonikey reports about itself. -/
theorem c32_export {C : Crypto} (hC : C.Lawful) (era x : Int) (s : Seed)
    (hs : newSeed era x = .ok s) (creation : Int) (opts : Option KeyOptions) (mnk : Mnemonikey)
    (h : new C s creation opts = .ok mnk) (htt : (inForce opts).ttl < 2 ^ 63)
    (hu : mnk.userID.length < 2 ^ 32) :
    let second := (creation / 10 ^ 9).toNat
    let w := wanted C (inForce opts)
    ∃ out subs, (∀ rnd, mnk.encodePGP C [] rnd = .ok (out, rnd)) ∧
      subs.Perm (wantedSubkeys C x.natAbs second w) ∧
      importKey C out = some (wantedKey C x.natAbs second w subs) ∧
      (wantedKey C x.natAbs second w subs).key.fingerprint = mnk.fingerprint C ∧
      w.userID = mnk.userID ∧ (second : Int) * 10 ^ 9 = mnk.createdAt ∧
      (wantedSubkeys C x.natAbs second w).map (·.key.fingerprint) =
        [str "encryption", str "authentication", str "signing"].filterMap
          (mnk.subkeyFingerprint C) := by
  obtain ⟨second, e, order, -, subs, hsubs, hperm, -, hcore⟩ := export_core hC hs h htt hu
  have hm := c23_master hC era x s hs creation opts mnk h
  have hk := c24_subkeys hC era x s hs creation opts mnk h
  rw [← e] at hm hk ⊢
  have e0 : opts.getD KeyOptions.zero = inForce opts := rfl
  rw [e0] at hperm hcore
  have h0 := hcore [] []
  have hall : ∀ rnd, mnk.encodePGP C [] rnd =
      .ok (writePackets (fullPackets C mnk.pgpKeySet order [] []), rnd) := by
    intro rnd
    have := ((hcore [] rnd).1 (Or.inl rfl)).1
    have hr : ksRnd mnk.pgpKeySet [] (after [] rnd) = rnd := by
      simp [ksRnd, afterIf, after]
    rw [hr] at this
    exact this
  refine ⟨_, subs, hall, hperm, ?_, ?_, ?_, ?_, ?_⟩
  · rw [(h0.1 (Or.inl rfl)).2.2, hsubs]
    rfl
  · exact hm.2.2.2.symm
  · obtain ⟨a, -, -, -, -, -, -, rfl⟩ := new_shape hC hs h
    exact (userID_encode _ _).symm
  · obtain ⟨a, ea, a1, -, -, -, -, rfl⟩ := new_shape hC hs h
    simp only [Mnemonikey.createdAt]
    rw [e, ea, Int.toNat_natCast]
  · simp only [List.filterMap_cons, List.filterMap_nil]
    rw [hk.1, hk.2.1, hk.2.2.1]
    simp only [wantedSubkeys, wanted]
    by_cases s1 : Selected (inForce opts) "encryption" <;>
      by_cases s2 : Selected (inForce opts) "authentication" <;>
      by_cases s3 : Selected (inForce opts) "signing" <;>
      simp [s1, s2, s3, Spec.encryptionSubkey, Spec.authenticationSubkey, Spec.signingSubkey,
        Spec.ecdhPublic, Spec.edPublic]

example : ∃ mnk out subs, new toyCrypto ⟨0, 5⟩ sampleTime (some sampleOpts) = .ok mnk ∧
    mnk.encodePGP toyCrypto [] [] = .ok (out, []) ∧ subs.length = 2 ∧
    importKey toyCrypto out = some (wantedKey toyCrypto 5 1700000000
      (wanted toyCrypto sampleOpts) subs) := by
  obtain ⟨mnk, hs, h, h1, h2⟩ := sample_key
  obtain ⟨out, subs, ho, hp, hi, -⟩ := c32_export toyCrypto_lawful 0 5 _ hs _ _ mnk h h1 h2
  exact ⟨mnk, out, subs, h, ho [], by rw [hp.length_eq]; rfl, hi⟩

/-! ## C27, C28 -/

/-- C27. Expiry(): the zero time (0001-01-01) without a TTL, otherwise creation second plus TTL,
rounded down. -/
theorem c27_expiry {C : Crypto} (hC : C.Lawful) (era x : Int) (s : Seed)
    (hs : newSeed era x = .ok s) (creation : Int) (opts : Option KeyOptions) (mnk : Mnemonikey)
    (h : new C s creation opts = .ok mnk) :
    mnk.expiry = if (inForce opts).ttl = 0 then -62135596800 * 10 ^ 9
      else (creation / 10 ^ 9 * 10 ^ 9 + (inForce opts).ttl) / 10 ^ 9 * 10 ^ 9 := by
  obtain ⟨second, e, h1, h2, h3, rfl, hx2, rfl⟩ := new_shape hC hs h
  rw [e]
  have e0 : opts.getD KeyOptions.zero = inForce opts := rfl
  rw [e0] at h3 ⊢
  simp only [Mnemonikey.expiry, keySetOf, edKey, expiryOf]
  by_cases ht : (inForce opts).ttl = 0
  · rw [if_neg (by omega), if_pos ht]; rfl
  · rw [if_pos (by omega), if_neg ht]; rfl

/-- Every certification and binding of an imported key carries this expiration. -/
def Expires (k : KeyInfo) (e : Option Nat) : Prop :=
  (∀ c, k.cert = some c → c.info.expires = e) ∧ ∀ s ∈ k.subkeys, s.binding.expires = e

/-- Both kinds of export, with any password, are readable and carry the expiration `e`. -/
def AllExpire (C : Crypto) (mnk : Mnemonikey) (e : Option Nat) : Prop :=
  ∀ password rnd, (password = [] ∨ 96 ≤ rnd.length) →
    (∃ out rest k, mnk.encodePGP C password rnd = .ok (out, rest) ∧ importKey C out = some k ∧
      k.cert.isSome = true ∧ Expires k e) ∧
    (∀ cert, ∃ out rest k, mnk.encodeSubkeysPGP C password cert rnd = .ok (out, rest) ∧
      importKey C out = some k ∧ k.cert.isSome = cert ∧ Expires k e)

theorem all_expire {C : Crypto} (hC : C.Lawful) {era x : Int} {s : Seed}
    (hs : newSeed era x = .ok s) {creation : Int} {opts : Option KeyOptions} {mnk : Mnemonikey}
    (h : new C s creation opts = .ok mnk) (htt : (inForce opts).ttl < 2 ^ 63)
    (hu : mnk.userID.length < 2 ^ 32) :
    AllExpire C mnk (Spec.wantedExpires C (inForce opts).ttl) := by
  obtain ⟨second, e, order, -, subs, hsubs, hperm, -, hcore⟩ := export_core hC hs h htt hu
  have e0 : opts.getD KeyOptions.zero = inForce opts := rfl
  rw [e0] at hperm hcore
  have hinf : ∀ password rnd, ∀ i ∈ ksInfos C mnk.pgpKeySet order password rnd,
      i.binding.expires = Spec.wantedExpires C (inForce opts).ttl := by
    intro password rnd i hi
    have hb := infos_bare C mnk.pgpKeySet order password rnd
    have hm : bare i ∈ (ksInfos C mnk.pgpKeySet order password rnd).map bare :=
      List.mem_map_of_mem hi
    rw [hb, ← hsubs] at hm
    obtain ⟨j, hj, hji⟩ := List.mem_map.mp hm
    have := wantedSubkeys_expires C x.natAbs second _ j (hperm.mem_iff.mp hj)
    have h2 : (bare j).binding = (bare i).binding := by rw [hji]
    have h3 : j.binding = i.binding := h2
    rw [← h3, this]
    rfl
  intro password rnd hr
  have h4 : Enough 4 password rnd := by
    rcases hr with hr | hr
    · exact Or.inl hr
    · exact Or.inr (by omega)
  have hc := hcore password rnd
  refine ⟨?_, ?_⟩
  · obtain ⟨c1, -, c3⟩ := hc.1 h4
    refine ⟨_, _, _, c1, c3, rfl, ?_, hinf _ _⟩
    intro c hcc
    cases hcc
    rfl
  · intro cert
    obtain ⟨c1, -, c3⟩ := hc.2.1 (enough_mono (by omega) h4) cert
    refine ⟨_, _, _, c1, c3, by cases cert <;> rfl, ?_, hinf _ _⟩
    intro c hcc
    cases cert
    · simp at hcc
    · simp only [if_true, Option.some.injEq] at hcc
      subst hcc
      rfl

/-- C27. Without a TTL no signature carries an expiration; with a TTL of at least one second and
below 2^32 seconds all carry the whole seconds of the TTL. -/
theorem c27_exported {C : Crypto} (hC : C.Lawful) (era x : Int) (s : Seed)
    (hs : newSeed era x = .ok s) (creation : Int) (opts : Option KeyOptions) (mnk : Mnemonikey)
    (h : new C s creation opts = .ok mnk) (hu : mnk.userID.length < 2 ^ 32) :
    ((inForce opts).ttl = 0 → AllExpire C mnk none) ∧
    (10 ^ 9 ≤ (inForce opts).ttl → (inForce opts).ttl < 2 ^ 32 * 10 ^ 9 →
      AllExpire C mnk (some ((inForce opts).ttl / 10 ^ 9).toNat)) := by
  constructor
  · intro ht
    have := all_expire hC hs h (by omega) hu
    rwa [Spec.wantedExpires, if_pos ht] at this
  · intro ht1 ht2
    have := all_expire hC hs h (by omega) hu
    rw [Spec.wantedExpires, if_neg (by omega)] at this
    have hn := hC.seconds_exact ((inForce opts).ttl / 10 ^ 9).toNat (by omega)
    have e : (((inForce opts).ttl / 10 ^ 9).toNat : Int) = (inForce opts).ttl / 10 ^ 9 := by omega
    rw [e] at hn
    rwa [hn] at this

example : ∃ mnk, new toyCrypto ⟨0, 5⟩ sampleTime (some sampleOpts) = .ok mnk ∧
    AllExpire toyCrypto mnk (some 31536000) ∧
    mnk.expiry = (1700000000 + 31536000) * 10 ^ 9 := by
  obtain ⟨mnk, hs, h, h1, h2⟩ := sample_key
  refine ⟨mnk, h, (c27_exported toyCrypto_lawful 0 5 _ hs _ _ _ h h2).2 (by decide) (by decide), ?_⟩
  rw [c27_expiry toyCrypto_lawful 0 5 _ hs _ _ _ h]
  decide

/-- C28 (defect). A TTL of 2^32 seconds or more: some expiration is exported, and it is earlier
than Expiry(). -/
theorem c28_long_ttl {C : Crypto} (hC : C.Lawful) (era x : Int) (s : Seed)
    (hs : newSeed era x = .ok s) (creation : Int) (opts : Option KeyOptions) (mnk : Mnemonikey)
    (h : new C s creation opts = .ok mnk) (hu : mnk.userID.length < 2 ^ 32)
    (ht1 : 2 ^ 32 * 10 ^ 9 ≤ (inForce opts).ttl) (ht2 : (inForce opts).ttl < 2 ^ 63) :
    ∃ e : Nat, AllExpire C mnk (some e) ∧ mnk.createdAt + e * 10 ^ 9 < mnk.expiry := by
  have := all_expire hC hs h ht2 hu
  rw [Spec.wantedExpires, if_neg (by omega)] at this
  refine ⟨_, this, ?_⟩
  have hl := hC.seconds_lt ((inForce opts).ttl / 10 ^ 9 * 10 ^ 9)
  rw [c27_expiry hC era x s hs creation opts mnk h, if_neg (by omega)]
  obtain ⟨second, e, h1, h2, h3, rfl, hx2, rfl⟩ := new_shape hC hs h
  simp only [Mnemonikey.createdAt]
  omega

/-- C28 (defect). On processors where `uint32(d.Seconds())` wraps (amd64), the exported expiration
is the TTL modulo 2^32 seconds. -/
theorem c28_long_ttl_wraps {C : Crypto} (hC : C.Lawful)
    (hw : ∀ n : Nat, n < 2 ^ 63 → C.secondsU32 (n * 10 ^ 9) = n % 2 ^ 32) (era x : Int) (s : Seed)
    (hs : newSeed era x = .ok s) (creation : Int) (opts : Option KeyOptions) (mnk : Mnemonikey)
    (h : new C s creation opts = .ok mnk) (hu : mnk.userID.length < 2 ^ 32)
    (ht1 : 10 ^ 9 ≤ (inForce opts).ttl) (ht2 : (inForce opts).ttl < 2 ^ 63) :
    AllExpire C mnk (some (((inForce opts).ttl / 10 ^ 9).toNat % 2 ^ 32)) := by
  have := all_expire hC hs h ht2 hu
  rw [Spec.wantedExpires, if_neg (by omega)] at this
  have hn := hw ((inForce opts).ttl / 10 ^ 9).toNat (by omega)
  have e : (((inForce opts).ttl / 10 ^ 9).toNat : Int) = (inForce opts).ttl / 10 ^ 9 := by omega
  rw [e] at hn
  rwa [hn] at this

/-- C28 (defect). A TTL strictly between 0 and 1 second is exported as 0, "never expires". -/
theorem c28_short_ttl {C : Crypto} (hC : C.Lawful) (era x : Int) (s : Seed)
    (hs : newSeed era x = .ok s) (creation : Int) (opts : Option KeyOptions) (mnk : Mnemonikey)
    (h : new C s creation opts = .ok mnk) (hu : mnk.userID.length < 2 ^ 32)
    (ht1 : 0 < (inForce opts).ttl) (ht2 : (inForce opts).ttl < 10 ^ 9) :
    AllExpire C mnk (some 0) ∧ mnk.expiry = mnk.createdAt := by
  constructor
  · have := all_expire hC hs h (by omega) hu
    rw [Spec.wantedExpires, if_neg (by omega)] at this
    have hn := hC.seconds_exact 0 (by norm_num)
    have e : (inForce opts).ttl / 10 ^ 9 * 10 ^ 9 = ((0 : Nat) : Int) * 10 ^ 9 := by omega
    rw [e, hn] at this
    exact this
  · rw [c27_expiry hC era x s hs creation opts mnk h, if_neg (by omega)]
    obtain ⟨second, e, h1, h2, h3, rfl, hx2, rfl⟩ := new_shape hC hs h
    simp only [Mnemonikey.createdAt]
    omega

/-- A TTL of 150 years, for which `c28_long_ttl` and `c28_long_ttl_wraps` apply, and one of half a
second. -/
example : ∃ m1 m2,
    new toyCrypto ⟨0, 5⟩ sampleTime (some { sampleOpts with ttl := 150 * 31536000 * 10 ^ 9 }) =
      .ok m1 ∧ AllExpire toyCrypto m1 (some 435432704) ∧
    new toyCrypto ⟨0, 5⟩ sampleTime (some { sampleOpts with ttl := 500000000 }) = .ok m2 ∧
    AllExpire toyCrypto m2 (some 0) := by
  have hs : newSeed 0 5 = .ok ⟨0, 5⟩ := by decide
  have huid : ∀ ttl mnk, new toyCrypto ⟨0, 5⟩ sampleTime (some { sampleOpts with ttl := ttl }) =
      .ok mnk → mnk.userID.length < 2 ^ 32 := by
    intro ttl mnk h
    obtain ⟨a, -, -, -, -, -, -, rfl⟩ := new_shape toyCrypto_lawful hs h
    have : (Spec.userID sampleOpts.name sampleOpts.email).length = 13 := by decide
    simp only [Mnemonikey.userID, keySetOf, Option.getD_some]
    rw [userID_encode, this]
    norm_num
  obtain ⟨m1, h1, -⟩ := (c20_new toyCrypto_lawful 5 (by decide) 0 sampleTime
    (some { sampleOpts with ttl := 150 * 31536000 * 10 ^ 9 })).2.2.2.2 rfl (by decide) (by decide)
    (by decide)
  obtain ⟨m2, h2, -⟩ := (c20_new toyCrypto_lawful 5 (by decide) 0 sampleTime
    (some { sampleOpts with ttl := 500000000 })).2.2.2.2 rfl (by decide) (by decide) (by decide)
  refine ⟨m1, m2, h1, ?_, h2, (c28_short_ttl toyCrypto_lawful 0 5 _ hs _ _ _ h2 (huid _ _ h2)
    (by decide) (by decide)).1⟩
  refine c28_long_ttl_wraps toyCrypto_lawful ?_ 0 5 _ hs _ _ _ h1 (huid _ _ h1) (by decide)
    (by decide)
  intro n hn
  simp only [toyCrypto]
  have : ((n : Int) * 10 ^ 9).tdiv (10 ^ 9) = (n : Int) := Int.mul_tdiv_cancel _ (by norm_num)
  rw [this]; omega

/-! ## C29 -/

/-- C29. The user ID. -/
theorem c29_user_id {C : Crypto} (hC : C.Lawful) (era x : Int) (s : Seed)
    (hs : newSeed era x = .ok s) (creation : Int) (o : KeyOptions) (mnk : Mnemonikey)
    (h : new C s creation (some o) = .ok mnk) :
    (o.email = [] → mnk.userID = o.name) ∧ (o.name = [] → mnk.userID = o.email) ∧
    (o.name ≠ [] → o.email ≠ [] → mnk.userID = o.name ++ str " <" ++ o.email ++ str ">") := by
  obtain ⟨second, e, h1, h2, h3, rfl, hx2, rfl⟩ := new_shape hC hs h
  simp only [Mnemonikey.userID, keySetOf, UserID.encode, Option.getD_some]
  refine ⟨fun h => by rw [if_pos h], fun h => ?_, fun h1 h2 => by rw [if_neg h2, if_neg h1]⟩
  by_cases he : o.email = []
  · rw [if_pos he, h, he]
  · rw [if_neg he, if_pos h]

/-- C29. The whole user ID given as the name, without e-mail: same user ID, same exports (for every
password and random stream). -/
theorem c29_whole_as_name {C : Crypto} (hC : C.Lawful) (era x : Int) (s : Seed)
    (hs : newSeed era x = .ok s) (creation : Int) (o : KeyOptions) (mnk : Mnemonikey)
    (h : new C s creation (some o) = .ok mnk) :
    ∃ mnk', new C s creation (some { o with name := mnk.userID, email := [] }) = .ok mnk' ∧
      mnk'.userID = mnk.userID ∧ mnk'.fingerprint C = mnk.fingerprint C ∧
      ∀ password rnd, mnk'.encodePGP C password rnd = mnk.encodePGP C password rnd ∧
        ∀ cert, mnk'.encodeSubkeysPGP C password cert rnd = mnk.encodeSubkeysPGP C password cert rnd := by
  have hx := ((newSeed_ok_iff era x s).mp hs).2.1
  obtain ⟨second, e, h1, h2, h3, rfl, hx2, hm⟩ := new_shape hC hs h
  have hn := new_eq hC ⟨0, x⟩ hx creation (some { o with name := mnk.userID, email := [] })
  simp only [Option.getD_some] at h3
  simp only [Option.getD_some] at hn
  rw [maxCreation_eq, epochStart_eq, if_neg (by simp), if_neg (by omega)] at hn
  have hb : 1672531200 * 10 ^ 9 ≤ creation ∧ creation ≤ (1672531200 + (2 ^ 31 - 1)) * 10 ^ 9 := by
    have hn' := new_eq hC ⟨0, x⟩ hx creation (some o)
    rw [h, maxCreation_eq, epochStart_eq, if_neg (by simp),
      if_neg (show ¬ ((some o).getD KeyOptions.zero).ttl < 0 by simpa using h3)] at hn'
    by_cases a : creation > (1672531200 + (2 ^ 31 - 1)) * 10 ^ 9
    · rw [if_pos a] at hn'; cases hn'
    · rw [if_neg a] at hn'
      by_cases b : creation < 1672531200 * 10 ^ 9
      · rw [if_pos b] at hn'; cases hn'
      · omega
  rw [if_neg (by omega), if_neg (by omega)] at hn
  refine ⟨_, hn, ?_, ?_, ?_⟩
  · simp [Mnemonikey.userID, keySetOf, UserID.encode]
  · rw [hm]
    simp only [Mnemonikey.fingerprint, keySetOf, e, Int.toNat_natCast, Option.getD_some]
  · -- the two key sets differ only in the user ID record, and exports only use its encoding
    have hks : ∀ password rnd (ks ks' : KeySet) (u : UserID), ks'.userID.encode = u.encode →
        ks = { ks' with userID := u } →
        ks'.encodePackets C password rnd = ks.encodePackets C password rnd ∧
        ∀ cert, ks'.encodeSubkeyPackets C password cert rnd =
          ks.encodeSubkeyPackets C password cert rnd := by
      intro password rnd ks ks' u hu hk
      subst hk
      have hc : ks'.encodeSelfCertification C =
          KeySet.encodeSelfCertification C { ks' with userID := u } := by
        unfold KeySet.encodeSelfCertification EdKey.selfCertify
        simp only [hu]
      have hp : ks'.userID.encodePacket = u.encodePacket := by
        simp only [UserID.encodePacket, hu]
      constructor
      · unfold KeySet.encodePackets
        rw [hc, hp]
        rfl
      · intro cert
        unfold KeySet.encodeSubkeyPackets
        rw [hc, hp]
        rfl
    intro password rnd
    have := hks password rnd mnk.pgpKeySet
      (keySetOf C x.natAbs (creation / 10 ^ 9).toNat (creation / 10 ^ 9 * 10 ^ 9)
        (expiryOf (creation / 10 ^ 9 * 10 ^ 9) o.ttl) { o with name := mnk.userID, email := [] })
      mnk.pgpKeySet.userID (by simp [keySetOf, UserID.encode, Mnemonikey.userID])
      (by rw [hm]; simp only [keySetOf, e, Int.toNat_natCast, Option.getD_some]; rfl)
    exact ⟨this.1, this.2⟩

example : ∃ mnk mnk', new toyCrypto ⟨0, 5⟩ sampleTime (some sampleOpts) = .ok mnk ∧
    mnk.userID = str "alice <a@b.c>" ∧
    new toyCrypto ⟨0, 5⟩ sampleTime
      (some { sampleOpts with name := str "alice <a@b.c>", email := [] }) = .ok mnk' ∧
    mnk'.encodePGP toyCrypto [] [] = mnk.encodePGP toyCrypto [] [] := by
  obtain ⟨mnk, hs, h, -, -⟩ := sample_key
  have hu : mnk.userID = str "alice <a@b.c>" := by
    rw [(c29_user_id toyCrypto_lawful 0 5 _ hs _ _ _ h).2.2 (by decide) (by decide)]
    decide
  obtain ⟨mnk', h', -, -, he⟩ := c29_whole_as_name toyCrypto_lawful 0 5 _ hs _ _ _ h
  rw [hu] at h'
  exact ⟨mnk, mnk', h, hu, h', (he [] []).1⟩

/-! ## C30, C31 -/

/-- C30. A packet and what follows it are recovered by an RFC 4880 reader. -/
theorem c30_packet (tag : Byte) (ht : tag.toNat < 64) (body rest : Bytes)
    (hb : body.length < 2 ^ 32) :
    readPacket (encodePacket tag body ++ rest) = some ((tag.toNat, body), rest) :=
  readPacket_encode tag ht body rest hb

/-- C30. So is a sequence of packets. -/
theorem c30_packets (ps : List (Byte × Bytes))
    (hp : ∀ p ∈ ps, p.1.toNat < 64 ∧ p.2.length < 2 ^ 32) :
    readPackets (ps.map (fun p => encodePacket p.1 p.2)).flatten =
      some (ps.map (fun p => (p.1.toNat, p.2))) :=
  readPackets_flatten ps hp

/-- C30. Longer bodies are not read back, whatever follows: the length has four octets. -/
theorem c30_too_long (tag : Byte) (ht : tag.toNat < 64) (body rest : Bytes) (hb : 2 ^ 32 ≤ body.length) :
    readPacket (encodePacket tag body ++ rest) =
      some ((tag.toNat, body.take (body.length % 2 ^ 32)), body.drop (body.length % 2 ^ 32) ++ rest) ∧
    readPacket (encodePacket tag body ++ rest) ≠ some ((tag.toNat, body), rest) := by
  have hm : body.length % 2 ^ 32 < 2 ^ 32 := Nat.mod_lt _ (by norm_num)
  have key : readPacket (encodePacket tag body ++ rest) =
      some ((tag.toNat, body.take (body.length % 2 ^ 32)), body.drop (body.length % 2 ^ 32) ++ rest) := by
    simp only [encodePacket, List.cons_append, readPacket, or_c0 ht]
    rw [if_neg (by omega), List.append_assoc]
    unfold packetLengthEncode
    rw [if_neg (by omega), if_neg (by omega)]
    have hff : (0xFF : UInt8).toNat = 255 := rfl
    simp only [List.cons_append, Spec.OpenPGP.readLength, hff]
    rw [if_neg (by omega), if_neg (by omega), if_pos trivial, split_append _ _ (beBytes_length 4 _).symm]
    simp only [Option.bind_eq_bind, Option.bind_some]
    rw [show num (beBytes 4 body.length) = body.length % 2 ^ 32 from num_beBytes_mod ..]
    unfold Spec.OpenPGP.split
    rw [if_neg (by rw [List.length_append]; omega)]
    simp only [Option.bind_some]
    rw [List.take_append_of_le_length (by omega), List.drop_append_of_le_length (by omega),
      show 192 + tag.toNat - 192 = tag.toNat by omega]
  refine ⟨key, ?_⟩
  rw [key]
  intro h
  have := congrArg List.length (Prod.mk.inj (Prod.mk.inj (Option.some.inj h)).1).2
  rw [List.length_take] at this
  omega

example : ∃ body : Bytes, body.length = 2 ^ 32 + 3 ∧
    readPacket (encodePacket 13 body ++ []) = some ((13, [7, 7, 7]), List.replicate (2 ^ 32) 7 ++ []) := by
  refine ⟨List.replicate 3 7 ++ List.replicate (2 ^ 32) 7, by rw [List.length_append, List.length_replicate,
    List.length_replicate, Nat.add_comm], ?_⟩
  rw [(c30_too_long 13 (by decide) _ [] (by
    rw [List.length_append, List.length_replicate, List.length_replicate]; omega)).1]
  rw [List.length_append, List.length_replicate, List.length_replicate,
    show (3 + 2 ^ 32) % 2 ^ 32 = (List.replicate 3 (7 : UInt8)).length by rw [List.length_replicate]; norm_num,
    List.take_left, List.drop_left]
  rfl

/-- Bodies of one, two and five length octets. -/
example : readPackets (([(5, [1, 2, 3]), (13, List.replicate 200 7), (2, []),
      (14, List.replicate 8384 9)] : List (Byte × Bytes)).map
        (fun p => encodePacket p.1 p.2)).flatten =
    some [(5, [1, 2, 3]), (13, List.replicate 200 7), (2, []), (14, List.replicate 8384 9)] := by
  rw [c30_packets _ (by
    intro p hp
    simp only [List.mem_cons, List.not_mem_nil, or_false] at hp
    rcases hp with rfl | rfl | rfl | rfl
    · exact ⟨by decide, by decide⟩
    · exact ⟨by decide, by show (List.replicate _ _).length < _; rw [List.length_replicate]; norm_num⟩
    · exact ⟨by decide, by decide⟩
    · exact ⟨by decide, by show (List.replicate _ _).length < _; rw [List.length_replicate]; norm_num⟩)]
  rfl

/-- C31. Multiprecision integers of up to 65535 bits. -/
theorem c31_mpi (v : Nat) (h : v < 2 ^ 65535) (rest : Bytes) :
    readMPI (encodeMPI (v : Int) ++ rest) = some (v, rest) := by
  apply readMPI_encode
  exact lt_of_le_of_lt (Nat.size_le.mpr h) (by norm_num)

/-- C31. The checksum is the sum of the octets modulo 65536, in two octets. -/
theorem c31_checksum (b : Bytes) :
    checksumMPI b = octets 2 ((b.map UInt8.toNat).sum % 65536) := checksumMPI_eq b

example : encodeMPI 511 = [0, 9, 1, 0xFF] ∧ encodeMPI 0 = [0, 0] ∧
    readMPI [0, 9, 1, 0xFF, 7] = some (511, [7]) ∧ checksumMPI [0, 9, 1, 0xFF] = [1, 9] := by
  refine ⟨by decide, by decide, ?_, by decide⟩
  exact c31_mpi 511 (Nat.lt_of_lt_of_le (by norm_num : 511 < 2 ^ 9)
    (Nat.pow_le_pow_right (by norm_num) (by norm_num))) [7]

end Verif.Props
