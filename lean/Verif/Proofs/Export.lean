import Verif.Proofs.KeySet

/-! The export of a key set, packet by packet. -/

namespace Verif.Proofs

open Verif.Model Verif.Model.Pgp Verif.Spec.OpenPGP

/-- A key set given by its seeds. -/
def mkKS (C : Crypto) (uid : UserID) (ms : Bytes) (creation expiry : Int)
    (e a g : Option Bytes) : KeySet :=
  { userID := uid
    masterKey := edKey C ms creation expiry
    encryptionSubkey := e.map (fun s => curveKey C s creation expiry)
    authenticationSubkey := a.map (fun s => edKey C s creation expiry)
    signingSubkey := g.map (fun s => edKey C s creation expiry) }

/-! ## Secret parts -/

def secPart (C : Crypto) (password rnd priv : Bytes) : Bytes :=
  if password = [] then clearPart priv else lockedPart C priv password rnd

def secView (C : Crypto) (password rnd priv : Bytes) : Secret :=
  if password = [] then .clear (num priv) else lockedView C priv password rnd

def after (password rnd : Bytes) : Bytes := if password = [] then rnd else rnd.drop 24

/-- enough random bytes for `n` secrets -/
def Enough (n : Nat) (password rnd : Bytes) : Prop := password = [] ∨ 24 * n ≤ rnd.length

theorem enough_after {n : Nat} {password rnd : Bytes} (h : Enough (n + 1) password rnd) :
    Enough n password (after password rnd) := by
  rcases h with h | h
  · exact Or.inl h
  · by_cases hp : password = []
    · exact Or.inl hp
    · right; simp [after, hp]; omega

theorem enough_mono {n m : Nat} {password rnd : Bytes} (hnm : n ≤ m) (h : Enough m password rnd) :
    Enough n password rnd := by
  rcases h with h | h
  · exact Or.inl h
  · right; omega

theorem encodePrivate_eq {C : Crypto} (hC : C.Lawful) (key : ECKey) (password rnd : Bytes)
    (h : Enough 1 password rnd) :
    key.encodePrivate C password rnd =
      .ok (key.encodePublic ++ secPart C password rnd key.privateSerialized, after password rnd) := by
  by_cases hp : password = []
  · subst hp
    rw [encodePrivate_clear]; rfl
  · rw [encodePrivate_locked hC key password rnd hp (by rcases h with h | h; exact absurd h hp; omega)]
    simp [secPart, after, hp]

theorem readSecret_secPart (C : Crypto) (password rnd priv : Bytes)
    (hl : priv.length = 32) (h : Enough 1 password rnd) :
    readSecret (secPart C password rnd priv) = some (secView C password rnd priv) := by
  by_cases hp : password = []
  · simp only [secPart, secView, if_pos hp]
    exact readSecret_clearPart priv hl
  · simp only [secPart, secView, if_neg hp]
    exact readSecret_lockedPart C priv password rnd (by rcases h with h | h; exact absurd h hp; omega)

theorem secPart_length {C : Crypto} (hC : C.Lawful) (password rnd priv : Bytes)
    (hl : priv.length = 32) (h : Enough 1 password rnd) :
    (secPart C password rnd priv).length ≤ 100 := by
  by_cases hp : password = []
  · have := clearPart_length priv
    simp only [secPart, if_pos hp]; omega
  · have := lockedPart_length hC priv password rnd (by rcases h with h | h; exact absurd h hp; omega)
    simp only [secPart, if_neg hp]; omega

theorem openSecret_secView {C : Crypto} (hC : C.Lawful) (password rnd priv : Bytes)
    (hl : priv.length = 32) (h : Enough 1 password rnd) (hpw : password.length ≤ 65011704) :
    openSecret C password (secView C password rnd priv) = some (num priv) := by
  by_cases hp : password = []
  · simp only [secView, if_pos hp]; rfl
  · simp only [secView, if_neg hp]
    exact openSecret_lockedView hC priv password rnd hl
      (by rcases h with h | h; exact absurd h hp; omega) hpw

/-! ## Groups -/

def encGrp (C : Crypto) (m : EdKey) (k : CurveKey) (password rnd : Bytes) : Grp :=
  { keyBody := k.base.encodePublic ++ secPart C password rnd k.base.privateSerialized
    sigBody := (signed C m.priv (bindReq C m.base k.base 12 k.expiry [])).encode
    info := { key := viewPublic C k.base (some (8, 7)),
              secret := secView C password rnd k.base.privateSerialized,
              binding := bindView C k.base 12 k.expiry, cross := none } }

def authGrp (C : Crypto) (m : EdKey) (k : EdKey) (password rnd : Bytes) : Grp :=
  { keyBody := k.base.encodePublic ++ secPart C password rnd k.base.privateSerialized
    sigBody := (signed C m.priv (bindReq C m.base k.base keyFlagAuthenticate k.expiry [])).encode
    info := { key := viewPublic C k.base none,
              secret := secView C password rnd k.base.privateSerialized,
              binding := bindView C k.base keyFlagAuthenticate k.expiry, cross := none } }

def signGrp (C : Crypto) (m : EdKey) (k : EdKey) (password rnd : Bytes) : Grp :=
  { keyBody := k.base.encodePublic ++ secPart C password rnd k.base.privateSerialized
    sigBody := (signed C m.priv (bindReq C m.base k.base keyFlagSign k.expiry
      [crossSub C k.priv m.base k.base])).encode
    info := { key := viewPublic C k.base none,
              secret := secView C password rnd k.base.privateSerialized,
              binding := bindView C k.base keyFlagSign k.expiry,
              cross := some (u32 (unix k.creation)) } }

def afterIf {α : Type} (o : Option α) (password rnd : Bytes) : Bytes :=
  if o.isSome then after password rnd else rnd

def ksGrps (C : Crypto) (ks : KeySet) (password rnd : Bytes) : List (Option Grp) :=
  let r1 := afterIf ks.encryptionSubkey password rnd
  let r2 := afterIf ks.authenticationSubkey password r1
  [ks.encryptionSubkey.map (fun k => encGrp C ks.masterKey k password rnd),
   ks.authenticationSubkey.map (fun k => authGrp C ks.masterKey k password r1),
   ks.signingSubkey.map (fun k => signGrp C ks.masterKey k password r2)]

def ksRnd (ks : KeySet) (password rnd : Bytes) : Bytes :=
  afterIf ks.signingSubkey password (afterIf ks.authenticationSubkey password
    (afterIf ks.encryptionSubkey password rnd))

theorem enough_afterIf {α : Type} (o : Option α) {n : Nat} {password rnd : Bytes}
    (h : Enough (n + 1) password rnd) : Enough n password (afterIf o password rnd) := by
  unfold afterIf
  split
  · exact enough_after h
  · exact enough_mono (by omega) h

theorem encodeEncryption_eq {C : Crypto} (hC : C.Lawful) (ks : KeySet) (password rnd : Bytes)
    (h : Enough 1 password rnd) :
    ks.encodeEncryption C password rnd =
      .ok (grpBytes (ks.encryptionSubkey.map (fun k => encGrp C ks.masterKey k password rnd)),
        afterIf ks.encryptionSubkey password rnd) := by
  unfold KeySet.encodeEncryption
  cases hk : ks.encryptionSubkey with
  | none => rfl
  | some k =>
    simp only
    unfold Pgp.encodeSubkeyPackets ECKey.encodePrivatePacket
    rw [encodePrivate_eq hC _ _ _ h, Res.bind_ok]
    simp only [Res.bind_ok]
    rw [bindSubkey_plain hC _ _ _ _ (by decide)]
    rfl

theorem encodeAuthentication_eq {C : Crypto} (hC : C.Lawful) (ks : KeySet) (password rnd : Bytes)
    (h : Enough 1 password rnd) :
    ks.encodeAuthentication C password rnd =
      .ok (grpBytes (ks.authenticationSubkey.map (fun k => authGrp C ks.masterKey k password rnd)),
        afterIf ks.authenticationSubkey password rnd) := by
  unfold KeySet.encodeAuthentication
  cases hk : ks.authenticationSubkey with
  | none => rfl
  | some k =>
    simp only
    unfold Pgp.encodeSubkeyPackets ECKey.encodePrivatePacket
    rw [encodePrivate_eq hC _ _ _ h, Res.bind_ok]
    simp only [Res.bind_ok]
    rw [bindSubkey_plain hC _ _ _ _ (by decide)]
    rfl

theorem encodeSigning_eq {C : Crypto} (hC : C.Lawful) (ks : KeySet) (password rnd : Bytes)
    (h : Enough 1 password rnd)
    (hs : ∀ k, ks.signingSubkey = some k → k.base.privateSigning = some k.priv) :
    ks.encodeSigning C password rnd =
      .ok (grpBytes (ks.signingSubkey.map (fun k => signGrp C ks.masterKey k password rnd)),
        afterIf ks.signingSubkey password rnd) := by
  unfold KeySet.encodeSigning
  cases hk : ks.signingSubkey with
  | none => rfl
  | some k =>
    simp only
    unfold Pgp.encodeSubkeyPackets ECKey.encodePrivatePacket
    rw [encodePrivate_eq hC _ _ _ h, Res.bind_ok]
    simp only [Res.bind_ok]
    rw [bindSubkey_sign hC _ _ k.priv _ (hs k hk)]
    rfl

/-- The order in which the groups are written depends on the master key alone. -/
theorem encodeAll_eq {C : Crypto} (hC : C.Lawful) (ks : KeySet)
    (hs : ∀ k, ks.signingSubkey = some k → k.base.privateSigning = some k.priv) :
    ∃ order : List Nat, order.Perm [0, 1, 2] ∧
      (∀ g : Nat → Bytes, shuffleLoop (C.shuffleDraw (shuffleSeed C ks.masterKey.priv)) 2
        [g 0, g 1, g 2] = .ok (order.map g)) ∧
      ∀ password rnd, Enough 3 password rnd →
        ks.encodeAllSubkeyPackets C password rnd =
          .ok (((order.map (fun i => (ksGrps C ks password rnd).getD i none)).map grpBytes).flatten,
            ksRnd ks password rnd) := by
  obtain ⟨order, hp, hf⟩ := shuffle_perm (C.shuffleDraw (shuffleSeed C ks.masterKey.priv))
    (hC.shuffle_le _) 2 [0, 1, 2] (by simp)
  refine ⟨order, hp, fun g => hf g, ?_⟩
  intro password rnd h
  have h0 : Enough 1 password rnd := enough_mono (by omega) h
  have h1 := enough_afterIf ks.encryptionSubkey h
  have h2 := enough_afterIf ks.authenticationSubkey h1
  unfold KeySet.encodeAllSubkeyPackets
  rw [encodeEncryption_eq hC _ _ _ h0, Res.bind_ok]
  simp only
  rw [encodeAuthentication_eq hC _ _ _ (enough_mono (by omega) h1), Res.bind_ok]
  simp only
  rw [encodeSigning_eq hC _ _ _ h2 hs, Res.bind_ok]
  simp only
  have := hf (fun i => grpBytes ((ksGrps C ks password rnd).getD i none))
  simp only [List.map_cons, List.map_nil] at this
  simp only [List.length_cons, List.length_nil]
  have e : ∀ x y : Bytes, (shuffleLoop (C.shuffleDraw (shuffleSeed C ks.masterKey.priv)) 2
    [grpBytes ((ksGrps C ks password rnd).getD 0 none),
     grpBytes ((ksGrps C ks password rnd).getD 1 none),
     grpBytes ((ksGrps C ks password rnd).getD 2 none)] >>= fun pg =>
      (.ok (pg.flatten, ksRnd ks password rnd) : Res (Bytes × Bytes))) =
     .ok ((order.map (fun i => grpBytes ((ksGrps C ks password rnd).getD i none))).flatten,
       ksRnd ks password rnd) := by
    intro _ _
    rw [this]; rfl
  rw [List.map_map]
  exact e [] []

theorem twelve : (keyFlagEncryptCommunications ||| keyFlagEncryptStorage) = 12 := by decide

theorem clamp_length (b : Bytes) : (clampScalar b).length = b.length := by simp [clampScalar]

theorem clamp_num (b : Bytes) (h : b.length = 32) : num (clampScalar b).reverse = Spec.clamped b := by
  obtain ⟨lo, mid, hi, rfl, hm⟩ : ∃ (lo : Byte) (mid : Bytes) (hi : Byte),
      b = lo :: (mid ++ [hi]) ∧ mid.length = 30 := by
    cases b with
    | nil => simp at h
    | cons lo t =>
      have ht : t.length = 31 := by simpa using h
      refine ⟨lo, t.dropLast, t.getLast (by intro hc; simp [hc] at ht), ?_, by simp [ht]⟩
      rw [List.dropLast_append_getLast]
  have hc : clampScalar (lo :: (mid ++ [hi])) = (lo &&& 248) :: (mid ++ [(hi &&& 127) ||| 64]) := by
    apply List.ext_getElem
    · simp [clampScalar]
    · intro i h1 h2
      simp only [clampScalar, List.getElem_modify]
      have hi' : i < 32 := by simpa [hm] using h2
      by_cases i0 : i = 0
      · subst i0; simp
      · by_cases i31 : i = 31
        · subst i31
          simp [List.getElem_cons, hm]
        · simp only [Ne.symm i31, Ne.symm i0, if_false]
          simp only [List.getElem_cons, i0, dif_neg, not_false_eq_true, List.getElem_append]
          rw [dif_pos (by omega), dif_pos (by omega)]
  have value : ∀ lo hi : Byte, num (lo :: (mid ++ [hi])).reverse =
      hi.toNat * 2 ^ 248 + setBytes mid.reverse * 2 ^ 8 + lo.toNat := by
    intro lo hi
    have hr : (lo :: (mid ++ [hi])).reverse = hi :: (mid.reverse ++ [lo]) := by simp
    have hlen : (mid.reverse ++ [lo]).length = 31 := by simp [hm]
    have hlow : setBytes [lo] = lo.toNat := by simp [setBytes]
    rw [hr, num_eq, Proofs.setBytes_cons, setBytes_append, hlen, hlow]
    simp only [List.length_singleton]
    norm_num
    omega
  unfold Spec.clamped
  rw [hc, value, value]
  have hb := setBytes_lt mid.reverse
  rw [List.length_reverse, hm] at hb
  have b1 : ∀ n < 256, n &&& 248 = n / 8 * 8 := by decide +kernel
  have b2 : ∀ n < 256, n &&& 127 ||| 64 = 64 + n % 64 := by decide +kernel
  have e1 : (lo &&& 248).toNat = lo.toNat / 8 * 8 := by
    rw [UInt8.toNat_and]
    exact b1 _ lo.toNat_lt
  have e2 : ((hi &&& 127) ||| 64).toNat = 64 + hi.toNat % 64 := by
    rw [UInt8.toNat_or, UInt8.toNat_and]
    exact b2 _ hi.toNat_lt
  rw [e1, e2]
  have l1 := lo.toNat_lt
  have l2 := hi.toNat_lt
  generalize lo.toNat = p at *
  generalize hi.toNat = q at *
  generalize setBytes mid.reverse = m at *
  norm_num at hb ⊢
  omega

theorem ksGrps_good {C : Crypto} (hC : C.Lawful) (uid : UserID) (ms : Bytes) (hms : ms.length = 32)
    (creation expiry : Int) (e a g : Option Bytes) (he : ∀ s, e = some s → s.length = 32)
    (ha : ∀ s, a = some s → s.length = 32) (hg : ∀ s, g = some s → s.length = 32)
    (password rnd : Bytes) (h : Enough 3 password rnd) :
    ∀ x, some x ∈ ksGrps C (mkKS C uid ms creation expiry e a g) password rnd →
      x.Good C (viewPublic C (edKey C ms creation expiry).base none)
        (edKey C ms creation expiry).base.encodePublic := by
  have h0 : Enough 1 password rnd := enough_mono (by omega) h
  have h1 := enough_afterIf (mkKS C uid ms creation expiry e a g).encryptionSubkey h
  have h2 := enough_afterIf (mkKS C uid ms creation expiry e a g).authenticationSubkey h1
  have h1' := enough_mono (show 1 ≤ 2 by omega) h1
  have small : ∀ x y : Bytes, x.length ≤ 56 → y.length ≤ 100 → (x ++ y).length < 2 ^ 32 := by
    intro x y hx hy
    rw [List.length_append]
    exact lt_of_le_of_lt (Nat.add_le_add hx hy) (by norm_num)
  intro x hx
  simp only [ksGrps, List.mem_cons, List.not_mem_nil, or_false] at hx
  rcases hx with hx | hx | hx
  · obtain ⟨k, hk, rfl⟩ := Option.map_eq_some_iff.mp hx.symm
    obtain ⟨s, hes, rfl⟩ := Option.map_eq_some_iff.mp hk
    have hl := he s hes
    have hpl : (curveKey C s creation expiry).base.publicSerialized.length = 32 :=
      hC.x25519_length s hl
    have hprl : (curveKey C s creation expiry).base.privateSerialized.length = 32 := by
      simp [curveKey, clamp_length, hl]
    refine ⟨?_, ?_, ?_⟩
    · exact subkey_plain hC ms hms creation expiry _ _ (curveKey_shape C s creation expiry) hpl 12
        (by decide) expiry _ _ (readSecret_secPart C password rnd _ hprl h0)
    · exact small _ _ (encodePublic_length _ _ (curveKey_shape C s creation expiry) hpl)
        (secPart_length hC _ _ _ hprl h0)
    · exact (bind_common hC ms hms creation expiry _ 12 expiry [] (by simp) (by simp)).2.2.2
  · obtain ⟨k, hk, rfl⟩ := Option.map_eq_some_iff.mp hx.symm
    obtain ⟨s, hes, rfl⟩ := Option.map_eq_some_iff.mp hk
    have hl := ha s hes
    have hpl : (edKey C s creation expiry).base.publicSerialized.length = 32 :=
      hC.ed25519Pub_length s hl
    have hprl : (edKey C s creation expiry).base.privateSerialized.length = 32 := hl
    refine ⟨?_, ?_, ?_⟩
    · exact subkey_plain hC ms hms creation expiry _ _ (edKey_shape C s creation expiry) hpl
        keyFlagAuthenticate (by decide) expiry _ _ (readSecret_secPart C password _ _ hprl h1')
    · exact small _ _ (encodePublic_length _ _ (edKey_shape C s creation expiry) hpl)
        (secPart_length hC _ _ _ hprl h1')
    · exact (bind_common hC ms hms creation expiry _ keyFlagAuthenticate expiry [] (by simp)
        (by simp)).2.2.2
  · obtain ⟨k, hk, rfl⟩ := Option.map_eq_some_iff.mp hx.symm
    obtain ⟨s, hes, rfl⟩ := Option.map_eq_some_iff.mp hk
    have hl := hg s hes
    have hpl : (edKey C s creation expiry).base.publicSerialized.length = 32 :=
      hC.ed25519Pub_length s hl
    have hprl : (edKey C s creation expiry).base.privateSerialized.length = 32 := hl
    have := subkey_sign hC ms hms creation expiry s hl creation expiry _ _
      (readSecret_secPart C password _ _ hprl h2)
    refine ⟨this.1, ?_, this.2⟩
    exact small _ _ (encodePublic_length _ _ (edKey_shape C s creation expiry) hpl)
      (secPart_length hC _ _ _ hprl h2)

/-! ## The whole export -/

/-- The packets of a full export. -/
def fullPackets (C : Crypto) (ks : KeySet) (order : List Nat) (password rnd : Bytes) :
    List (Byte × Bytes) :=
  [(packetTagSecretKey, ks.masterKey.base.encodePublic ++
      secPart C password rnd ks.masterKey.base.privateSerialized),
   (packetTagUserID, ks.userID.encode),
   (packetTagSignature, (signed C ks.masterKey.priv (certReq C ks.masterKey ks.userID)).encode)] ++
  (order.map (fun i => (ksGrps C ks password (after password rnd)).getD i none)).flatMap grpPackets

/-- The packets of a subkey export. -/
def subPackets (C : Crypto) (ks : KeySet) (order : List Nat) (password : Bytes) (cert : Bool)
    (rnd : Bytes) : List (Byte × Bytes) :=
  [(packetTagSecretKey, ks.masterKey.base.encodePrivateDummy),
   (packetTagUserID, ks.userID.encode)] ++
  (if cert then
    [(packetTagSignature, (signed C ks.masterKey.priv (certReq C ks.masterKey ks.userID)).encode)]
   else []) ++
  (order.map (fun i => (ksGrps C ks password rnd).getD i none)).flatMap grpPackets

def writePackets (ps : List (Byte × Bytes)) : Bytes :=
  (ps.map (fun p => encodePacket p.1 p.2)).flatten

theorem encodePackets_eq {C : Crypto} (hC : C.Lawful) (ks : KeySet) (order : List Nat)
    (horder : ∀ password rnd, Enough 3 password rnd →
        ks.encodeAllSubkeyPackets C password rnd =
          .ok (((order.map (fun i => (ksGrps C ks password rnd).getD i none)).map grpBytes).flatten,
            ksRnd ks password rnd))
    (password rnd : Bytes) (h : Enough 4 password rnd) :
    ks.encodePackets C password rnd =
      .ok (writePackets (fullPackets C ks order password rnd), ksRnd ks password (after password rnd)) := by
  unfold KeySet.encodePackets ECKey.encodePrivatePacket
  rw [encodePrivate_eq hC _ _ _ (enough_mono (by omega) h), Res.bind_ok]
  simp only [Res.bind_ok]
  unfold KeySet.encodeSelfCertification
  rw [selfCertify_eq hC]
  simp only [Res.bind_ok]
  rw [horder _ _ (enough_after h)]
  simp only [Res.bind_ok]
  simp only [writePackets, fullPackets, List.map_append, List.flatten_append, ← grps_bytes]
  simp [UserID.encodePacket, Signature.encodePacket]

theorem encodeSubkeys_eq {C : Crypto} (hC : C.Lawful) (ks : KeySet) (order : List Nat)
    (horder : ∀ password rnd, Enough 3 password rnd →
        ks.encodeAllSubkeyPackets C password rnd =
          .ok (((order.map (fun i => (ksGrps C ks password rnd).getD i none)).map grpBytes).flatten,
            ksRnd ks password rnd))
    (password rnd : Bytes) (cert : Bool) (h : Enough 3 password rnd) :
    ks.encodeSubkeyPackets C password cert rnd =
      .ok (writePackets (subPackets C ks order password cert rnd), ksRnd ks password rnd) := by
  unfold KeySet.encodeSubkeyPackets KeySet.encodeSelfCertification
  rw [selfCertify_eq hC]
  cases cert <;>
  · simp only [Res.bind_ok, if_true, Bool.false_eq_true, if_false]
    rw [horder _ _ h]
    simp only [Res.bind_ok]
    simp only [writePackets, subPackets, List.map_append, List.flatten_append, ← grps_bytes]
    simp [UserID.encodePacket, Signature.encodePacket, EdKey.encodePrivateDummyPacket]

theorem grpPackets_ok {C : Crypto} {key : PublicKey} {body : Bytes} (os : List (Option Grp))
    (h : ∀ g, some g ∈ os → g.Good C key body) :
    ∀ p ∈ os.flatMap grpPackets, p.1.toNat < 64 ∧ p.2.length < 2 ^ 32 := by
  intro p hp
  obtain ⟨o, ho, hpo⟩ := List.mem_flatMap.mp hp
  cases o with
  | none => simp [grpPackets] at hpo
  | some g =>
    obtain ⟨-, h1, h2⟩ := h g ho
    simp only [grpPackets, Option.map_some, Option.getD_some, Grp.packets, List.mem_cons,
      List.not_mem_nil, or_false] at hpo
    rcases hpo with rfl | rfl
    · exact ⟨by show packetTagSecretSubkey.toNat < 64; decide, h1⟩
    · exact ⟨by show packetTagSignature.toNat < 64; decide, h2⟩

theorem mem_getD {α : Type} (l : List (Option α)) (i : Nat) (x : α) (h : l.getD i none = some x) :
    some x ∈ l := by
  rw [List.getD_eq_getElem?_getD] at h
  cases hi : l[i]? with
  | none => rw [hi] at h; simp at h
  | some y =>
    rw [hi] at h
    simp only [Option.getD_some] at h
    subst h
    exact List.mem_of_getElem? hi

/-- The subkeys a reader finds, in export order. -/
def ksInfos (C : Crypto) (ks : KeySet) (order : List Nat) (password rnd : Bytes) : List SubkeyInfo :=
  (order.map (fun i => (ksGrps C ks password rnd).getD i none)).filterMap (fun o => o.map Grp.info)

theorem ksInfos_perm (C : Crypto) (ks : KeySet) (order : List Nat) (h : order.Perm [0, 1, 2])
    (password rnd : Bytes) :
    (ksInfos C ks order password rnd).Perm
      ((ksGrps C ks password rnd).filterMap (fun o => o.map Grp.info)) := by
  have : (ksGrps C ks password rnd) =
      [0, 1, 2].map (fun i => (ksGrps C ks password rnd).getD i none) := rfl
  conv_rhs => rw [this]
  exact (h.map _).filterMap _

theorem stub_part (base : ECKey) : base.encodePrivateDummy = base.encodePublic ++
    ([stringToKeySpecifierPrefix, 0, s2kExtensionGNUDummy, 0] ++ s2kGNUExtensionID ++
      [s2kExtensionGNUDummy - 100]) := by
  simp [ECKey.encodePrivateDummy]

/-- Reading a full export. -/
theorem import_full {C : Crypto} (hC : C.Lawful) (uid : UserID) (huid : uid.encode.length < 2 ^ 32)
    (ms : Bytes) (hms : ms.length = 32)
    (creation expiry : Int) (e a g : Option Bytes) (he : ∀ s, e = some s → s.length = 32)
    (ha : ∀ s, a = some s → s.length = 32) (hg : ∀ s, g = some s → s.length = 32)
    (order : List Nat) (password rnd : Bytes) (h : Enough 4 password rnd) :
    let ks := mkKS C uid ms creation expiry e a g
    readPackets (writePackets (fullPackets C ks order password rnd)) =
      some ((fullPackets C ks order password rnd).map (fun p => (p.1.toNat, p.2))) ∧
    importKey C (writePackets (fullPackets C ks order password rnd)) =
      some { key := viewPublic C ks.masterKey.base none
             secret := secView C password rnd ms
             userID := uid.encode
             cert := some (certView C creation expiry)
             subkeys := ksInfos C ks order password (after password rnd) } := by
  intro ks
  have hgood := ksGrps_good hC uid ms hms creation expiry e a g he ha hg password
    (after password rnd) (enough_after h)
  have hgood' : ∀ x, some x ∈ order.map (fun i => (ksGrps C ks password
      (after password rnd)).getD i none) → x.Good C (viewPublic C ks.masterKey.base none)
        ks.masterKey.base.encodePublic := by
    intro x hx
    obtain ⟨i, -, hi⟩ := List.mem_map.mp hx
    exact hgood x (mem_getD _ _ _ hi)
  have hcert := cert_read hC ms hms creation expiry uid
  have hml : ks.masterKey.base.publicSerialized.length = 32 := hC.ed25519Pub_length ms hms
  have hsl := secPart_length hC password rnd ms hms (enough_mono (by omega) h)
  have hpub := encodePublic_length _ _ (edKey_shape C ms creation expiry) hml
  have hpk : readPackets (writePackets (fullPackets C ks order password rnd)) =
      some ((fullPackets C ks order password rnd).map (fun p => (p.1.toNat, p.2))) := by
    apply readPackets_flatten
    intro p hp
    simp only [fullPackets, List.mem_append, List.mem_cons, List.not_mem_nil, or_false] at hp
    rcases hp with (rfl | rfl | rfl) | hp
    · refine ⟨by show packetTagSecretKey.toNat < 64; decide, ?_⟩
      show (_ ++ _ : Bytes).length < _
      rw [List.length_append]
      exact lt_of_le_of_lt (Nat.add_le_add hpub hsl) (by norm_num)
    · exact ⟨by show packetTagUserID.toNat < 64; decide, huid⟩
    · exact ⟨by show packetTagSignature.toNat < 64; decide, hcert.2⟩
    · exact grpPackets_ok _ hgood' p hp
  refine ⟨hpk, ?_⟩
  unfold importKey
  rw [hpk]
  simp only [Option.bind_eq_bind, Option.bind_some, fullPackets, List.map_cons,
    List.cons_append, List.nil_append]
  have t5 : packetTagSecretKey.toNat = 5 := rfl
  have t13 : packetTagUserID.toNat = 13 := rfl
  have t2 : packetTagSignature.toNat = 2 := rfl
  simp only [t5, t13, t2]
  rw [readPublic_encode C ks.masterKey.base none (edKey_shape C ms creation expiry) hml]
  simp only [Option.bind_some]
  rw [readSecret_secPart C password rnd ks.masterKey.base.privateSerialized hms
    (enough_mono (by omega) h)]
  simp only [Option.bind_some]
  have h1 := hcert.1
  rw [show readCert C (viewPublic C ks.masterKey.base none) ks.masterKey.base.encodePublic
    ks.userID.encode (signed C ks.masterKey.priv (certReq C ks.masterKey ks.userID)).encode =
      some (certView C creation expiry) from h1]
  simp only [Option.bind_some]
  rw [readSubkeys_grps C _ _ _ hgood']
  rfl

/-- Reading a subkey export. -/
theorem import_sub {C : Crypto} (hC : C.Lawful) (uid : UserID) (huid : uid.encode.length < 2 ^ 32)
    (ms : Bytes) (hms : ms.length = 32)
    (creation expiry : Int) (e a g : Option Bytes) (he : ∀ s, e = some s → s.length = 32)
    (ha : ∀ s, a = some s → s.length = 32) (hg : ∀ s, g = some s → s.length = 32)
    (order : List Nat) (password rnd : Bytes) (cert : Bool) (h : Enough 3 password rnd) :
    let ks := mkKS C uid ms creation expiry e a g
    readPackets (writePackets (subPackets C ks order password cert rnd)) =
      some ((subPackets C ks order password cert rnd).map (fun p => (p.1.toNat, p.2))) ∧
    importKey C (writePackets (subPackets C ks order password cert rnd)) =
      some { key := viewPublic C ks.masterKey.base none
             secret := .stub
             userID := uid.encode
             cert := if cert then some (certView C creation expiry) else none
             subkeys := ksInfos C ks order password rnd } := by
  intro ks
  have hgood := ksGrps_good hC uid ms hms creation expiry e a g he ha hg password rnd h
  have hgood' : ∀ x, some x ∈ order.map (fun i => (ksGrps C ks password rnd).getD i none) →
      x.Good C (viewPublic C ks.masterKey.base none) ks.masterKey.base.encodePublic := by
    intro x hx
    obtain ⟨i, -, hi⟩ := List.mem_map.mp hx
    exact hgood x (mem_getD _ _ _ hi)
  have hcert := cert_read hC ms hms creation expiry uid
  have hml : ks.masterKey.base.publicSerialized.length = 32 := hC.ed25519Pub_length ms hms
  have hpub := encodePublic_length _ _ (edKey_shape C ms creation expiry) hml
  have hpk : readPackets (writePackets (subPackets C ks order password cert rnd)) =
      some ((subPackets C ks order password cert rnd).map (fun p => (p.1.toNat, p.2))) := by
    apply readPackets_flatten
    intro p hp
    simp only [subPackets, List.mem_append, List.mem_cons, List.not_mem_nil, or_false] at hp
    rcases hp with ((rfl | rfl) | hp) | hp
    · refine ⟨by show packetTagSecretKey.toNat < 64; decide, ?_⟩
      show (ECKey.encodePrivateDummy _).length < _
      rw [stub_part, List.length_append]
      refine lt_of_le_of_lt (Nat.add_le_add hpub (show _ ≤ 8 by decide)) (by norm_num)
    · exact ⟨by show packetTagUserID.toNat < 64; decide, huid⟩
    · cases cert
      · simp at hp
      · simp only [if_true, List.mem_cons, List.not_mem_nil, or_false] at hp
        subst hp
        exact ⟨by show packetTagSignature.toNat < 64; decide, hcert.2⟩
    · exact grpPackets_ok _ hgood' p hp
  refine ⟨hpk, ?_⟩
  unfold importKey
  rw [hpk]
  have t5 : packetTagSecretKey.toNat = 5 := rfl
  have t13 : packetTagUserID.toNat = 13 := rfl
  have t2 : packetTagSignature.toNat = 2 := rfl
  have h1 := hcert.1
  have h1' : readCert C (viewPublic C ks.masterKey.base none) ks.masterKey.base.encodePublic
    ks.userID.encode (signed C ks.masterKey.priv (certReq C ks.masterKey ks.userID)).encode =
      some (certView C creation expiry) := h1
  have hpubr := readPublic_encode C ks.masterKey.base none (edKey_shape C ms creation expiry) hml
    ([stringToKeySpecifierPrefix, 0, s2kExtensionGNUDummy, 0] ++ s2kGNUExtensionID ++
      [s2kExtensionGNUDummy - 100])
  rw [← stub_part] at hpubr
  have hsubs := readSubkeys_grps C _ _ _ hgood'
  cases cert
  · simp only [Option.bind_eq_bind, Option.bind_some, subPackets, List.map_cons,
      List.cons_append, List.nil_append, Bool.false_eq_true, if_false,
      List.append_nil, t5, t13]
    have hnc := readSubkeys_nocert (order.map (fun i => (ksGrps C ks password rnd).getD i none))
    rw [hpubr]
    simp only [Option.bind_some]
    rw [readSecret_stub]
    simp only [Option.bind_some]
    generalize hr : List.map (fun p : Byte × Bytes => (p.1.toNat, p.2)) (List.flatMap grpPackets
      (List.map (fun i => (ksGrps C ks password rnd).getD i none) order)) = r at *
    split
    · exact absurd rfl (hnc _ _)
    · rw [hsubs]; rfl
  · simp only [Option.bind_eq_bind, Option.bind_some, subPackets, List.map_cons,
      List.cons_append, List.nil_append, if_true, t5, t13, t2]
    rw [hpubr]
    simp only [Option.bind_some]
    rw [readSecret_stub]
    simp only [Option.bind_some]
    rw [h1']
    simp only [Option.bind_some]
    rw [hsubs]
    rfl

end Verif.Proofs
