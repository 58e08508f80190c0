import Verif.Spec.Parallel
import Verif.Proofs.Collision
import Verif.Proofs.Success
import Verif.Proofs.Errors
import Verif.Model.Cli.Stderr

/-! # Lemmas for C117: what depends on HKDF -/

namespace Verif.Proofs

open Verif.Model Verif.Model.Cli Verif.Spec Verif.Spec.OpenPGP Verif.Props

/-- Primitives that differ in HKDF only -/
abbrev otherwise (C : Crypto) (h : Bytes → Bytes → Nat → Bytes) : Crypto := { C with hkdfExpand := h }

/-- The keys that the options select -/
def SelectedKey (o : KeyOptions) : Part → Prop
  | .master => True
  | .encryption i => Selected o "encryption" ∧ i = o.encryptionSubkeyIndex.toNat
  | .authentication i => Selected o "authentication" ∧ i = o.authenticationSubkeyIndex.toNat
  | .signing i => Selected o "signing" ∧ i = o.signingSubkeyIndex.toNat

theorem new_otherwise {C : Crypto} {h : Bytes → Bytes → Nat → Bytes} {o : KeyOptions}
    (hh : ∀ k : KeyId, SelectedKey o k.part → ∀ root, h root k.label 32 = C.hkdfExpand root k.label 32)
    (seed : Seed) (creation : Int) : new (otherwise C h) seed creation (some o) = new C seed creation (some o) := by
  have hm : ∀ root, h root keyExpandInfoMaster 32 = C.hkdfExpand root keyExpandInfoMaster 32 :=
    hh ⟨0, 0, .master⟩ trivial
  have he : o.subkeyEnabled subkeyTypeEncryption = true → ∀ root,
      h root (keyExpandInfoSubkey subkeyTypeEncryption o.encryptionSubkeyIndex) 32 =
        C.hkdfExpand root (keyExpandInfoSubkey subkeyTypeEncryption o.encryptionSubkeyIndex) 32 := fun hs root => by
    have := hh ⟨0, 0, .encryption o.encryptionSubkeyIndex.toNat⟩ ⟨(subkeyEnabled_iff o "encryption").1 hs, rfl⟩ root
    rwa [show (KeyId.mk 0 0 (.encryption o.encryptionSubkeyIndex.toNat)).label = _ from
      (subkeyInfo_eq "encryption" o.encryptionSubkeyIndex).symm] at this
  have ha : o.subkeyEnabled subkeyTypeAuthentication = true → ∀ root,
      h root (keyExpandInfoSubkey subkeyTypeAuthentication o.authenticationSubkeyIndex) 32 =
        C.hkdfExpand root (keyExpandInfoSubkey subkeyTypeAuthentication o.authenticationSubkeyIndex) 32 := fun hs root => by
    have := hh ⟨0, 0, .authentication o.authenticationSubkeyIndex.toNat⟩ ⟨(subkeyEnabled_iff o "authentication").1 hs, rfl⟩ root
    rwa [show (KeyId.mk 0 0 (.authentication o.authenticationSubkeyIndex.toNat)).label = _ from
      (subkeyInfo_eq "authentication" o.authenticationSubkeyIndex).symm] at this
  have hg : o.subkeyEnabled subkeyTypeSigning = true → ∀ root,
      h root (keyExpandInfoSubkey subkeyTypeSigning o.signingSubkeyIndex) 32 =
        C.hkdfExpand root (keyExpandInfoSubkey subkeyTypeSigning o.signingSubkeyIndex) 32 := fun hs root => by
    have := hh ⟨0, 0, .signing o.signingSubkeyIndex.toNat⟩ ⟨(subkeyEnabled_iff o "signing").1 hs, rfl⟩ root
    rwa [show (KeyId.mk 0 0 (.signing o.signingSubkeyIndex.toNat)).label = _ from
      (subkeyInfo_eq "signing" o.signingSubkeyIndex).symm] at this
  have key : ∀ c, derivePGPKeySet (otherwise C h) seed c o = derivePGPKeySet C seed c o := by
    intro c
    unfold derivePGPKeySet
    dsimp only
    show (Verif.Model.rootKey C seed c >>= _) = _
    congr 1
    funext root
    rw [hm root]
    show (Verif.Model.Pgp.newEdKey C _ _ _ >>= _) = _
    congr 1
    funext mk
    congr 1
    · by_cases hs : o.subkeyEnabled subkeyTypeEncryption = true
      · rw [if_pos hs, if_pos hs, he hs]; rfl
      · rw [if_neg hs, if_neg hs]
    · funext e
      congr 1
      · by_cases hs : o.subkeyEnabled subkeyTypeAuthentication = true
        · rw [if_pos hs, if_pos hs, ha hs]; rfl
        · rw [if_neg hs, if_neg hs]
      · funext a
        congr 1
        by_cases hs : o.subkeyEnabled subkeyTypeSigning = true
        · rw [if_pos hs, if_pos hs, hg hs]; rfl
        · rw [if_neg hs, if_neg hs]
  unfold new
  simp only [Option.getD_some, key]

/-! ## the phrase and its password -/

section
variable {C C' : Crypto} (h : C'.toPhraseCrypto = C.toPhraseCrypto)
include h

theorem passwordLoop_phrase (dm : DecodedMnemonic) (ps) : passwordLoop C' dm ps = passwordLoop C dm ps := by
  induction ps with
  | nil => rfl
  | cons p ps ih => cases p <;> simp only [passwordLoop, h, ih]

theorem passwordLoopE_phrase (dm : DecodedMnemonic) (ps) : passwordLoopE C' dm ps = passwordLoopE C dm ps := by
  induction ps with
  | nil => rfl
  | cons p ps ih => cases p <;> simp only [passwordLoopE, h, ih]

theorem passwordLoopV_phrase (dm : DecodedMnemonic) (ps) : passwordLoopV C' dm ps = passwordLoopV C dm ps := by
  induction ps with
  | nil => rfl
  | cons p ps ih => cases p <;> simp only [passwordLoopV, h, ih]

theorem askSeed_phrase : askSeed C' = askSeed C := by
  funext dm st
  simp only [askSeed, seedLoop, passwordLoop_phrase h, h]

theorem askSeedE_phrase : askSeedE C' = askSeedE C := by
  funext dm st
  simp only [askSeedE, passwordLoopE_phrase h, askSeed_phrase h]

theorem askSeedV_phrase : askSeedV C' = askSeedV C := by
  funext dm st
  simp only [askSeedV, passwordLoopV_phrase h, askSeed_phrase h]

theorem input_phrase (L : WordList) : decodeMnemonicFromInput L C' = decodeMnemonicFromInput L C := by
  funext env opts
  simp only [decodeMnemonicFromInput, askSeed_phrase h]

theorem inputE_phrase (os : OsText) (L : WordList) : decodeMnemonicFromInputE os L C' = decodeMnemonicFromInputE os L C := by
  funext env opts
  simp only [decodeMnemonicFromInputE, askSeedE_phrase h]

theorem inputV_phrase (L : WordList) : decodeMnemonicFromInputV L C' = decodeMnemonicFromInputV L C := by
  funext env opts verbose
  simp only [decodeMnemonicFromInputV, askSeedV_phrase h]

theorem convert_phrase (L : WordList) (env : Env) (opts : ConvertOptions) :
    decodeAndConvertPhrase L C' env opts = decodeAndConvertPhrase L C env opts := by
  simp only [decodeAndConvertPhrase, input_phrase h, h]

theorem convertE_phrase (os : OsText) (L : WordList) (env : Env) (opts : ConvertOptions) :
    decodeAndConvertPhraseE os L C' env opts = decodeAndConvertPhraseE os L C env opts := by
  simp only [decodeAndConvertPhraseE, inputE_phrase h, h]

theorem convertV_phrase (L : WordList) (env : Env) (opts : ConvertOptions) (verbose : Bool) :
    decodeAndConvertPhraseV L C' env opts verbose = decodeAndConvertPhraseV L C env opts verbose := by
  simp only [decodeAndConvertPhraseV, inputV_phrase h, h]

end

/-! ## the keys -/

theorem export_otherwise (C : Crypto) (h) : exportKey (otherwise C h) = exportKey C := rfl

theorem exportE_otherwise (os : OsText) (C : Crypto) (h) : exportKeyE os (otherwise C h) = exportKeyE os C := rfl

theorem debug_otherwise (F : Fmt) (C : Crypto) (h) : printKeyDebugInfo F (otherwise C h) = printKeyDebugInfo F C := rfl

theorem lift_congr {α β : Type} {r : Res α} {f g : α → Prog β} (h : ∀ a, r = .ok a → f a = g a) :
    (lift r >>= f) = (lift r >>= g) := by
  funext st
  cases r with
  | ok a => show f a st = g a st; rw [h a rfl]
  | err e => rfl
  | panic p => rfl

theorem silent_congr {α β : Type} {r : Res α} {f g : α → ProgV β} (h : ∀ a, r = .ok a → f a = g a) :
    (silent (lift r) >>= f) = (silent (lift r) >>= g) := by
  funext st
  cases r with
  | ok a => show f a _ = g a _; rw [h a rfl]
  | err e => rfl
  | panic p => rfl

theorem liftE_congr {α β : Type} {r : ResE α} {f g : α → ProgE β} (h : ∀ a, r = .ok a → f a = g a) :
    (liftE r >>= f) = (liftE r >>= g) := by
  funext st
  cases r with
  | ok a => show f a st = g a st; rw [h a rfl]
  | err e => rfl
  | panic p => rfl

theorem asked_selected {only : Bytes} {enc auth sig : Nat} (h1 : enc ≤ 65535) (h2 : auth ≤ 65535) (h3 : sig ≤ 65535)
    {m : Bool} {subkeys} (hd : decodeOnlyKeyTypes only = .ok (m, subkeys)) {o : KeyOptions} (hs : o.subkeys = subkeys)
    (e1 : o.encryptionSubkeyIndex = UInt16.ofNat enc) (e2 : o.authenticationSubkeyIndex = UInt16.ofNat auth)
    (e3 : o.signingSubkeyIndex = UInt16.ofNat sig) {p : Part} (hp : SelectedKey o p) : AskedFor only enc auth sig p := by
  obtain ⟨part, h4, -, h5⟩ := good_only hd
  have sel := h5 o hs
  have small : ∀ {n : Nat}, n ≤ 65535 → (UInt16.ofNat n).toNat = n := fun h => by
    rw [UInt16.toNat_ofNat']; exact Nat.mod_eq_of_lt (by omega)
  cases p with
  | master => exact .master
  | encryption i =>
    obtain ⟨h6, rfl⟩ := hp
    rw [e1, small h1]
    exact .encryption h4 ((sel _ (by simp)).1 h6)
  | authentication i =>
    obtain ⟨h6, rfl⟩ := hp
    rw [e2, small h2]
    exact .authentication h4 ((sel _ (by simp)).1 h6)
  | signing i =>
    obtain ⟨h6, rfl⟩ := hp
    rw [e3, small h3]
    exact .signing h4 ((sel _ (by simp)).1 h6)

section
variable {C : Crypto} {h : Bytes → Bytes → Nat → Bytes}

theorem generate_otherwise (L : WordList) (env : Env) (opts : GenerateOptions)
    (hh : ∀ k : KeyId, AskedFor opts.key.only 0 0 0 k.part → ∀ root, h root k.label 32 = C.hkdfExpand root k.label 32) :
    generateAndPrintKey L (otherwise C h) env opts = generateAndPrintKey L C env opts := by
  unfold generateAndPrintKey
  refine lift_congr fun ttl _ => lift_congr fun a ha => ?_
  have key := new_otherwise (C := C) (h := h) (o := ⟨trimSpace opts.key.name, trimSpace opts.key.email, ttl, 0, 0, 0, a.2⟩)
    fun k hk => hh k (asked_selected (by omega) (by omega) (by omega) ha rfl rfl rfl rfl hk)
  simp only [export_otherwise, key]
  rfl

theorem generateV_otherwise (F : Fmt) (L : WordList) (env : Env) (opts : GenerateOptions) (verbose : Bool)
    (hh : ∀ k : KeyId, AskedFor opts.key.only 0 0 0 k.part → ∀ root, h root k.label 32 = C.hkdfExpand root k.label 32) :
    generateAndPrintKeyV F L (otherwise C h) env opts verbose = generateAndPrintKeyV F L C env opts verbose := by
  unfold generateAndPrintKeyV
  refine silent_congr fun ttl _ => silent_congr fun a ha => ?_
  have key := new_otherwise (C := C) (h := h) (o := ⟨trimSpace opts.key.name, trimSpace opts.key.email, ttl, 0, 0, 0, a.2⟩)
    fun k hk => hh k (asked_selected (by omega) (by omega) (by omega) ha rfl rfl rfl rfl hk)
  simp only [export_otherwise, debug_otherwise, key]
  rfl

theorem generateE_otherwise (F : Fmt) (os : OsText) (L : WordList) (env : Env) (opts : GenerateOptions)
    (hh : ∀ k : KeyId, AskedFor opts.key.only 0 0 0 k.part → ∀ root, h root k.label 32 = C.hkdfExpand root k.label 32) :
    generateAndPrintKeyE F os L (otherwise C h) env opts = generateAndPrintKeyE F os L C env opts := by
  unfold generateAndPrintKeyE
  refine liftE_congr fun ttl _ => liftE_congr fun a ha => ?_
  have ha' : decodeOnlyKeyTypes opts.key.only = .ok a := by rw [← plain_only F, ha]; rfl
  have key := new_otherwise (C := C) (h := h) (o := ⟨trimSpace opts.key.name, trimSpace opts.key.email, ttl, 0, 0, 0, a.2⟩)
    fun k hk => hh k (asked_selected (by omega) (by omega) (by omega) ha' rfl rfl rfl rfl hk)
  simp only [exportE_otherwise, newE, key]

/-- With an index above 65535 nothing is derived. -/
abbrev RecoverAgrees (C : Crypto) (h : Bytes → Bytes → Nat → Bytes) (opts : RecoverOptions) : Prop :=
  opts.encIndex ≤ 65535 → opts.authIndex ≤ 65535 → opts.sigIndex ≤ 65535 →
    ∀ k : KeyId, AskedFor opts.key.only opts.encIndex opts.authIndex opts.sigIndex k.part →
      ∀ root, h root k.label 32 = C.hkdfExpand root k.label 32

theorem recover_otherwise (L : WordList) (env : Env) (opts : RecoverOptions) (hh : RecoverAgrees C h opts) :
    recoverAndPrintKey L (otherwise C h) env opts = recoverAndPrintKey L C env opts := by
  unfold recoverAndPrintKey
  refine lift_congr fun ttl _ => ?_
  split
  · rfl
  · rename_i hi
    unfold maxSubkeyIndex at hi
    refine lift_congr fun a ha => ?_
    have key := new_otherwise (C := C) (h := h) (o := ⟨trimSpace opts.key.name, trimSpace opts.key.email, ttl,
      UInt16.ofNat opts.encIndex, UInt16.ofNat opts.authIndex, UInt16.ofNat opts.sigIndex, a.2⟩)
      fun k hk => hh (by omega) (by omega) (by omega) k
        (asked_selected (by omega) (by omega) (by omega) ha rfl rfl rfl rfl hk)
    simp only [export_otherwise, key, input_phrase (C := C) (C' := otherwise C h) rfl]

theorem recoverV_otherwise (F : Fmt) (L : WordList) (env : Env) (opts : RecoverOptions) (verbose : Bool)
    (hh : RecoverAgrees C h opts) :
    recoverAndPrintKeyV F L (otherwise C h) env opts verbose = recoverAndPrintKeyV F L C env opts verbose := by
  unfold recoverAndPrintKeyV
  refine silent_congr fun ttl _ => ?_
  split
  · rfl
  · rename_i hi
    unfold maxSubkeyIndex at hi
    refine silent_congr fun a ha => ?_
    have key := new_otherwise (C := C) (h := h) (o := ⟨trimSpace opts.key.name, trimSpace opts.key.email, ttl,
      UInt16.ofNat opts.encIndex, UInt16.ofNat opts.authIndex, UInt16.ofNat opts.sigIndex, a.2⟩)
      fun k hk => hh (by omega) (by omega) (by omega) k
        (asked_selected (by omega) (by omega) (by omega) ha rfl rfl rfl rfl hk)
    simp only [export_otherwise, debug_otherwise, key, inputV_phrase (C := C) (C' := otherwise C h) rfl]

theorem recoverE_otherwise (F : Fmt) (os : OsText) (L : WordList) (env : Env) (opts : RecoverOptions)
    (hh : RecoverAgrees C h opts) :
    recoverAndPrintKeyE F os L (otherwise C h) env opts = recoverAndPrintKeyE F os L C env opts := by
  unfold recoverAndPrintKeyE
  refine liftE_congr fun ttl _ => ?_
  split
  · rfl
  · rename_i hi
    unfold maxSubkeyIndex at hi
    refine liftE_congr fun a ha => ?_
    have ha' : decodeOnlyKeyTypes opts.key.only = .ok a := by rw [← plain_only F, ha]; rfl
    have key := new_otherwise (C := C) (h := h) (o := ⟨trimSpace opts.key.name, trimSpace opts.key.email, ttl,
      UInt16.ofNat opts.encIndex, UInt16.ofNat opts.authIndex, UInt16.ofNat opts.sigIndex, a.2⟩)
      fun k hk => hh (by omega) (by omega) (by omega) k
        (asked_selected (by omega) (by omega) (by omega) ha' rfl rfl rfl rfl hk)
    simp only [exportE_otherwise, newE, key, inputE_phrase (C := C) (C' := otherwise C h) rfl]

end

/-! ## readers -/

theorem readSubkeys_otherwise (C : Crypto) (h) (key : PublicKey) (body : Bytes) (l : List (Nat × Bytes)) :
    readSubkeys (otherwise C h) key body l = readSubkeys C key body l := by
  have e : readSubkey (otherwise C h) = readSubkey C := rfl
  fun_induction readSubkeys C key body l with
  | case1 => rfl
  | case2 subkeyBody sigBody rest ih => simp only [readSubkeys, e, ih]
  | case3 l h1 h2 =>
    unfold readSubkeys
    split
    · exact absurd rfl h1
    · exact absurd rfl (h2 _ _ _)
    · rfl

theorem importKey_otherwise (C : Crypto) (h) (b : Bytes) : importKey (otherwise C h) b = importKey C b := by
  unfold importKey
  simp only [readSubkeys_otherwise]
  rfl

theorem foldl_num : ∀ (b : Bytes) (x : Nat), b.foldl (fun a x => 256 * a + x.toNat) x = x * 256 ^ b.length + num b
  | [], x => by simp [num]
  | y :: b, x => by
    have : num (y :: b) = (256 * 0 + y.toNat) * 256 ^ b.length + num b := foldl_num b _
    rw [List.foldl_cons, foldl_num b, this, List.length_cons, pow_succ]
    ring

theorem num_cons (y : Byte) (b : Bytes) : num (y :: b) = y.toNat * 256 ^ b.length + num b := by
  conv_lhs => unfold num
  rw [List.foldl_cons, foldl_num]
  simp

theorem num_lt : ∀ b : Bytes, num b < 256 ^ b.length
  | [] => by simp [num]
  | y :: b => by
    have h1 := num_lt b
    have h2 := y.toNat_lt
    rw [num_cons, List.length_cons, pow_succ]
    have : (y.toNat + 1) * 256 ^ b.length ≤ 256 * 256 ^ b.length := Nat.mul_le_mul_right _ (by omega)
    rw [Nat.add_mul] at this
    omega

theorem num_inj : ∀ {a b : Bytes}, a.length = b.length → num a = num b → a = b
  | [], [], _, _ => rfl
  | x :: a, y :: b, hl, h => by
    have hl : a.length = b.length := by simpa using hl
    rw [num_cons, num_cons, ← hl] at h
    have h1 := num_lt a
    have h2 := num_lt b
    rw [← hl] at h2
    have e1 : x.toNat = y.toNat := by
      have hx : (x.toNat * 256 ^ a.length + num a) / 256 ^ a.length = x.toNat := by
        rw [Nat.mul_comm, Nat.mul_add_div (by positivity), Nat.div_eq_of_lt h1, Nat.add_zero]
      have hy : (y.toNat * 256 ^ a.length + num b) / 256 ^ a.length = y.toNat := by
        rw [Nat.mul_comm, Nat.mul_add_div (by positivity), Nat.div_eq_of_lt h2, Nat.add_zero]
      rw [← hx, ← hy, h]
    have e2 : num a = num b := by rw [e1] at h; omega
    rw [UInt8.toNat_inj.1 e1, num_inj hl e2]

end Verif.Proofs
