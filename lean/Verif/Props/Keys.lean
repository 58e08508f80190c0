import Verif.Props.Seed
import Verif.Proofs.Views
import Verif.ToyCrypto

/-!
# Properties of key construction and recovery: C20-C29, and the parts of C11, C17, C18 about keys
-/

namespace Verif.Props

open Verif.Model Verif.Model.Pgp Verif.Proofs Verif.Instances
open Verif.Spec (Selected)

/-- The options in force: nil means the documented defaults. -/
def inForce (opts : Option KeyOptions) : KeyOptions := opts.getD Spec.noOptions

/-- Options used by the examples: a name and an e-mail, a TTL of a year, two subkeys. -/
def sampleOpts : KeyOptions :=
  { name := str "alice", email := str "a@b.c", ttl := 31536000 * 10 ^ 9
    encryptionSubkeyIndex := 0, authenticationSubkeyIndex := 7, signingSubkeyIndex := 65535
    subkeys := some [str "signing", str "encryption"] }

/-- 2023-11-14T22:13:20.000000005Z -/
def sampleTime : Int := 1700000000 * 10 ^ 9 + 5

/-! ## C20 -/

/-- C20. New's outcome for every supported seed: the errors in this order, and the creation time
rounded down to a second. `1672531200` is 2023-01-01T00:00:00Z. -/
theorem c20_new {C : Crypto} (hC : C.Lawful) (x : Int) (hx : x.natAbs < 2 ^ 128) (era creation : Int)
    (opts : Option KeyOptions) :
    (era ≠ 0 → new C ⟨era, x⟩ creation opts = .err .invalidEra) ∧
    (era = 0 → (inForce opts).ttl < 0 → new C ⟨era, x⟩ creation opts = .err .ttlInvalid) ∧
    (era = 0 → 0 ≤ (inForce opts).ttl → (1672531200 + 2 ^ 31 - 1) * 10 ^ 9 < creation →
      new C ⟨era, x⟩ creation opts = .err .creationTooLate) ∧
    (era = 0 → 0 ≤ (inForce opts).ttl → creation < 1672531200 * 10 ^ 9 →
      new C ⟨era, x⟩ creation opts = .err .creationTooEarly) ∧
    (era = 0 → 0 ≤ (inForce opts).ttl → 1672531200 * 10 ^ 9 ≤ creation →
      creation ≤ (1672531200 + 2 ^ 31 - 1) * 10 ^ 9 →
      ∃ mnk, new C ⟨era, x⟩ creation opts = .ok mnk ∧ mnk.createdAt % 10 ^ 9 = 0 ∧
        mnk.createdAt ≤ creation ∧ creation < mnk.createdAt + 10 ^ 9) := by
  have e : inForce opts = opts.getD KeyOptions.zero := rfl
  have hmax : maxCreationTime = (1672531200 + 2 ^ 31 - 1) * 10 ^ 9 := by decide
  have hmin : epochStart = 1672531200 * 10 ^ 9 := rfl
  have hnew := new_eq hC ⟨era, x⟩ hx creation opts
  rw [← e, hmax, hmin] at hnew
  simp only at hnew
  refine ⟨?_, ?_, ?_, ?_, ?_⟩
  · intro h; rw [hnew, if_pos h]
  · intro h h1; rw [hnew, if_neg (by simpa using h), if_pos h1]
  · intro h h1 h2; rw [hnew, if_neg (by simpa using h), if_neg (by omega), if_pos h2]
  · intro h h1 h2
    rw [hnew, if_neg (by simpa using h), if_neg (by omega), if_neg (by omega), if_pos h2]
  · intro h h1 h2 h3
    rw [hnew, if_neg (by simpa using h), if_neg (by omega), if_neg (by omega), if_neg (by omega)]
    refine ⟨_, rfl, ?_, ?_, ?_⟩ <;> simp only [Mnemonikey.createdAt] <;> omega

/-- A supported time with a fractional second. -/
example : ∃ mnk, new toyCrypto ⟨0, 5⟩ sampleTime (some sampleOpts) = .ok mnk ∧
    mnk.createdAt % 10 ^ 9 = 0 ∧ mnk.createdAt ≤ sampleTime ∧
    sampleTime < mnk.createdAt + 10 ^ 9 :=
  (c20_new toyCrypto_lawful 5 (by decide) 0 sampleTime (some sampleOpts)).2.2.2.2 rfl
    (by decide) (by decide) (by decide)

/-- The last nanosecond that is still accepted, and the next one. -/
example : (∃ mnk, new toyCrypto ⟨0, 5⟩ ((1672531200 + 2 ^ 31 - 1) * 10 ^ 9) none = .ok mnk) ∧
    new toyCrypto ⟨0, 5⟩ ((1672531200 + 2 ^ 31 - 1) * 10 ^ 9 + 1) none = .err .creationTooLate := by
  have h := c20_new toyCrypto_lawful 5 (by decide) 0
  refine ⟨?_, (h _ none).2.2.1 rfl (by decide) (by decide)⟩
  obtain ⟨mnk, h1, -⟩ := (h ((1672531200 + 2 ^ 31 - 1) * 10 ^ 9) none).2.2.2.2 rfl (by decide)
    (by decide) (by decide)
  exact ⟨mnk, h1⟩

/-! ## C18 (keys) and C21 -/

theorem creationOffset_eq (x : Int) (ks : KeySet) (second : Nat) (h1 : 1672531200 ≤ second)
    (h2 : second < 1672531200 + 2 ^ 31) :
    (Mnemonikey.mk ks ⟨0, x⟩ (second * 10 ^ 9)).creationOffset = second - 1672531200 := by
  unfold Mnemonikey.creationOffset
  simp only
  have e : timeSub ((second : Int) * 10 ^ 9) epochStart = ((second : Int) - 1672531200) * 10 ^ 9 := by
    rw [epochStart_eq]; unfold timeSub; omega
  have h3 : durDiv (((second : Int) - 1672531200) * 10 ^ 9) epochIncrement =
      (second : Int) - 1672531200 := by
    unfold durDiv
    rw [show epochIncrement = (10 ^ 9 : Int) from rfl, Int.tdiv_eq_ediv_of_nonneg (by omega)]
    omega
  rw [e, h3]
  unfold u32
  omega

/-- C18. A key built by New always has an offset below 2^31, so its encoders never panic for a
non-negative seed. -/
theorem c18_new_offset {C : Crypto} (hC : C.Lawful) (L : WordList) (era x : Int) (hx : 0 ≤ x)
    (s : Seed) (hs : newSeed era x = .ok s) (creation : Int) (opts : Option KeyOptions)
    (mnk : Mnemonikey) (h : new C s creation opts = .ok mnk) :
    mnk.creationOffset < 2 ^ 31 ∧ (mnk.encodeMnemonicPlaintext L).isOk = true ∧
    ∀ password rnd, password ≠ [] → 3 ≤ rnd.length →
      (mnk.encodeMnemonicEncrypted L C password rnd).isOk = true := by
  obtain ⟨second, -, h1, h2, -, rfl, hx2, rfl⟩ := new_shape hC hs h
  obtain ⟨n, rfl⟩ := Int.eq_ofNat_of_zero_le hx
  have hn : n < 2 ^ 128 := by simpa using hx2
  have ho := creationOffset_eq (n : Int) (keySetOf C (n : Int).natAbs second (second * 10 ^ 9)
    (expiryOf (second * 10 ^ 9) (opts.getD KeyOptions.zero).ttl) (opts.getD KeyOptions.zero))
    second h1 h2
  refine ⟨by rw [ho]; omega, ?_, ?_⟩
  · unfold Mnemonikey.encodeMnemonicPlaintext
    rw [ho, (c02_plaintext_layout L n _ hn (by omega)).1]
    rfl
  · intro password rnd hp hr
    unfold Mnemonikey.encodeMnemonicEncrypted
    rw [ho]
    obtain ⟨ws, hw⟩ := c15_reads_three L hC.phrase n _ hn (show second - 1672531200 < 2 ^ 31 by omega)
      password hp rnd hr
    rw [hw]; rfl

theorem creation_eq (dm : DecodedMnemonic) (second : Nat) (h1 : 1672531200 ≤ second)
    (h2 : second < 1672531200 + 2 ^ 31) (h : dm.creationOffset = second - 1672531200) :
    dm.creation = second * 10 ^ 9 := by
  unfold DecodedMnemonic.creation
  rw [h, epochStart_eq, show epochIncrement = (10 ^ 9 : Int) from rfl]
  unfold timeAdd durMul wrap64
  omega

theorem new_again {C : Crypto} (hC : C.Lawful) {era x : Int} {s : Seed} (hs : newSeed era x = .ok s)
    {creation : Int} {opts : Option KeyOptions} {mnk : Mnemonikey}
    (h : new C s creation opts = .ok mnk) : new C s mnk.createdAt opts = .ok mnk := by
  obtain ⟨second, -, h1, h2, h3, rfl, hx2, rfl⟩ := new_shape hC hs h
  have e : ((second : Int) * 10 ^ 9) / 10 ^ 9 = second := by omega
  rw [new_eq hC ⟨0, x⟩ hx2]
  rw [maxCreation_eq, epochStart_eq]
  simp only [Mnemonikey.createdAt, e, Int.toNat_natCast]
  rw [if_neg (by simp), if_neg (by omega), if_neg (by omega), if_neg (by omega)]

/-- C21. The plaintext phrase of a key recovers exactly that key (hence the same fingerprints, times,
user ID and exports). -/
theorem c21_recover_plaintext {C : Crypto} (hC : C.Lawful) {L : WordList} (hL : L.Lawful)
    (era x : Int) (hx : 0 ≤ x) (s : Seed) (hs : newSeed era x = .ok s) (creation : Int)
    (opts : Option KeyOptions) (mnk : Mnemonikey) (h : new C s creation opts = .ok mnk) :
    ∃ ws, mnk.encodeMnemonicPlaintext L = .ok ws ∧ recoverPlaintext L C ws opts = .ok mnk := by
  have hagain := new_again hC hs h
  obtain ⟨second, -, h1, h2, h3, rfl, hx2, rfl⟩ := new_shape hC hs h
  have ho := creationOffset_eq x (keySetOf C x.natAbs second (second * 10 ^ 9)
    (expiryOf (second * 10 ^ 9) (opts.getD KeyOptions.zero).ttl) (opts.getD KeyOptions.zero))
    second h1 h2
  obtain ⟨ws, dm, hw, hd, -, -, hoff, hseed, -, -⟩ := c01_plaintext_round_trip hL era x hx ⟨0, x⟩ hs
    (second - 1672531200) (by omega)
  refine ⟨ws, ?_, ?_⟩
  · unfold Mnemonikey.encodeMnemonicPlaintext
    rw [ho]; exact hw
  · unfold recoverPlaintext
    rw [hd, Res.bind_ok, hseed, Res.bind_ok, creation_eq dm second h1 h2 hoff]
    exact hagain

/-- C21. So does every encrypted phrase with its password. -/
theorem c21_recover_encrypted {C : Crypto} (hC : C.Lawful) {L : WordList} (hL : L.Lawful)
    (era x : Int) (hx : 0 ≤ x) (s : Seed) (hs : newSeed era x = .ok s) (creation : Int)
    (opts : Option KeyOptions) (mnk : Mnemonikey) (h : new C s creation opts = .ok mnk)
    (password : Bytes) (hp : password ≠ []) (rnd : Bytes) (hr : 3 ≤ rnd.length) :
    ∃ ws rest, mnk.encodeMnemonicEncrypted L C password rnd = .ok (ws, rest) ∧
      recoverEncrypted L C ws password opts = .ok mnk := by
  have hagain := new_again hC hs h
  obtain ⟨second, -, h1, h2, h3, rfl, hx2, rfl⟩ := new_shape hC hs h
  have ho := creationOffset_eq x (keySetOf C x.natAbs second (second * 10 ^ 9)
    (expiryOf (second * 10 ^ 9) (opts.getD KeyOptions.zero).ttl) (opts.getD KeyOptions.zero))
    second h1 h2
  obtain ⟨n, rfl⟩ := Int.eq_ofNat_of_zero_le hx
  have hn : n < 2 ^ 128 := by simpa using hx2
  obtain ⟨ws, rest, dm, hw, hd, -, -, hoff, hseed⟩ := c09_encrypted_round_trip hL hC.phrase n
    (second - 1672531200) hn (by omega) password hp rnd hr
  refine ⟨ws, rest, ?_, ?_⟩
  · unfold Mnemonikey.encodeMnemonicEncrypted
    rw [ho]; exact hw
  · unfold recoverEncrypted
    rw [hd, Res.bind_ok, hseed, Res.bind_ok, creation_eq dm second h1 h2 hoff]
    exact hagain

/-- Keys to which C18 and C21 apply exist: seed 5 and the sample options. -/
example : ∃ mnk, new toyCrypto ⟨0, 5⟩ sampleTime (some sampleOpts) = .ok mnk ∧
    (∃ ws, mnk.encodeMnemonicPlaintext toyWordList = .ok ws ∧
      recoverPlaintext toyWordList toyCrypto ws (some sampleOpts) = .ok mnk) ∧
    (∃ ws rest, mnk.encodeMnemonicEncrypted toyWordList toyCrypto [1] [7, 8, 9, 10] = .ok (ws, rest) ∧
      recoverEncrypted toyWordList toyCrypto ws [1] (some sampleOpts) = .ok mnk) ∧
    mnk.creationOffset < 2 ^ 31 := by
  obtain ⟨mnk, h, -⟩ := (c20_new toyCrypto_lawful 5 (by decide) 0 sampleTime
    (some sampleOpts)).2.2.2.2 rfl (by decide) (by decide) (by decide)
  have hs : newSeed 0 5 = .ok ⟨0, 5⟩ := by decide
  exact ⟨mnk, h, c21_recover_plaintext toyCrypto_lawful toyWordList_lawful 0 5 (by decide) _ hs _ _ _ h,
    c21_recover_encrypted toyCrypto_lawful toyWordList_lawful 0 5 (by decide) _ hs _ _ _ h [1]
      (by simp) _ (by simp),
    (c18_new_offset toyCrypto_lawful toyWordList 0 5 (by decide) _ hs _ _ _ h).1⟩

/-! ## C17 (keys) -/

/-- C17. For a negative integer New derives the keys of its absolute value: everything but the
stored integer is the same. -/
theorem c17_new_abs {C : Crypto} (hC : C.Lawful) (x : Int) (hx : x.natAbs < 2 ^ 128) (creation : Int)
    (opts : Option KeyOptions) (mnk : Mnemonikey) (h : new C ⟨0, x⟩ creation opts = .ok mnk) :
    new C ⟨0, -x⟩ creation opts = .ok { mnk with seed := ⟨0, -x⟩ } := by
  have h1 := new_eq hC ⟨0, x⟩ hx creation opts
  have h2 := new_eq hC ⟨0, -x⟩ (by simpa using hx) creation opts
  rw [h] at h1
  rw [h2]
  simp only [Int.natAbs_neg] at *
  split at h1
  · cases h1
  · split at h1
    · cases h1
    · split at h1
      · cases h1
      · split at h1
        · cases h1
        · rename_i _ a b c
          rw [if_neg (by simp), if_neg a, if_neg b, if_neg c, Res.ok.inj h1]

example : ∃ mnk, new toyCrypto ⟨0, 5⟩ sampleTime none = .ok mnk ∧
    new toyCrypto ⟨0, -5⟩ sampleTime none = .ok { mnk with seed := ⟨0, -5⟩ } := by
  obtain ⟨mnk, h, -⟩ := (c20_new toyCrypto_lawful 5 (by decide) 0 sampleTime none).2.2.2.2 rfl
    (by decide) (by decide) (by decide)
  exact ⟨mnk, h, c17_new_abs toyCrypto_lawful 5 (by decide) _ _ _ h⟩

/-! ## C22 and C11 (recovery) -/

theorem new_of_decoded {C : Crypto} (hC : C.Lawful) (x : Int) (off : Nat)
    (hx : x.natAbs < 2 ^ 128) (ho : off < 2 ^ 31) (dm : DecodedMnemonic)
    (hoff : dm.creationOffset = off) (opts : Option KeyOptions) :
    (0 ≤ (inForce opts).ttl → ∃ mnk, new C ⟨0, x⟩ dm.creation opts = .ok mnk ∧
      mnk.createdAt = (1672531200 + off) * 10 ^ 9 ∧ mnk.seed = ⟨0, x⟩) ∧
    ((inForce opts).ttl < 0 → new C ⟨0, x⟩ dm.creation opts = .err .ttlInvalid) := by
  have hcr := creation_eq dm (1672531200 + off) (by omega) (by omega) (by omega)
  have h := c20_new hC x hx 0 dm.creation opts
  refine ⟨fun ht => ?_, fun ht => h.2.1 rfl ht⟩
  have e := new_eq hC ⟨0, x⟩ hx dm.creation opts
  have e0 : inForce opts = opts.getD KeyOptions.zero := rfl
  rw [← e0, maxCreation_eq, epochStart_eq, hcr, if_neg (by simp), if_neg (by omega),
    if_neg (by omega), if_neg (by omega)] at e
  rw [hcr]
  refine ⟨_, e, ?_, rfl⟩
  simp only [Mnemonikey.createdAt]
  omega

/-- C22. A phrase that decodes as plaintext always recovers, unless the TTL is negative. The key has
the phrase's seed and creation second. -/
theorem c22_recovery_total {C : Crypto} (hC : C.Lawful) {L : WordList} (hL : L.Lawful)
    (ws : List Bytes) (dm : DecodedMnemonic) (h : decodeMnemonic L ws = .ok dm)
    (hv : dm.version = 0) (opts : Option KeyOptions) :
    (0 ≤ (inForce opts).ttl → ∃ mnk, recoverPlaintext L C ws opts = .ok mnk ∧
      dm.seed = .ok mnk.seed ∧ mnk.createdAt = (1672531200 + dm.creationOffset) * 10 ^ 9) ∧
    ((inForce opts).ttl < 0 → recoverPlaintext L C ws opts = .err .ttlInvalid) := by
  obtain ⟨c, hc, rfl, hw, _⟩ := decode_ok_words hL h
  cases c with
  | encrypted => simp [decodedOf] at hv
  | plaintext s o =>
    obtain ⟨hs, ho⟩ := hc
    have hs' : (s : Int).natAbs < 2 ^ 128 := by simpa using hs
    have hseed : (decodedOf (.plaintext s o)).seed = .ok ⟨0, (s : Int)⟩ :=
      (newSeed_ok_iff 0 s _).mpr ⟨rfl, hs', rfl⟩
    have hn := new_of_decoded hC s o hs' ho (decodedOf (.plaintext s o)) rfl opts
    unfold recoverPlaintext
    rw [h, Res.bind_ok, hseed, Res.bind_ok]
    refine ⟨fun ht => ?_, hn.2⟩
    obtain ⟨mnk, h1, h2, h3⟩ := hn.1 ht
    exact ⟨mnk, h1, by rw [h3], h2⟩

theorem decryptSeed_bound {C : PhraseCrypto} (dm : DecodedMnemonic) (password : Bytes) (s : Seed)
    (h : dm.decryptSeed C password = .ok s) :
    ∃ x : Int, x.natAbs < 2 ^ 128 ∧ s = ⟨0, x⟩ := by
  unfold DecodedMnemonic.decryptSeed at h
  by_cases he : dm.encrypted = true
  · rw [if_neg (by simp [he])] at h
    split at h
    · cases h
    · obtain ⟨key, -, h⟩ := Res.bind_eq_ok.mp h
      obtain ⟨v, -, h⟩ := Res.bind_eq_ok.mp h
      split at h
      · cases h
      · obtain ⟨b, -, h⟩ := Res.bind_eq_ok.mp h
        exact ⟨_, ((newSeed_ok_iff _ _ _).mp h).2⟩
  · rw [if_pos (by simp [he])] at h
    unfold DecodedMnemonic.seed at h
    rw [if_neg he] at h
    exact ⟨_, ((newSeed_ok_iff _ _ _).mp h).2⟩

/-- C22, encrypted phrases: recovery fails exactly as DecryptSeed does, and once DecryptSeed accepts
the password it fails only for a negative TTL. -/
theorem c22_recovery_encrypted {C : Crypto} (hC : C.Lawful) {L : WordList} (hL : L.Lawful)
    (ws : List Bytes) (dm : DecodedMnemonic) (h : decodeMnemonic L ws = .ok dm) (password : Bytes)
    (opts : Option KeyOptions) :
    (∀ s, dm.decryptSeed C.toPhraseCrypto password = .ok s →
      (0 ≤ (inForce opts).ttl → ∃ mnk, recoverEncrypted L C ws password opts = .ok mnk ∧
        mnk.seed = s ∧ mnk.createdAt = (1672531200 + dm.creationOffset) * 10 ^ 9) ∧
      ((inForce opts).ttl < 0 → recoverEncrypted L C ws password opts = .err .ttlInvalid)) ∧
    (∀ e, dm.decryptSeed C.toPhraseCrypto password = .err e →
      recoverEncrypted L C ws password opts = .err e) := by
  have ho : dm.creationOffset < 2 ^ 31 := by
    rcases c03_decode_total hL ws with ⟨e, he⟩ | ⟨dm', h', -, -, ho, -⟩
    · rw [h] at he; cases he
    · rw [h] at h'; cases h'; exact ho
  constructor
  · intro s hd
    obtain ⟨x, hx, rfl⟩ := decryptSeed_bound dm password s hd
    have hn := new_of_decoded hC x _ hx ho dm rfl opts
    unfold recoverEncrypted
    rw [h, Res.bind_ok, hd, Res.bind_ok]
    refine ⟨fun ht => ?_, hn.2⟩
    obtain ⟨mnk, h1, h2, h3⟩ := hn.1 ht
    exact ⟨mnk, h1, h3, h2⟩
  · intro e he
    unfold recoverEncrypted
    rw [h, Res.bind_ok, he]
    rfl

/-- C11. RecoverPlaintext refuses every encrypted phrase with the decryption error. -/
theorem c11_recover_refuses {L : WordList} (C : Crypto) (ws : List Bytes)
    (dm : DecodedMnemonic) (h : decodeMnemonic L ws = .ok dm) (he : dm.version = 1)
    (opts : Option KeyOptions) : recoverPlaintext L C ws opts = .err .mnemonicDecryption := by
  have h1 : dm.encrypted = true := by unfold DecodedMnemonic.encrypted; rw [he]; rfl
  unfold recoverPlaintext
  rw [h, Res.bind_ok]
  unfold DecodedMnemonic.seed
  rw [h1]
  rfl

/-- C11. RecoverEncrypted treats every accepted plaintext phrase as RecoverPlaintext does, whatever the
password and the options. -/
theorem c11_same_recovery {L : WordList} (hL : L.Lawful) (C : Crypto) (ws : List Bytes)
    (dm : DecodedMnemonic) (h : decodeMnemonic L ws = .ok dm) (hv : dm.version = 0) (password : Bytes)
    (opts : Option KeyOptions) : recoverEncrypted L C ws password opts = recoverPlaintext L C ws opts := by
  rcases c11_seed_access hL C.toPhraseCrypto ws dm h with ⟨h1, -⟩ | ⟨-, -, s, -, hs, hd⟩
  · rw [hv] at h1; cases h1
  · unfold recoverEncrypted recoverPlaintext
    rw [h, Res.bind_ok, Res.bind_ok, hs, hd]

/-- C13. So the final phrase of a chain of conversions recovers the keys of the first, with any options; a final
plaintext phrase without password too. -/
theorem c13_same_keys {L : WordList} (hL : L.Lawful) {C : Crypto} (hC : C.Lawful) (ws : List Bytes)
    (dm : DecodedMnemonic) (h : decodeMnemonic L ws = .ok dm) (password : Bytes) (s : Seed)
    (hp : dm.decryptSeed C.toPhraseCrypto password = .ok s) (steps : List (Option Bytes × Bytes))
    (hsteps : ∀ st ∈ steps, st.1 ≠ some [] ∧ 3 ≤ st.2.length) (opts : Option KeyOptions) :
    ∃ ws' pw', convertChain L C.toPhraseCrypto (ws, password) steps = .ok (ws', pw') ∧
      recoverEncrypted L C ws' pw' opts = recoverEncrypted L C ws password opts ∧
      ∀ dm', decodeMnemonic L ws' = .ok dm' → dm'.version = 0 →
        recoverPlaintext L C ws' opts = recoverEncrypted L C ws password opts := by
  obtain ⟨s, rfl, hs⟩ : ∃ n : Nat, s = ⟨0, n⟩ ∧ n < 2 ^ 128 := by
    rcases c11_seed_access hL C.toPhraseCrypto ws dm h with ⟨-, he, -⟩ | ⟨-, -, n, hn, -, hd⟩
    · obtain ⟨e, salt, v, off, -, h1, h2⟩ := c10_password_check hL hC.phrase ws dm h he password
      by_cases hv : Spec.verifyOf (Spec.phraseKey C.toPhraseCrypto password salt off) = v
      · obtain ⟨n, hn, h3⟩ := h2 hv
        exact ⟨n, (Res.ok.inj (hp.symm.trans h3)), hn⟩
      · rw [h1 hv] at hp; cases hp
    · exact ⟨n, Res.ok.inj (hp.symm.trans (hd password)), hn⟩
  have ho : dm.creationOffset < 2 ^ 31 := by
    rcases c03_decode_total hL ws with ⟨e, he⟩ | ⟨dm', h', -, -, ho, -⟩
    · rw [he] at h; cases h
    · rw [h'] at h; cases h; exact ho
  obtain ⟨ws', pw', hchain, dm', h1, h2, h3⟩ := c13_conversion_chain hL hC.phrase s dm.creationOffset hs ho ws password
    ⟨dm, h, hp, rfl⟩ steps hsteps
  have hrec : recoverEncrypted L C ws' pw' opts = recoverEncrypted L C ws password opts := by
    unfold recoverEncrypted DecodedMnemonic.creation
    rw [h1, h, Res.bind_ok, Res.bind_ok, h2, hp, h3]
  refine ⟨ws', pw', hchain, hrec, fun dm'' h4 h5 => ?_⟩
  rw [← c11_same_recovery hL C ws' dm'' h4 h5 pw', hrec]

/-- Under "a", then under "bc". -/
example : ∃ ws ws' pw' mnk, convertChain toyWordList toyPhraseCrypto (ws, [])
      [(some [0x61], [1, 2, 3]), (some [0x62, 0x63], [4, 5, 6])] = .ok (ws', pw') ∧
    recoverEncrypted toyWordList toyCrypto ws' pw' (some sampleOpts) = .ok mnk := by
  obtain ⟨ws, dm, -, hd, hv, -, -, hs, -⟩ := c01_plaintext_round_trip toyWordList_lawful 0 5
      (by decide) ⟨0, 5⟩ (by decide) 77 (by decide)
  rcases c11_seed_access toyWordList_lawful toyPhraseCrypto ws dm hd with ⟨h1, -⟩ | ⟨-, -, n, -, -, hp⟩
  · rw [hv] at h1; cases h1
  obtain ⟨ws', pw', h1, h2, -⟩ := c13_same_keys toyWordList_lawful toyCrypto_lawful ws dm hd [] _ (hp [])
    [(some [0x61], [1, 2, 3]), (some [0x62, 0x63], [4, 5, 6])] (by simp) (some sampleOpts)
  obtain ⟨mnk, h3, -⟩ := (c22_recovery_total toyCrypto_lawful toyWordList_lawful ws dm hd hv (some sampleOpts)).1
    (by decide)
  exact ⟨ws, ws', pw', mnk, h1, by rw [h2, c11_same_recovery toyWordList_lawful _ ws dm hd hv, h3]⟩

/-- Accepted phrases of both versions exist. -/
example : (∃ ws dm, decodeMnemonic toyWordList ws = .ok dm ∧ dm.version = 0 ∧
      (∃ mnk, recoverPlaintext toyWordList toyCrypto ws (some sampleOpts) = .ok mnk) ∧
      recoverPlaintext toyWordList toyCrypto ws (some { sampleOpts with ttl := -1 }) =
        .err .ttlInvalid) ∧
    (∃ ws dm, decodeMnemonic toyWordList ws = .ok dm ∧ dm.version = 1 ∧
      recoverPlaintext toyWordList toyCrypto ws none = .err .mnemonicDecryption ∧
      ∃ mnk, recoverEncrypted toyWordList toyCrypto ws [1, 2] none = .ok mnk) := by
  constructor
  · obtain ⟨ws, dm, -, hd, hv, -, -, -, -, -⟩ := c01_plaintext_round_trip toyWordList_lawful 0 5
      (by decide) ⟨0, 5⟩ (by decide) 77 (by decide)
    have hr := c22_recovery_total toyCrypto_lawful toyWordList_lawful ws dm hd hv
    obtain ⟨mnk, h, -⟩ := (hr (some sampleOpts)).1 (by decide)
    exact ⟨ws, dm, hd, hv, ⟨mnk, h⟩, (hr _).2 (by decide)⟩
  · obtain ⟨ws, rest, dm, -, hd, hv, -, -, hs⟩ := c09_encrypted_round_trip toyWordList_lawful
      toyCrypto_lawful.phrase 5 77 (by decide) (by decide) [1, 2] (by simp) [9, 8, 7] (by simp)
    obtain ⟨mnk, h, -⟩ := ((c22_recovery_encrypted toyCrypto_lawful toyWordList_lawful ws dm hd
      [1, 2] none).1 _ hs).1 (by decide)
    exact ⟨ws, dm, hd, hv, c11_recover_refuses toyCrypto ws dm hd hv none, mnk, h⟩

/-! ## C23 -/

/-- The master key's secret seed, as specified: HKDF of the Argon2id root key. -/
def wantedMasterSeed (C : Crypto) (seed second : Nat) : Bytes :=
  C.hkdfExpand (C.argon2id (Spec.OpenPGP.octets 16 seed) (Spec.OpenPGP.octets 4 second) 4 (2 ^ 19) 2 32)
    (str "mnemonikey master key") 32

/-- C23, C26. The master key and its fingerprint are determined by the seed and the creation
second in the specified way: the options do not occur on the right. -/
theorem c23_master {C : Crypto} (hC : C.Lawful) (era x : Int) (s : Seed)
    (hs : newSeed era x = .ok s) (creation : Int) (opts : Option KeyOptions) (mnk : Mnemonikey)
    (h : new C s creation opts = .ok mnk) :
    let ms := wantedMasterSeed C x.natAbs (creation / 10 ^ 9).toNat
    mnk.pgpKeySet.masterKey.base.privateSerialized = ms ∧
    mnk.pgpKeySet.masterKey.priv = ms ++ C.ed25519Pub ms ∧
    mnk.pgpKeySet.masterKey.pub = C.ed25519Pub ms ∧
    mnk.fingerprint C =
      Spec.fingerprint C (Spec.edBody (creation / 10 ^ 9).toNat (C.ed25519Pub ms)) := by
  obtain ⟨second, e, h1, h2, h3, rfl, hx2, rfl⟩ := new_shape hC hs h
  rw [e, Int.toNat_natCast]
  refine ⟨rfl, rfl, rfl, ?_⟩
  unfold Mnemonikey.fingerprint
  rw [fingerprint_eq]
  simp only [keySetOf]
  rw [edBody_eq hC _ (masterSeed_length hC _ _), u32_second second (by omega)]
  rfl

/-- C23. Same seed and second: same master key, whatever the options. -/
theorem c23_master_same {C : Crypto} (hC : C.Lawful) (era x : Int) (s : Seed)
    (hs : newSeed era x = .ok s) (t1 t2 : Int) (ht : t1 / 10 ^ 9 = t2 / 10 ^ 9)
    (o1 o2 : Option KeyOptions) (m1 m2 : Mnemonikey) (h1 : new C s t1 o1 = .ok m1)
    (h2 : new C s t2 o2 = .ok m2) :
    m1.fingerprint C = m2.fingerprint C ∧
    m1.pgpKeySet.masterKey.base = m2.pgpKeySet.masterKey.base ∧
    m1.pgpKeySet.masterKey.priv = m2.pgpKeySet.masterKey.priv ∧
    m1.createdAt = m2.createdAt := by
  obtain ⟨a, e1, -, -, -, -, -, rfl⟩ := new_shape hC hs h1
  obtain ⟨b, e2, -, -, -, -, -, rfl⟩ := new_shape hC hs h2
  have : a = b := by rw [e1, e2] at ht; exact_mod_cast ht
  subst this
  exact ⟨rfl, rfl, rfl, rfl⟩

example : ∃ m1 m2, new toyCrypto ⟨0, 5⟩ sampleTime (some sampleOpts) = .ok m1 ∧
    new toyCrypto ⟨0, 5⟩ (sampleTime + 77) none = .ok m2 ∧ m1 ≠ m2 ∧
    m1.fingerprint toyCrypto = m2.fingerprint toyCrypto := by
  have hs : newSeed 0 5 = .ok ⟨0, 5⟩ := by decide
  have hc := c20_new toyCrypto_lawful 5 (by decide) 0
  obtain ⟨m1, h1, -⟩ := (hc sampleTime (some sampleOpts)).2.2.2.2 rfl (by decide) (by decide)
    (by decide)
  obtain ⟨m2, h2, -⟩ := (hc (sampleTime + 77) none).2.2.2.2 rfl (by decide) (by decide) (by decide)
  refine ⟨m1, m2, h1, h2, ?_, (c23_master_same toyCrypto_lawful 0 5 _ hs _ _ (by decide) _ _ _ _ h1 h2).1⟩
  obtain ⟨a, -, -, -, -, -, -, rfl⟩ := new_shape toyCrypto_lawful hs h1
  obtain ⟨b, -, -, -, -, -, -, rfl⟩ := new_shape toyCrypto_lawful hs h2
  intro hc
  have := congrArg (fun m : Mnemonikey => m.pgpKeySet.userID.name) hc
  simp [keySetOf, sampleOpts, KeyOptions.zero] at this
  exact absurd this (by decide)

/-! ## C24 -/

/-- C24. A subkey is present exactly when selected, and its fingerprint is the specified function
of seed, second, type and index. No other type is ever present. -/
theorem c24_subkeys {C : Crypto} (hC : C.Lawful) (era x : Int) (s : Seed)
    (hs : newSeed era x = .ok s) (creation : Int) (opts : Option KeyOptions) (mnk : Mnemonikey)
    (h : new C s creation opts = .ok mnk) :
    let second := (creation / 10 ^ 9).toNat
    let o := inForce opts
    (mnk.subkeyFingerprint C (str "encryption") =
      if Selected o "encryption" then some (Spec.fingerprint C (Spec.ecdhBody second (C.x25519Base
        (Spec.subkeySeed C x.natAbs second "encryption" o.encryptionSubkeyIndex.toNat)))) else none) ∧
    (mnk.subkeyFingerprint C (str "authentication") =
      if Selected o "authentication" then some (Spec.fingerprint C (Spec.edBody second (C.ed25519Pub
        (Spec.subkeySeed C x.natAbs second "authentication" o.authenticationSubkeyIndex.toNat))))
      else none) ∧
    (mnk.subkeyFingerprint C (str "signing") =
      if Selected o "signing" then some (Spec.fingerprint C (Spec.edBody second (C.ed25519Pub
        (Spec.subkeySeed C x.natAbs second "signing" o.signingSubkeyIndex.toNat)))) else none) ∧
    (∀ t, t ≠ str "encryption" → t ≠ str "authentication" → t ≠ str "signing" →
      mnk.subkeyFingerprint C t = none) ∧
    mnk.subkeyTypes =
      (["encryption", "authentication", "signing"].filter (fun t => decide (Selected o t))).map str := by
  obtain ⟨second, e, h1, h2, h3, rfl, hx2, rfl⟩ := new_shape hC hs h
  have e0 : opts.getD KeyOptions.zero = inForce opts := rfl
  rw [e, Int.toNat_natCast, e0]
  generalize inForce opts = o
  have hu := u32_second second (by omega)
  have hE := fun ex i => ecdhBody_eq hC (Spec.subkeySeed C x.natAbs second "encryption" i)
    (subkeySeed_length hC _ _ _ _) (second * 10 ^ 9) ex
  have hA := fun ex t i => edBody_eq hC (Spec.subkeySeed C x.natAbs second t i)
    (subkeySeed_length hC _ _ _ _) (second * 10 ^ 9) ex
  rw [hu] at hE hA
  have n1 : str "authentication" ≠ str "encryption" := by decide
  have n2 : str "signing" ≠ str "encryption" := by decide
  have n3 : str "signing" ≠ str "authentication" := by decide
  rw [keySetOf_eq]
  generalize (second : Int) * 10 ^ 9 = cr at *
  refine ⟨?_, ?_, ?_, ?_, ?_⟩
  · simp only [Mnemonikey.subkeyFingerprint, subkeyTypeEncryption, if_true, mkKS, selSeed,
      Spec.wanted]
    by_cases hse : Selected o "encryption"
    · simp [hse, fingerprint_eq, hE]
    · simp [hse]
  · simp only [Mnemonikey.subkeyFingerprint, subkeyTypeEncryption, subkeyTypeAuthentication, if_true,
      if_neg n1, mkKS, selSeed, Spec.wanted]
    by_cases hse : Selected o "authentication"
    · simp [hse, fingerprint_eq, hA]
    · simp [hse]
  · simp only [Mnemonikey.subkeyFingerprint, subkeyTypeEncryption, subkeyTypeAuthentication,
      subkeyTypeSigning, if_true, if_neg n2, if_neg n3, mkKS, selSeed, Spec.wanted]
    by_cases hse : Selected o "signing"
    · simp [hse, fingerprint_eq, hA]
    · simp [hse]
  · intro t t1 t2 t3
    simp only [Mnemonikey.subkeyFingerprint, subkeyTypeEncryption, subkeyTypeAuthentication,
      subkeyTypeSigning]
    simp [t1, t2, t3]
  · simp only [Mnemonikey.subkeyTypes, subkeyTypeEncryption, subkeyTypeAuthentication,
      subkeyTypeSigning, mkKS, selSeed, Spec.wanted]
    by_cases s1 : Selected o "encryption" <;> by_cases s2 : Selected o "authentication" <;>
      by_cases s3 : Selected o "signing" <;> simp [s1, s2, s3]

/-- C24. A subkey does not depend on the other options. -/
theorem c24_subkey_same {C : Crypto} (hC : C.Lawful) (era x : Int) (s : Seed)
    (hs : newSeed era x = .ok s) (t1 t2 : Int) (ht : t1 / 10 ^ 9 = t2 / 10 ^ 9)
    (o1 o2 : Option KeyOptions) (m1 m2 : Mnemonikey) (h1 : new C s t1 o1 = .ok m1)
    (h2 : new C s t2 o2 = .ok m2) :
    (∀ k1 k2, m1.pgpKeySet.encryptionSubkey = some k1 → m2.pgpKeySet.encryptionSubkey = some k2 →
      (inForce o1).encryptionSubkeyIndex = (inForce o2).encryptionSubkeyIndex →
      k1.base = k2.base ∧ k1.priv = k2.priv ∧
      m1.subkeyFingerprint C (str "encryption") = m2.subkeyFingerprint C (str "encryption")) ∧
    (∀ k1 k2, m1.pgpKeySet.authenticationSubkey = some k1 →
      m2.pgpKeySet.authenticationSubkey = some k2 →
      (inForce o1).authenticationSubkeyIndex = (inForce o2).authenticationSubkeyIndex →
      k1.base = k2.base ∧ k1.priv = k2.priv ∧
      m1.subkeyFingerprint C (str "authentication") = m2.subkeyFingerprint C (str "authentication")) ∧
    (∀ k1 k2, m1.pgpKeySet.signingSubkey = some k1 → m2.pgpKeySet.signingSubkey = some k2 →
      (inForce o1).signingSubkeyIndex = (inForce o2).signingSubkeyIndex →
      k1.base = k2.base ∧ k1.priv = k2.priv ∧
      m1.subkeyFingerprint C (str "signing") = m2.subkeyFingerprint C (str "signing")) := by
  obtain ⟨a, e1, -, -, -, -, -, rfl⟩ := new_shape hC hs h1
  obtain ⟨b, e2, -, -, -, -, -, rfl⟩ := new_shape hC hs h2
  have hab : a = b := by rw [e1, e2] at ht; exact_mod_cast ht
  subst hab
  have n1 : str "authentication" ≠ str "encryption" := by decide
  have n2 : str "signing" ≠ str "encryption" := by decide
  have n3 : str "signing" ≠ str "authentication" := by decide
  have e01 : o1.getD KeyOptions.zero = inForce o1 := rfl
  have e02 : o2.getD KeyOptions.zero = inForce o2 := rfl
  rw [e01, e02]
  generalize inForce o1 = o1 at *
  generalize inForce o2 = o2 at *
  refine ⟨?_, ?_, ?_⟩
  · intro k1 k2 hk1 hk2 hi
    simp only [Mnemonikey.subkeyFingerprint, subkeyTypeEncryption, if_true]
    rw [hk1, hk2]
    simp only [keySetOf] at hk1 hk2
    split at hk1
    · split at hk2
      · cases hk1; cases hk2
        rw [hi]
        exact ⟨rfl, rfl, rfl⟩
      · cases hk2
    · cases hk1
  · intro k1 k2 hk1 hk2 hi
    simp only [Mnemonikey.subkeyFingerprint, subkeyTypeEncryption, subkeyTypeAuthentication, if_true,
      if_neg n1]
    rw [hk1, hk2]
    simp only [keySetOf] at hk1 hk2
    split at hk1
    · split at hk2
      · cases hk1; cases hk2
        rw [hi]
        exact ⟨rfl, rfl, rfl⟩
      · cases hk2
    · cases hk1
  · intro k1 k2 hk1 hk2 hi
    simp only [Mnemonikey.subkeyFingerprint, subkeyTypeEncryption, subkeyTypeAuthentication,
      subkeyTypeSigning, if_true, if_neg n2, if_neg n3]
    rw [hk1, hk2]
    simp only [keySetOf] at hk1 hk2
    split at hk1
    · split at hk2
      · cases hk1; cases hk2
        rw [hi]
        exact ⟨rfl, rfl, rfl⟩
      · cases hk2
    · cases hk1

/-- Only some of the subkeys are selected, once with a duplicated list. -/
example : ∃ mnk, new toyCrypto ⟨0, 5⟩ sampleTime (some sampleOpts) = .ok mnk ∧
    mnk.subkeyTypes = [str "encryption", str "signing"] ∧
    (mnk.subkeyFingerprint toyCrypto (str "signing")).isSome = true ∧
    mnk.subkeyFingerprint toyCrypto (str "authentication") = none := by
  have hs : newSeed 0 5 = .ok ⟨0, 5⟩ := by decide
  obtain ⟨mnk, h, -⟩ := (c20_new toyCrypto_lawful 5 (by decide) 0 sampleTime
    (some sampleOpts)).2.2.2.2 rfl (by decide) (by decide) (by decide)
  have hk := c24_subkeys toyCrypto_lawful 0 5 _ hs _ _ _ h
  have s1 : Selected (inForce (some sampleOpts)) "encryption" := by decide
  have s2 : ¬ Selected (inForce (some sampleOpts)) "authentication" := by decide
  have s3 : Selected (inForce (some sampleOpts)) "signing" := by decide
  refine ⟨mnk, h, ?_, ?_, ?_⟩
  · rw [hk.2.2.2.2]; simp [s1, s2, s3]
  · rw [hk.2.2.1, if_pos s3]; rfl
  · rw [hk.2.1, if_neg s2]

example : ¬ Selected { sampleOpts with subkeys := some [] } "signing" ∧
    Selected { sampleOpts with subkeys := some [str "signing", str "signing"] } "signing" ∧
    Selected { sampleOpts with subkeys := none } "signing" := by decide

/-! ## C25 -/

/-- The three documented types of subkeys. -/
inductive SubkeyName : String → Prop where
  | encryption : SubkeyName "encryption"
  | authentication : SubkeyName "authentication"
  | signing : SubkeyName "signing"

/-- C25. The info strings are the specified ones: "mnemonikey TYPE subkey" and two index octets. -/
theorem c25_info_strings (t : String) (i : UInt16) :
    keyExpandInfoSubkey (str t) i = str "mnemonikey " ++ str t ++ str " subkey" ++
      [UInt8.ofNat (i.toNat / 256), UInt8.ofNat (i.toNat % 256)] ∧
    keyExpandInfoMaster = str "mnemonikey master key" := by
  refine ⟨?_, rfl⟩
  have e : Spec.OpenPGP.octets 2 i.toNat =
      [UInt8.ofNat (i.toNat / 256), UInt8.ofNat (i.toNat % 256)] := by
    simp only [Spec.OpenPGP.octets, List.range_succ, List.range_zero, List.nil_append,
      List.cons_append, List.map_cons, List.map_nil, List.cons.injEq, and_true]
    refine ⟨trivial, ?_⟩
    apply UInt8.toNat_inj.mp
    simp only [UInt8.toNat_ofNat']
    omega
  rw [subkeyInfo_eq, Spec.subkeyInfo, e]

/-- C25. They never collide. -/
theorem c25_info_distinct (t t' : String) (ht : SubkeyName t) (ht' : SubkeyName t')
    (i i' : UInt16) :
    keyExpandInfoSubkey (str t) i ≠ keyExpandInfoMaster ∧
    (keyExpandInfoSubkey (str t) i = keyExpandInfoSubkey (str t') i' → t = t' ∧ i = i') := by
  have hlen : ∀ t i, (keyExpandInfoSubkey (str t) i).length = 20 + (str t).length := by
    intro t i
    simp only [keyExpandInfoSubkey, List.length_append, beBytes_length]
    have h1 : (str "mnemonikey ").length = 11 := by decide
    have h2 : (str " subkey").length = 7 := by decide
    omega
  have l1 : (str "encryption").length = 10 := by decide
  have l2 : (str "authentication").length = 14 := by decide
  have l3 : (str "signing").length = 7 := by decide
  have lm : keyExpandInfoMaster.length = 21 := by decide
  constructor
  · intro h
    have := congrArg List.length h
    rw [hlen, lm] at this
    cases ht <;> omega
  · intro h
    have hl := congrArg List.length h
    rw [hlen, hlen] at hl
    have htt : t = t' := by
      cases ht <;> cases ht' <;> first | rfl | (exfalso; omega)
    refine ⟨htt, ?_⟩
    subst htt
    unfold keyExpandInfoSubkey at h
    have := List.append_cancel_left h
    have h2 := congrArg setBytes this
    rw [setBytes_beBytes, setBytes_beBytes] at h2
    have b1 := i.toNat_lt
    have b2 := i'.toNat_lt
    apply UInt16.toNat_inj.mp
    omega

example : keyExpandInfoSubkey (str "signing") 65535 =
    [0x6D, 0x6E, 0x65, 0x6D, 0x6F, 0x6E, 0x69, 0x6B, 0x65, 0x79, 0x20,
     0x73, 0x69, 0x67, 0x6E, 0x69, 0x6E, 0x67, 0x20, 0x73, 0x75, 0x62, 0x6B, 0x65, 0x79,
     0xFF, 0xFF] := by decide

/-! ## C26 -/

/-- C26. The root key is Argon2id of the 16 seed octets and the 4 octets of the creation second. -/
theorem c26_root_key (C : Crypto) (x : Int) (hx : x.natAbs < 2 ^ 128) (creation : Int)
    (h1 : 0 ≤ creation) (h2 : creation < 2 ^ 32 * 10 ^ 9) :
    Model.rootKey C ⟨0, x⟩ creation = .ok (C.argon2id (Spec.OpenPGP.octets 16 x.natAbs)
      (Spec.OpenPGP.octets 4 (creation / 10 ^ 9).toNat) 4 (2 ^ 19) 2 32) := by
  rw [rootKey_eq C ⟨0, x⟩ hx]
  have : u32 (unix creation) = (creation / 10 ^ 9).toNat := by
    unfold u32 unix second; omega
  rw [this]
  rfl

/-- C26. Different seeds or seconds of keys accepted by New give different Argon2id inputs. -/
theorem c26_root_input_injective {C : Crypto} (hC : C.Lawful) (x y : Int) (s1 s2 : Seed)
    (hs1 : newSeed 0 x = .ok s1) (hs2 : newSeed 0 y = .ok s2) (hx : 0 ≤ x) (hy : 0 ≤ y)
    (t1 t2 : Int) (o1 o2 : Option KeyOptions) (m1 m2 : Mnemonikey) (h1 : new C s1 t1 o1 = .ok m1)
    (h2 : new C s2 t2 o2 = .ok m2)
    (heq : (Spec.OpenPGP.octets 16 x.natAbs, Spec.OpenPGP.octets 4 (t1 / 10 ^ 9).toNat) =
      (Spec.OpenPGP.octets 16 y.natAbs, Spec.OpenPGP.octets 4 (t2 / 10 ^ 9).toNat)) :
    x = y ∧ m1.createdAt = m2.createdAt := by
  obtain ⟨a, e1, a1, a2, -, rfl, hx2, rfl⟩ := new_shape hC hs1 h1
  obtain ⟨b, e2, b1, b2, -, rfl, hy2, rfl⟩ := new_shape hC hs2 h2
  rw [e1, e2] at heq
  simp only [Int.toNat_natCast, Prod.mk.injEq] at heq
  have p1 := congrArg Spec.OpenPGP.num heq.1
  have p2 := congrArg Spec.OpenPGP.num heq.2
  rw [num_octets (lt_of_lt_of_eq hx2 (by norm_num)),
    num_octets (lt_of_lt_of_eq hy2 (by norm_num))] at p1
  rw [num_octets (by norm_num; omega), num_octets (by norm_num; omega)] at p2
  refine ⟨by omega, ?_⟩
  simp only [Mnemonikey.createdAt, p2]

example : ∃ m1 m2, new toyCrypto ⟨0, 5⟩ sampleTime none = .ok m1 ∧
    new toyCrypto ⟨0, 6⟩ sampleTime none = .ok m2 ∧
    Spec.OpenPGP.octets 16 5 ≠ Spec.OpenPGP.octets 16 6 := by
  obtain ⟨m1, h1, -⟩ := (c20_new toyCrypto_lawful 5 (by decide) 0 sampleTime none).2.2.2.2 rfl
    (by decide) (by decide) (by decide)
  obtain ⟨m2, h2, -⟩ := (c20_new toyCrypto_lawful 6 (by decide) 0 sampleTime none).2.2.2.2 rfl
    (by decide) (by decide) (by decide)
  exact ⟨m1, m2, h1, h2, by decide⟩

end Verif.Props
