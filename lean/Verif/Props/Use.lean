import Verif.Proofs.Use
import Verif.Props.Keyring
import Verif.Props.Protect

/-! # What is encrypted to a key or signed by it outlives the key (C103, C104) -/

namespace Verif.Props

open Verif.Model Verif.Model.Cli Verif.Spec Verif.Spec.OpenPGP Verif.Proofs Verif.Instances Verif.Armor

/-- The subkey of a keyring with that key, as it was asked for -/
theorem known_subkey {C : Crypto} (hC : C.Lawful) {seed second : Nat} {os : List Output}
    (h : ∀ o ∈ os, Printed C seed second o) {p s : PublicKey} {b : SigInfo} {x : Option Nat}
    (hs : ringOf C os (.subkey p s b x)) :
    (∃ i e, s = (encryptionSubkey C seed second e i).key ∧ b.flags = 0x0C) ∨
    (∃ i e, s = (authenticationSubkey C seed second e i).key ∧ b.flags = 0x20) ∨
    ∃ i e, s = (signingSubkey C seed second e i).key ∧ b.flags = 0x02 := by
  obtain ⟨-, o, -, sk, hsk, rfl, rfl, -⟩ := ((c102_keyring hC os h).2.2.2.1 p s b x).1 hs
  simp only [wantedSubkeys, List.mem_append, Option.mem_toList, Option.map_eq_some_iff] at hsk
  rcases hsk with (⟨i, -, rfl⟩ | ⟨i, -, rfl⟩) | ⟨i, -, rfl⟩
  · exact .inl ⟨i, _, rfl, rfl⟩
  · exact .inr (.inl ⟨i, _, rfl, rfl⟩)
  · exact .inr (.inr ⟨i, _, rfl, rfl⟩)

/-- The secret of a key in a keyring fits the key. -/
theorem known_secret {C : Crypto} (hC : C.Lawful) {seed second : Nat} {os : List Output}
    (h : ∀ o ∈ os, Printed C seed second o) {s : PublicKey} {n : Nat} (hs : ringOf C os (.subkeySecret s n)) :
    s.fingerprint.length = 20 ∧
    (s.algorithm = 18 ∧ s.kdf = some (8, 7) ∧ s.point = C.x25519Base (octets 32 n).reverse ∨
      s.algorithm = 22 ∧ ∃ seed, seed.length = 32 ∧ s.point = C.ed25519Pub seed ∧ octets 32 n = seed) := by
  obtain ⟨o, -, sk, hsk, rfl, hn⟩ := ((c102_keyring hC os h).2.2.2.2 s n).1 hs
  simp only [wantedSubkeys, List.mem_append, Option.mem_toList, Option.map_eq_some_iff] at hsk
  rcases hsk with (⟨i, -, rfl⟩ | ⟨i, -, rfl⟩) | ⟨i, -, rfl⟩
  · refine ⟨hC.sha1_length _, .inl ⟨rfl, rfl, ?_⟩⟩
    obtain ⟨m, hm, -, -, -, hpt⟩ := encryption_scalar hC seed second o.wanted.expires i
    rw [← Secret.clear.inj (hm.symm.trans hn)]
    exact hpt.symm
  · refine ⟨hC.sha1_length _, .inr ⟨rfl, _, subkeySeed_length hC seed second "authentication" i, rfl, ?_⟩⟩
    rw [← Secret.clear.inj hn, num_eq]
    exact octets_setBytes (subkeySeed_length hC seed second "authentication" i)
  · refine ⟨hC.sha1_length _, .inr ⟨rfl, _, subkeySeed_length hC seed second "signing" i, rfl, ?_⟩⟩
    rw [← Secret.clear.inj hn, num_eq]
    exact octets_setBytes (subkeySeed_length hC seed second "signing" i)

/-- C103. Whatever is encrypted to an encryption subkey that somebody has from some runs can be decrypted with the
secret of that subkey from any other runs for the same seed and creation time. -/
theorem c103_decrypts {C : Crypto} (hC : C.Lawful) {dh : Bytes → Bytes → Bytes} (hdh : DhLawful C dh)
    {seed second : Nat} (os os' : List Output) (h : ∀ o ∈ os, Printed C seed second o)
    (h' : ∀ o ∈ os', Printed C seed second o) {p s : PublicKey} {b : SigInfo} {x : Option Nat}
    (hs : keyring C (os.map fun o => (o.text, o.password)) (.subkey p s b x))
    (hb : b.flags / 4 % 2 = 1 ∨ b.flags / 8 % 2 = 1) {n : Nat}
    (hn : keyring C (os'.map fun o => (o.text, o.password)) (.subkeySecret s n)) {d : Drawn} (hd : d.Fine)
    {data : Bytes} (hdata : data.length + 41 < 2 ^ 32) :
    ∃ message, encryptTo C dh s d data = some message ∧ decryptWith C dh s n message = some data := by
  obtain ⟨hfp, ⟨halg, hkdf, hpt⟩ | ⟨halg, -⟩⟩ := known_secret hC h' hn
  · exact decrypts hC hdh (by simp) hkdf hfp rfl hpt hd hdata
  · rcases known_subkey hC h hs with ⟨i, e, rfl, -⟩ | ⟨i, e, -, hf⟩ | ⟨i, e, -, hf⟩
    · exact absurd halg (by show ¬ (18 = 22); decide)
    · rw [hf] at hb; exact absurd hb (by decide)
    · rw [hf] at hb; exact absurd hb (by decide)

/-- Two runs that were asked for the encryption subkey with the same index: the keyring with the output of the one has
it, marked for encryption, and the keyring with the output of the other has its secret. -/
theorem c103_held {C : Crypto} (hC : C.Lawful) {seed second : Nat} {o o' : Output} (h : Printed C seed second o)
    (h' : Printed C seed second o') {i : Nat} (hi : o.wanted.encryption = some i) (hi' : o'.wanted.encryption = some i) :
    ∃ p s b x n, keyring C [(o.text, o.password)] (.subkey p s b x) ∧ b.flags / 4 % 2 = 1 ∧ b.flags / 8 % 2 = 1 ∧
      keyring C [(o'.text, o'.password)] (.subkeySecret s n) := by
  refine ⟨_, (encryptionSubkey C seed second o.wanted.expires i).key,
    (encryptionSubkey C seed second o.wanted.expires i).binding, _, scalarInt C second seed i,
    ((c102_keyring hC [o] (by simpa using h)).2.2.2.1 _ _ _ _).2 ⟨rfl, o, List.mem_singleton.2 rfl,
      encryptionSubkey C seed second o.wanted.expires i, ?_, rfl, rfl, rfl⟩, by show 12 / 4 % 2 = 1; rfl, by show 12 / 8 % 2 = 1; rfl,
    ((c102_keyring hC [o'] (by simpa using h')).2.2.2.2 _ _).2 ⟨o', List.mem_singleton.2 rfl,
      encryptionSubkey C seed second o'.wanted.expires i, ?_, rfl, rfl⟩⟩
  · simp [wantedSubkeys, hi]
  · simp [wantedSubkeys, hi']

/-- C104. Whatever is signed with a signing subkey that somebody has the secret of from some runs is verified by
anybody who has the subkey from any runs for the same seed and creation time. -/
theorem c104_verifies {C : Crypto} (hC : C.Lawful) {seed second : Nat} (os os' : List Output)
    (h : ∀ o ∈ os, Printed C seed second o) (h' : ∀ o ∈ os', Printed C seed second o) {p s : PublicKey} {b : SigInfo}
    {x : Option Nat} (hs : keyring C (os.map fun o => (o.text, o.password)) (.subkey p s b x))
    (hb : b.flags / 2 % 2 = 1) {n : Nat}
    (hn : keyring C (os'.map fun o => (o.text, o.password)) (.subkeySecret s n)) {type created : Nat} (ht : type < 256)
    (hc : created < 2 ^ 32) (data : Bytes) :
    ∃ sig, readSignature (signWith C s n type created data) = some sig ∧ sig.type = type ∧
      only 2 sig.hashed = some (octets 4 created) ∧ checkSignature C s data sig = true := by
  obtain ⟨hfp, ⟨halg, -⟩ | ⟨halg, k, hk, hpt, hnk⟩⟩ := known_secret hC h' hn
  · rcases known_subkey hC h hs with ⟨i, e, -, hf⟩ | ⟨i, e, rfl, -⟩ | ⟨i, e, rfl, -⟩
    · rw [hf] at hb; exact absurd hb (by decide)
    · exact absurd halg (by show ¬ (22 = 18); decide)
    · exact absurd halg (by show ¬ (22 = 18); decide)
  · exact verifies hC hfp halg hk hpt hnk ht hc data

/-- The same for the primary key: certifications and bindings that other programs make with it. -/
theorem c104_primary {C : Crypto} (hC : C.Lawful) {seed second : Nat} (os os' : List Output)
    (h : ∀ o ∈ os, Printed C seed second o) (h' : ∀ o ∈ os', Printed C seed second o) {p p' : PublicKey} {n : Nat}
    (hp : keyring C (os.map fun o => (o.text, o.password)) (.primary p))
    (hn : keyring C (os'.map fun o => (o.text, o.password)) (.primarySecret p' n)) {type created : Nat} (ht : type < 256)
    (hc : created < 2 ^ 32) (data : Bytes) :
    p' = p ∧ ∃ sig, readSignature (signWith C p' n type created data) = some sig ∧ sig.type = type ∧
      only 2 sig.hashed = some (octets 4 created) ∧ checkSignature C p data sig = true := by
  obtain ⟨-, rfl⟩ := ((c102_keyring hC os h).1 p).1 hp
  obtain ⟨rfl, rfl, -⟩ := ((c102_keyring hC os' h').2.1 p' n).1 hn
  refine ⟨rfl, verifies hC (hC.sha1_length _) rfl (masterSeed_length hC seed second) rfl ?_ ht hc data⟩
  rw [num_eq]
  exact octets_setBytes (masterSeed_length hC seed second)

/-- A challenge answered with the authentication subkey from some runs, for who has the subkey from any other -/
theorem c104_authenticates {C : Crypto} (hC : C.Lawful) {seed second : Nat} (os os' : List Output)
    (h : ∀ o ∈ os, Printed C seed second o) (h' : ∀ o ∈ os', Printed C seed second o) {p s : PublicKey} {b : SigInfo}
    {x : Option Nat} (hs : keyring C (os.map fun o => (o.text, o.password)) (.subkey p s b x))
    (hb : b.flags / 32 % 2 = 1) {n : Nat}
    (hn : keyring C (os'.map fun o => (o.text, o.password)) (.subkeySecret s n)) (challenge : Bytes) :
    C.ed25519Verify s.point challenge (C.ed25519Sign (octets 32 n ++ s.point) challenge) = true := by
  obtain ⟨hfp, ⟨halg, -⟩ | ⟨halg, k, hk, hpt, hnk⟩⟩ := known_secret hC h' hn
  · rcases known_subkey hC h hs with ⟨i, e, -, hf⟩ | ⟨i, e, rfl, -⟩ | ⟨i, e, rfl, -⟩
    · rw [hf] at hb; exact absurd hb (by decide)
    · exact absurd halg (by show ¬ (22 = 18); decide)
    · exact absurd halg (by show ¬ (22 = 18); decide)
  · rw [hnk, hpt]
    exact hC.ed25519_verify k challenge hk

/-- Two runs that were asked for the signing, or the authentication, subkey with the same index: the keyring with the
output of the one has it, marked for that use, and the keyring with the output of the other has its secret. -/
theorem c104_held {C : Crypto} (hC : C.Lawful) {seed second : Nat} {o o' : Output} (h : Printed C seed second o)
    (h' : Printed C seed second o') {i : Nat} :
    (o.wanted.signing = some i → o'.wanted.signing = some i →
      ∃ p s b x n, keyring C [(o.text, o.password)] (.subkey p s b x) ∧ b.flags / 2 % 2 = 1 ∧
        keyring C [(o'.text, o'.password)] (.subkeySecret s n)) ∧
    (o.wanted.authentication = some i → o'.wanted.authentication = some i →
      ∃ p s b x n, keyring C [(o.text, o.password)] (.subkey p s b x) ∧ b.flags / 32 % 2 = 1 ∧
        keyring C [(o'.text, o'.password)] (.subkeySecret s n)) := by
  refine ⟨fun hi hi' => ⟨_, (signingSubkey C seed second o.wanted.expires i).key,
    (signingSubkey C seed second o.wanted.expires i).binding, _, _,
    ((c102_keyring hC [o] (by simpa using h)).2.2.2.1 _ _ _ _).2 ⟨rfl, o, List.mem_singleton.2 rfl,
      signingSubkey C seed second o.wanted.expires i, ?_, rfl, rfl, rfl⟩, by show 2 / 2 % 2 = 1; rfl,
    ((c102_keyring hC [o'] (by simpa using h')).2.2.2.2 _ _).2 ⟨o', List.mem_singleton.2 rfl,
      signingSubkey C seed second o'.wanted.expires i, ?_, rfl, rfl⟩⟩,
    fun hi hi' => ⟨_, (authenticationSubkey C seed second o.wanted.expires i).key,
    (authenticationSubkey C seed second o.wanted.expires i).binding, _, _,
    ((c102_keyring hC [o] (by simpa using h)).2.2.2.1 _ _ _ _).2 ⟨rfl, o, List.mem_singleton.2 rfl,
      authenticationSubkey C seed second o.wanted.expires i, ?_, rfl, rfl, rfl⟩, by show 32 / 32 % 2 = 1; rfl,
    ((c102_keyring hC [o'] (by simpa using h')).2.2.2.2 _ _).2 ⟨o', List.mem_singleton.2 rfl,
      authenticationSubkey C seed second o'.wanted.expires i, ?_, rfl, rfl⟩⟩⟩
  · simp [wantedSubkeys, hi]
  · simp [wantedSubkeys, hi']
  · simp [wantedSubkeys, hi]
  · simp [wantedSubkeys, hi']

/-! ## Examples -/

/-- The toy point at `t` holds `(N + 1) * 31 + 224` in its first octet, `N` being the clamped scalar. -/
def toyDh (s p : Bytes) : Bytes :=
  List.replicate 32 ((UInt8.ofNat (setBytes (clampScalar s)) + 1) * ((p.getD 0 0 - 224) * 223))

theorem toyDh_base (s t : Bytes) (ht : t.length = 32) : toyDh s (toyCrypto.x25519Base t) =
    List.replicate 32 ((UInt8.ofNat (setBytes (clampScalar s)) + 1) *
      (UInt8.ofNat (setBytes (clampScalar t)) + 1)) := by
  have h0 : (toyCrypto.x25519Base t).getD 0 0 = UInt8.ofNat ((setBytes (clampScalar t) + 1) * 31 + 224) := by
    show (toyDigest 32 (clampScalar t)).getD 0 0 = _
    have hl := clampScalar_length t
    rw [ht] at hl
    simp [toyDigest, hl]
  have h1 : ((toyCrypto.x25519Base t).getD 0 0 - 224) * 223 = UInt8.ofNat (setBytes (clampScalar t)) + 1 := by
    rw [h0, UInt8.ofNat_add, UInt8.ofNat_mul, UInt8.ofNat_add]
    show (_ * 31 + 224 - 224) * 223 = _
    rw [UInt8.add_sub_cancel, UInt8.mul_assoc]
    exact UInt8.mul_one _
  rw [toyDh, h1]

theorem toyDh_lawful : DhLawful toyCrypto toyDh := ⟨by
  intro s t hs ht
  rw [toyDh_base s t ht, toyDh_base t s hs, UInt8.mul_comm]⟩

/-- What was encrypted to the subkey that `generate` printed is read by who has the output of `recover -ttl 2y`, and
what they sign is verified by who has the output of `generate` -/
example : ∃ t1 t3 : Bytes, ∃ p s b x n p' s' b' x' n', keyring toyCrypto [(t1, [])] (.subkey p s b x) ∧
    keyring toyCrypto [(t3, [])] (.subkeySecret s n) ∧
    (∃ message, encryptTo toyCrypto toyDh s ⟨List.replicate 32 5, List.replicate 32 6, List.replicate 16 7, 5⟩
      (str "attack at dawn") = some message ∧ decryptWith toyCrypto toyDh s n message = some (str "attack at dawn")) ∧
    keyring toyCrypto [(t1, [])] (.subkey p' s' b' x') ∧ keyring toyCrypto [(t3, [])] (.subkeySecret s' n') ∧
    ∃ sig, readSignature (signWith toyCrypto s' n' 0 1800000000 (str "agreed")) = some sig ∧
      checkSignature toyCrypto s' (str "agreed") sig = true := by
  obtain ⟨t1, -, t3, h1, -, h3⟩ := sample_outputs
  obtain ⟨p, s, b, x, n, hs, hb, -, hn⟩ := c103_held toyCrypto_lawful h1 h3 (i := 0) rfl rfl
  obtain ⟨p', s', b', x', n', hs', hb', hn'⟩ := (c104_held toyCrypto_lawful h1 h3 (i := 0)).1 rfl rfl
  refine ⟨t1, t3, p, s, b, x, n, p', s', b', x', n', hs, hn, ?_, hs', hn', ?_⟩
  · exact c103_decrypts toyCrypto_lawful toyDh_lawful [generated t1] [later t3] (by simpa using h1) (by simpa using h3)
      hs (.inl hb) hn ⟨rfl, rfl, rfl, by decide, by decide⟩ (by decide +kernel)
  · obtain ⟨sig, hr, -, -, hc⟩ := c104_verifies toyCrypto_lawful [generated t1] [later t3] (by simpa using h1)
      (by simpa using h3) hs' hb' hn' (type := 0) (created := 1800000000) (by decide) (by decide) (str "agreed")
    exact ⟨sig, hr, hc⟩

/-- The authentication subkey, and the primary key -/
example : ∃ t1 t3 : Bytes, (∃ p s b x n, keyring toyCrypto [(t1, [])] (.subkey p s b x) ∧
    keyring toyCrypto [(t3, [])] (.subkeySecret s n) ∧
    toyCrypto.ed25519Verify s.point (str "who?") (toyCrypto.ed25519Sign (octets 32 n ++ s.point) (str "who?")) = true) ∧
    ∃ p n, keyring toyCrypto [(t1, [])] (.primary p) ∧ keyring toyCrypto [(t3, [])] (.primarySecret p n) ∧
      ∃ sig, readSignature (signWith toyCrypto p n 0x10 1800000000 (str "that is Bob")) = some sig ∧
        checkSignature toyCrypto p (str "that is Bob") sig = true := by
  obtain ⟨t1, -, t3, h1, -, h3⟩ := sample_outputs
  obtain ⟨p, s, b, x, n, hs, hb, hn⟩ := (c104_held toyCrypto_lawful h1 h3 (i := 0)).2 rfl rfl
  have hp := ((c102_keyring toyCrypto_lawful [generated t1] (by simpa using h1)).1 _).2 ⟨by simp, rfl⟩
  have hm := ((c102_keyring toyCrypto_lawful [later t3] (by simpa using h3)).2.1 _ _).2
    ⟨rfl, rfl, _, List.mem_singleton.2 rfl, trivial⟩
  refine ⟨t1, t3, ⟨p, s, b, x, n, hs, hn, c104_authenticates toyCrypto_lawful [generated t1] [later t3]
    (by simpa using h1) (by simpa using h3) hs hb hn _⟩, _, _, hp, hm, ?_⟩
  obtain ⟨-, sig, hr, -, -, hc⟩ := c104_primary toyCrypto_lawful [generated t1] [later t3] (by simpa using h1)
    (by simpa using h3) hp hm (type := 0x10) (created := 1800000000) (by decide) (by decide) (str "that is Bob")
  exact ⟨sig, hr, hc⟩

end Verif.Props
