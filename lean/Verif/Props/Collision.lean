import Verif.Proofs.Collision
import Verif.Proofs.Failure
import Verif.Props.Keyring

/-! # Different phrases, different keys (C116) -/

namespace Verif.Props

open Verif.Model Verif.Model.Cli Verif.Spec Verif.Spec.OpenPGP Verif.Proofs Verif.Instances Verif.Armor

/-- Two keys with one public point, on the same curve, are one key: the same seed, second, type and index. Otherwise a
primitive collides on the way. -/
theorem c116_points {C : Crypto} (a b : KeyId) (ha : a.Fits) (hb : b.Fits)
    (halg : (a.shown C).algorithm = (b.shown C).algorithm) (h : (a.shown C).point = (b.shown C).point) :
    a = b ∨ Collision C a b := by
  by_cases h1 : a.isEncryption <;> by_cases h2 : b.isEncryption
  · rw [(shown_ecdh h1).1, (shown_ecdh h2).1] at h
    by_cases h3 : clampScalar (a.secret C) = clampScalar (b.secret C)
    · by_cases hi : (rootKey C a.seed a.second, a.label) = (rootKey C b.seed b.second, b.label)
      · exact same_input ha hb hi
      · rw [secret_eq, secret_eq] at h3
        exact .inr (.hkdfScalar h1 h2 hi h3)
    · exact .inr (.x25519 h1 h2 h3 h)
  · rw [(shown_ecdh h1).1, (shown_ed h2).1] at halg
    cases halg
  · rw [(shown_ed h1).1, (shown_ecdh h2).1] at halg
    cases halg
  · rw [(shown_ed h1).1, (shown_ed h2).1] at h
    by_cases h3 : a.secret C = b.secret C
    · exact same_secret ha hb h3
    · exact .inr (.ed25519 h1 h2 h3 h)

/-- Two keys with one fingerprint are one key, or a primitive collides on the way. -/
theorem c116_fingerprints {C : Crypto} (hC : C.Lawful) (a b : KeyId) (ha : a.Fits) (hb : b.Fits)
    (h : (a.shown C).fingerprint = (b.shown C).fingerprint) : a = b ∨ Collision C a b := by
  rw [fingerprint_hashed, fingerprint_hashed] at h
  by_cases hh : a.hashed C = b.hashed C
  · have el : ∀ s, s.length = 32 → (C.ed25519Pub s).length = 32 := hC.ed25519Pub_length
    have xl : ∀ s, s.length = 32 → (C.x25519Base s).length = 32 := hC.x25519_length
    by_cases h1 : a.isEncryption <;> by_cases h2 : b.isEncryption
    · refine c116_points a b ha hb (by rw [(shown_ecdh h1).1, (shown_ecdh h2).1]; rfl) ?_
      rw [(shown_ecdh h1).2, (shown_ecdh h2).2] at hh
      rw [(shown_ecdh h1).1, (shown_ecdh h2).1]
      have := preimage_inj hh
      unfold ecdhBody at this
      exact (List.append_inj' (List.append_cancel_right this) (by
        rw [xl _ (secret_length hC a), xl _ (secret_length hC b)])).2
    · rw [(shown_ecdh h1).2, (shown_ed h2).2] at hh
      have := congrArg List.length (preimage_inj hh)
      simp [ecdhBody, edBody, el _ (secret_length hC b), xl _ (secret_length hC a), oidEd25519, oidCurve25519] at this
    · rw [(shown_ed h1).2, (shown_ecdh h2).2] at hh
      have := congrArg List.length (preimage_inj hh)
      simp [ecdhBody, edBody, el _ (secret_length hC a), xl _ (secret_length hC b), oidEd25519, oidCurve25519] at this
    · refine c116_points a b ha hb (by rw [(shown_ed h1).1, (shown_ed h2).1]; rfl) ?_
      rw [(shown_ed h1).2, (shown_ed h2).2] at hh
      rw [(shown_ed h1).1, (shown_ed h2).1]
      have := preimage_inj hh
      unfold edBody at this
      exact (List.append_inj' this (by rw [el _ (secret_length hC a), el _ (secret_length hC b)])).2
  · exact .inr (.sha1 hh h)

/-- A phrase holds a seed of 128 bits and an offset of 31 bits. -/
theorem holds_lt {C : PhraseCrypto} (hC : C.Lawful) {index : Bytes → Option Nat} {words : List Bytes} {pw : Option Bytes}
    {seed offset : Nat} (h : Holds index C words pw seed offset) : seed < 2 ^ 128 ∧ offset < 2 ^ 31 := by
  cases pw with
  | none => exact readPhrase_fits h
  | some p =>
    obtain ⟨e, salt, v, h1, h2⟩ := h
    obtain ⟨he, -, -, ho⟩ := readPhrase_fits h1
    exact ⟨decrypted_lt hC he h2, ho⟩

theorem printed_fits {C : Crypto} (hC : C.Lawful) {seed second : Nat} {o : Output} (h : Printed C seed second o) :
    seed < 2 ^ 128 ∧ second < 2 ^ 32 := by
  cases h with
  | generate hL hA hwf hargs hcl hask hu hnow hnow' hseed hrnd htyped hsave hshow hs ht =>
    refine ⟨?_, by omega⟩
    rw [← hs]
    refine valueOfBytes_lt ?_
    generalize text _ _ _ = u at hseed
    cases hseed <;> assumption
  | recover hL hA hargs hcl hask henc hauth hsig hu hin hholds hwrong hkey hgood hrnd ht =>
    obtain ⟨h1, h2⟩ := holds_lt hC.phrase hholds
    exact ⟨h1, by omega⟩

/-- Two runs that print keys with one fingerprint had one seed and one second, or a primitive collides on the way. -/
theorem c116_printed {C : Crypto} (hC : C.Lawful) {seed second seed' second' : Nat} {o o' : Output}
    (h : Printed C seed second o) (h' : Printed C seed' second' o') {data data' : Bytes} {k k' : KeyInfo}
    (hd : dearmor o.text = some data) (hd' : dearmor o'.text = some data') (hk : importKey C data = some k)
    (hk' : importKey C data' = some k') (hf : k.key.fingerprint = k'.key.fingerprint) :
    seed = seed' ∧ second = second' ∨ Collision C ⟨seed, second, .master⟩ ⟨seed', second', .master⟩ := by
  have key : ∀ {seed second o data k}, Printed C seed second o → dearmor o.text = some data → importKey C data = some k →
      k.key = (KeyId.mk seed second .master).shown C := by
    intro seed second o data k h hd hk
    obtain ⟨key, hd', hc⟩ := printed_contains hC h
    obtain rfl : key = data := Option.some.inj (hd'.symm.trans hd)
    exact (learned_iff hc hk (.primary k.key)).1 .primary
  rw [key h hd hk, key h' hd' hk'] at hf
  have b := printed_fits hC h
  have b' := printed_fits hC h'
  rcases c116_fingerprints hC ⟨seed, second, .master⟩ ⟨seed', second', .master⟩ ⟨b.1, b.2, Nat.two_pow_pos 16⟩ ⟨b'.1, b'.2, Nat.two_pow_pos 16⟩ hf with e | e
  · cases e
    exact .inl ⟨rfl, rfl⟩
  · exact .inr e

/-- Two plain phrases of one list: the words are the same, up to case. -/
theorem c116_phrases {L : WordList} (hL : L.Lawful) {C : Crypto} (hC : C.Lawful) {seed offset seed' offset' : Nat}
    {o o' : Output} (h : Printed C seed (1672531200 + offset) o) (h' : Printed C seed' (1672531200 + offset') o')
    {words words' : List Bytes} (hw : Holds (indexOf L) C.toPhraseCrypto words none seed offset)
    (hw' : Holds (indexOf L) C.toPhraseCrypto words' none seed' offset') {data data' : Bytes} {k k' : KeyInfo}
    (hd : dearmor o.text = some data) (hd' : dearmor o'.text = some data') (hk : importKey C data = some k)
    (hk' : importKey C data' = some k') (hf : k.key.fingerprint = k'.key.fingerprint) :
    words.map L.toLower = words'.map L.toLower ∨
      Collision C ⟨seed, 1672531200 + offset, .master⟩ ⟨seed', 1672531200 + offset', .master⟩ := by
  rcases c116_printed hC h h' hd hd' hk hk' hf with ⟨h1, h2⟩ | h1
  · left
    obtain rfl : offset = offset' := by omega
    subst h1
    have key : ∀ ws, Holds (indexOf L) C.toPhraseCrypto ws none seed offset →
        (Contents.plaintext seed offset).words L.word = ws.map L.toLower := by
      intro ws hws
      obtain ⟨dm, hdm⟩ : ∃ dm, decodeMnemonic L ws = .ok dm := by
        have := c04_decode_is_specified hL ws
        rw [show readPhrase (indexOf L) ws = _ from hws] at this
        exact ⟨_, this⟩
      obtain ⟨c, h3, h4⟩ := c05_canonical hL ws dm hdm
      rw [show readPhrase (indexOf L) ws = _ from hws] at h3
      rw [← Except.ok.inj h3] at h4
      exact h4
    rw [← key _ hw, ← key _ hw']
  · exact .inr h1

/-! ## one keyring for several phrases -/

/-- The fact speaks of a key that can be derived from this seed and second. -/
def About (C : Crypto) (seed second : Nat) : Fact → Prop :=
  let own (p : PublicKey) : Prop := ∃ part, (KeyId.mk seed second part).Fits ∧ p = (KeyId.mk seed second part).shown C
  fun
  | .primary p => own p
  | .primarySecret p _ => own p
  | .user p _ _ => own p
  | .subkey p s _ _ => own p ∨ own s
  | .subkeySecret s _ => own s

theorem mixed_iff {C : Crypto} (hC : C.Lawful) : ∀ (os : List (Nat × Nat × Output)),
    (∀ x ∈ os, Printed C x.1 x.2.1 x.2.2) → ∀ f, keyring C (os.map fun x => (x.2.2.text, x.2.2.password)) f ↔
      ∃ x ∈ os, Teaches C x.1 x.2.1 x.2.2.wanted x.2.2.master x.2.2.cert f
  | [], _, f => by simp [keyring]
  | x :: os, h, f => by
    show Imported C (keyring C (os.map _)) x.2.2.text x.2.2.password f ↔ _
    rw [imported_iff hC (h x List.mem_cons_self), mixed_iff hC os fun x hx => h x (List.mem_cons_of_mem _ hx)]
    simp only [List.mem_cons, exists_eq_or_imp]
    rw [or_comm]

theorem asked_index {opts : KeyFlags} {e a s : Nat} {w : Wanted} {m : Prop} (h : AsksFor opts e a s w m) :
    (∀ i, w.encryption = some i → i = e) ∧ (∀ i, w.authentication = some i → i = a) ∧ ∀ i, w.signing = some i → i = s := by
  obtain ⟨-, -, part, -, -, h1, h2, h3, h4, h5, h6⟩ := h
  refine ⟨fun i hi => ?_, fun i hi => ?_, fun i hi => ?_⟩
  · by_cases hp : part "encryption"
    · rw [h1 hp] at hi; exact (Option.some.inj hi).symm
    · rw [h2 hp] at hi; cases hi
  · by_cases hp : part "authentication"
    · rw [h3 hp] at hi; exact (Option.some.inj hi).symm
    · rw [h4 hp] at hi; cases hi
  · by_cases hp : part "signing"
    · rw [h5 hp] at hi; exact (Option.some.inj hi).symm
    · rw [h6 hp] at hi; cases hi

theorem printed_subkey {C : Crypto} (hC : C.Lawful) {seed second : Nat} {o : Output} (h : Printed C seed second o)
    {sk : SubkeyInfo} (hs : sk ∈ wantedSubkeys C seed second o.wanted) :
    ∃ part, (KeyId.mk seed second part).Fits ∧ sk.key = (KeyId.mk seed second part).shown C := by
  obtain ⟨b1, b2⟩ := printed_fits hC h
  have hb : (∀ i, o.wanted.encryption = some i → i < 2 ^ 16) ∧ (∀ i, o.wanted.authentication = some i → i < 2 ^ 16) ∧
      ∀ i, o.wanted.signing = some i → i < 2 ^ 16 := by
    cases h with
    | generate hL hA hwf hargs hcl hask =>
      obtain ⟨h1, h2, h3⟩ := asked_index hask
      exact ⟨fun i hi => by rw [h1 i hi]; norm_num, fun i hi => by rw [h2 i hi]; norm_num,
        fun i hi => by rw [h3 i hi]; norm_num⟩
    | recover hL hA hargs hcl hask henc hauth hsig =>
      obtain ⟨h1, h2, h3⟩ := asked_index hask
      exact ⟨fun i hi => by rw [h1 i hi]; omega, fun i hi => by rw [h2 i hi]; omega, fun i hi => by rw [h3 i hi]; omega⟩
  simp only [wantedSubkeys, List.mem_append, Option.mem_toList, Option.map_eq_some_iff] at hs
  rcases hs with (⟨i, hi, rfl⟩ | ⟨i, hi, rfl⟩) | ⟨i, hi, rfl⟩
  · exact ⟨.encryption i, ⟨b1, b2, hb.1 i hi⟩, rfl⟩
  · exact ⟨.authentication i, ⟨b1, b2, hb.2.1 i hi⟩, rfl⟩
  · exact ⟨.signing i, ⟨b1, b2, hb.2.2 i hi⟩, rfl⟩

/-- Keys from runs for any phrases are imported into one keyring. What it says about the keys of one phrase is what a
keyring would say that got the keys of this phrase alone, unless a primitive collides for this phrase and another. -/
theorem c116_keyring {C : Crypto} (hC : C.Lawful) (os : List (Nat × Nat × Output))
    (h : ∀ x ∈ os, Printed C x.1 x.2.1 x.2.2) (seed second : Nat)
    (hfree : ∀ x ∈ os, (x.1, x.2.1) ≠ (seed, second) → ∀ p q, (KeyId.mk seed second p).Fits →
      (KeyId.mk x.1 x.2.1 q).Fits → ¬ Collision C ⟨seed, second, p⟩ ⟨x.1, x.2.1, q⟩)
    (f : Fact) (hf : About C seed second f) :
    keyring C (os.map fun x => (x.2.2.text, x.2.2.password)) f ↔
      keyring C ((os.filter fun x => (x.1, x.2.1) = (seed, second)).map fun x => (x.2.2.text, x.2.2.password)) f := by
  rw [mixed_iff hC os h, mixed_iff hC _ fun x hx => h x (List.mem_of_mem_filter hx)]
  constructor
  · rintro ⟨x, hx, ht⟩
    by_cases he : (x.1, x.2.1) = (seed, second)
    · exact ⟨x, List.mem_filter.2 ⟨hx, by simpa using he⟩, ht⟩
    · exfalso
      obtain ⟨b1, b2⟩ := printed_fits hC (h x hx)
      have key : ∀ {p part part'}, (KeyId.mk seed second part).Fits → p = (KeyId.mk seed second part).shown C →
          (KeyId.mk x.1 x.2.1 part').Fits → p = (KeyId.mk x.1 x.2.1 part').shown C → False := by
        intro p part part' h1 h2 h3 h4
        rcases c116_fingerprints hC _ _ h1 h3 (by rw [← h2, ← h4]) with e | e
        · cases e; exact he rfl
        · exact hfree x hx he _ _ h1 h3 e
      have hm : (KeyId.mk x.1 x.2.1 .master).Fits := ⟨b1, b2, Nat.two_pow_pos 16⟩
      cases f with
      | primary p =>
        obtain ⟨part, h1, h2⟩ := hf
        exact key h1 h2 hm ht
      | primarySecret p n =>
        obtain ⟨part, h1, h2⟩ := hf
        exact key h1 h2 hm ht.1
      | user p uid c =>
        obtain ⟨part, h1, h2⟩ := hf
        exact key h1 h2 hm ht.1
      | subkey p s b c =>
        rcases hf with ⟨part, h1, h2⟩ | ⟨part, h1, h2⟩
        · exact key h1 h2 hm ht.1
        · obtain ⟨-, sk, h3, h4, -⟩ := ht
          obtain ⟨part', h5, h6⟩ := printed_subkey hC (h x hx) h3
          exact key h1 h2 h5 (h4.trans h6)
      | subkeySecret s n =>
        obtain ⟨part, h1, h2⟩ := hf
        obtain ⟨sk, h3, h4, -⟩ := ht
        obtain ⟨part', h5, h6⟩ := printed_subkey hC (h x hx) h3
        exact key h1 h2 h5 (h4.trans h6)
  · rintro ⟨x, hx, ht⟩
    exact ⟨x, List.mem_of_mem_filter hx, ht⟩

/-! ## examples -/

/-- Primitives that keep apart what two seeds give if they differ in their second byte -/
def wideCrypto : Crypto :=
  { toyCrypto with
    argon2id := fun p s _ _ _ n => (p ++ s ++ List.replicate n 0).take n
    hkdfExpand := fun k _ n => (k ++ List.replicate n 0).take n
    ed25519Pub := fun s => s
    x25519Base := clampScalar
    sha1 := fun m => ((m.drop 23).take 20 ++ List.replicate 20 0).take 20 }

theorem wideCrypto_lawful : wideCrypto.Lawful where
  phrase := ⟨fun p s t m th n => by simp [wideCrypto]; omega, toyPhraseCrypto_lawful.aesEnc_length,
    toyPhraseCrypto_lawful.aesDec_length, toyPhraseCrypto_lawful.aes_inv⟩
  hkdf_length := by intros; simp [wideCrypto]
  ed25519Pub_length := fun _ h => h
  ed25519Sign_length := toyCrypto_lawful.ed25519Sign_length
  ed25519_verify := by
    intro s m hs
    simp [wideCrypto, toyCrypto, ← hs]
  x25519_length := fun s h => by rw [← h]; exact clampScalar_length s
  x25519_clamp := fun s _ => clampScalar_idem s
  sha1_length := by intros; simp [wideCrypto]
  sha256_length := toyCrypto_lawful.sha256_length
  sha384_length := toyCrypto_lawful.sha384_length
  sha512_length := toyCrypto_lawful.sha512_length
  aes256_length := toyCrypto_lawful.aes256_length
  shuffle_le := toyCrypto_lawful.shuffle_le
  seconds_lt := toyCrypto_lawful.seconds_lt
  seconds_exact := toyCrypto_lawful.seconds_exact

/-- Seeds of 16 equal bytes -/
def evenSeed (b : Byte) : Nat := valueOfBytes (List.replicate 16 b)

theorem wide_apart (p q : Part) :
    ¬ Collision wideCrypto ⟨evenSeed 7, 1700000000, p⟩ ⟨evenSeed 8, 1700000000, q⟩ := by
  have hs : ∀ (b : Byte) p, (KeyId.mk (evenSeed b) 1700000000 p).secret wideCrypto =
      (rootKey wideCrypto (evenSeed b) 1700000000 ++ List.replicate 32 0).take 32 := by
    intro b p
    cases p <;> rfl
  have hh : ∀ b p, (KeyId.mk (evenSeed b) 1700000000 p).hashed wideCrypto =
      match p with
      | .encryption _ => keyPreimage (ecdhBody 1700000000 (wideCrypto.x25519Base
          ((rootKey wideCrypto (evenSeed b) 1700000000 ++ List.replicate 32 0).take 32)))
      | _ => keyPreimage (edBody 1700000000 (wideCrypto.ed25519Pub
          ((rootKey wideCrypto (evenSeed b) 1700000000 ++ List.replicate 32 0).take 32))) := by
    intro b p
    cases p <;> simp only [KeyId.hashed, hs]
  intro h
  cases h with
  | argon2id _ h =>
    exact absurd (show rootKey wideCrypto (evenSeed 7) 1700000000 = rootKey wideCrypto (evenSeed 8) 1700000000 from h)
      (by decide +kernel)
  | hkdf _ h => exact absurd (show (rootKey wideCrypto (evenSeed 7) 1700000000 ++ List.replicate 32 0).take 32 =
      (rootKey wideCrypto (evenSeed 8) 1700000000 ++ List.replicate 32 0).take 32 from h) (by decide +kernel)
  | hkdfScalar _ _ _ h =>
    exact absurd (show clampScalar ((rootKey wideCrypto (evenSeed 7) 1700000000 ++ List.replicate 32 0).take 32) =
      clampScalar ((rootKey wideCrypto (evenSeed 8) 1700000000 ++ List.replicate 32 0).take 32) from h) (by decide +kernel)
  | ed25519 _ _ h1 h2 => exact h1 h2
  | x25519 _ _ h1 h2 => exact h1 h2
  | sha1 _ h =>
    rw [hh, hh] at h
    revert h
    cases p <;> cases q <;> dsimp only <;> decide +kernel

theorem even_printed (b : Byte) : ∃ t, Printed wideCrypto (evenSeed b) 1700000000 (generated t) := by
  have hcl : CommandLine (options .generate) (settingsOf [(str "out-word-file", .string (str "new"))]) []
      [str "-out-word-file=new"] := (c63_accepted .generate _ _ _).1 (by decide +kernel)
  have htyped : Typed false false none none := ⟨rfl, rfl, by rintro p ⟨⟩, by rintro p ⟨⟩⟩
  exact ⟨_, Printed.generate (C := wideCrypto) (seed := evenSeed b) (second := 1700000000)
    toyWordList_lawful (env := armorEnv) goArmor_lawful sampleFS_wf (by decide) hcl generate_asks (by decide) (by decide) (by decide)
    (rnd := List.replicate 115 b) (e := List.replicate 16 b) (rnd' := List.replicate 99 b) (.system (List.length_replicate ..) rfl)
    (by rw [List.length_replicate]) htyped (fun _ => ⟨by decide +kernel, rfl⟩) (by decide) rfl (by decide)⟩

/-- Two phrases with no collision: two primary keys in the keyring, each with what belongs to it -/
example : ∃ t t' : Bytes, let os := [(evenSeed 7, 1700000000, generated t), (evenSeed 8, 1700000000, generated t')]
    (∀ x ∈ os, Printed wideCrypto x.1 x.2.1 x.2.2) ∧
    ∀ f, About wideCrypto (evenSeed 7) 1700000000 f →
      (keyring wideCrypto [(t, []), (t', [])] f ↔ keyring wideCrypto [(t, [])] f) := by
  obtain ⟨t, h⟩ := even_printed 7
  obtain ⟨t', h'⟩ := even_printed 8
  have ho : ∀ x ∈ [(evenSeed 7, 1700000000, generated t), (evenSeed 8, 1700000000, generated t')],
      Printed wideCrypto x.1 x.2.1 x.2.2 := by
    intro x hx
    simp only [List.mem_cons, List.not_mem_nil, or_false] at hx
    rcases hx with rfl | rfl
    · exact h
    · exact h'
  refine ⟨t, t', ho, fun f hf => ?_⟩
  have := c116_keyring wideCrypto_lawful _ ho (evenSeed 7) 1700000000 (by
    intro x hx hne p q _ _
    simp only [List.mem_cons, List.not_mem_nil, or_false] at hx
    rcases hx with rfl | rfl
    · exact absurd rfl hne
    · exact wide_apart p q) f hf
  rw [List.filter_cons_of_pos (by rw [decide_eq_true_eq]), List.filter_cons_of_neg (by
    rw [decide_eq_true_eq]
    intro e
    exact absurd (congrArg Prod.fst e) (show evenSeed 8 ≠ evenSeed 7 by decide +kernel))] at this
  exact this

/-- The keys of these two phrases have different fingerprints. -/
example (p q : Part) (hp : (KeyId.mk (evenSeed 7) 1700000000 p).Fits) (hq : (KeyId.mk (evenSeed 8) 1700000000 q).Fits) :
    ((KeyId.mk (evenSeed 7) 1700000000 p).shown wideCrypto).fingerprint ≠
      ((KeyId.mk (evenSeed 8) 1700000000 q).shown wideCrypto).fingerprint := by
  intro h
  rcases c116_fingerprints wideCrypto_lawful _ _ hp hq h with e | e
  · exact absurd (congrArg KeyId.seed e) (show evenSeed 7 ≠ evenSeed 8 by decide +kernel)
  · exact wide_apart p q e

/-- Where subkeys fall together, a collision is found: these primitives derive every subkey from the root key alone. -/
example : Collision wideCrypto ⟨5, 1700000000, .signing 0⟩ ⟨5, 1700000000, .authentication 1⟩ :=
  (c116_points ⟨5, 1700000000, .signing 0⟩ ⟨5, 1700000000, .authentication 1⟩ ⟨by norm_num, by norm_num, by decide⟩
    ⟨by norm_num, by norm_num, by decide⟩ rfl rfl).resolve_left (by decide)

/-- Two runs whose keys have different fingerprints, as they have to -/
example : ∃ t t' data data' k k', Printed wideCrypto (evenSeed 7) (1672531200 + 27468800) (generated t) ∧
    Printed wideCrypto (evenSeed 8) (1672531200 + 27468800) (generated t') ∧ dearmor t = some data ∧ dearmor t' = some data' ∧
    importKey wideCrypto data = some k ∧ importKey wideCrypto data' = some k' ∧ k.key.fingerprint ≠ k'.key.fingerprint := by
  obtain ⟨t, h⟩ := even_printed 7
  obtain ⟨t', h'⟩ := even_printed 8
  obtain ⟨data, h1, h2⟩ := printed_contains wideCrypto_lawful h
  obtain ⟨data', h1', h2'⟩ := printed_contains wideCrypto_lawful h'
  obtain ⟨k, -, h3, -⟩ := h2.imported
  obtain ⟨k', -, h3', -⟩ := h2'.imported
  refine ⟨t, t', data, data', k, k', h, h', h1, h1', h3, h3', fun hf => ?_⟩
  have hw : ∀ seed, seed < 2 ^ 128 → Holds (indexOf toyWordList) wideCrypto.toPhraseCrypto
      ((Contents.plaintext seed 27468800).words toyWordList.word) none seed 27468800 :=
    fun seed hs => readPhrase_words toyWordList_lawful (c := .plaintext seed 27468800) ⟨hs, by norm_num⟩
  have hb : ∀ b, evenSeed b < 2 ^ 128 := fun b => valueOfBytes_lt (List.length_replicate ..)
  rcases c116_phrases toyWordList_lawful wideCrypto_lawful h h' (hw _ (hb 7)) (hw _ (hb 8)) h1 h1' h3 h3' hf with e | e
  · exact absurd e (by decide +kernel)
  · exact wide_apart _ _ e

end Verif.Props
