import Verif.Spec.Collision
import Verif.Proofs.PgpPacket

/-! # Lemmas for C116 -/

namespace Verif.Proofs

open Verif.Model Verif.Spec Verif.Spec.OpenPGP

theorem octets_inj {n v v' : Nat} (h : v < 256 ^ n) (h' : v' < 256 ^ n) (e : octets n v = octets n v') : v = v' := by
  have := congrArg num e
  rwa [num_octets h, num_octets h'] at this

theorem root_inj {a b : KeyId} (ha : a.Fits) (hb : b.Fits) (h : a.root = b.root) : a.seed = b.seed ∧ a.second = b.second := by
  obtain ⟨a1, a2, -⟩ := ha
  obtain ⟨b1, b2, -⟩ := hb
  have h1 := congrArg Prod.fst h
  have h2 := congrArg Prod.snd h
  exact ⟨octets_inj (by norm_num at a1 ⊢; exact a1) (by norm_num at b1 ⊢; exact b1) h1,
    octets_inj (by norm_num at a2 ⊢; exact a2) (by norm_num at b2 ⊢; exact b2) h2⟩

theorem subkeyInfo_inj {t t' : String} {i j : Nat} (hi : i < 2 ^ 16) (hj : j < 2 ^ 16)
    (h : subkeyInfo t i = subkeyInfo t' j) : str t = str t' ∧ i = j := by
  unfold subkeyInfo at h
  obtain ⟨h1, h2⟩ := List.append_inj' h (by simp)
  obtain ⟨h3, -⟩ := List.append_inj' h1 rfl
  exact ⟨List.append_cancel_left h3, octets_inj (by norm_num at hi ⊢; exact hi) (by norm_num at hj ⊢; exact hj) h2⟩

theorem subkeyInfo_ne_master {t : String} (ht : (str t).length ≠ 1) {i : Nat} :
    subkeyInfo t i ≠ str "mnemonikey master key" := by
  intro h
  have := congrArg List.length h
  unfold subkeyInfo at this
  simp only [List.length_append, octets_length] at this
  rw [show (str "mnemonikey ").length = 11 by decide, show (str " subkey").length = 7 by decide,
    show (str "mnemonikey master key").length = 21 by decide] at this
  omega

theorem label_inj {a b : KeyId} (ha : a.Fits) (hb : b.Fits) (h : a.label = b.label) : a.part = b.part := by
  obtain ⟨-, -, ha⟩ := ha
  obtain ⟨-, -, hb⟩ := hb
  obtain ⟨s, t, p⟩ := a
  obtain ⟨s', t', p'⟩ := b
  have m1 : ∀ i, subkeyInfo "encryption" i ≠ str "mnemonikey master key" := fun i => subkeyInfo_ne_master (by decide)
  have m2 : ∀ i, subkeyInfo "authentication" i ≠ str "mnemonikey master key" := fun i => subkeyInfo_ne_master (by decide)
  have m3 : ∀ i, subkeyInfo "signing" i ≠ str "mnemonikey master key" := fun i => subkeyInfo_ne_master (by decide)
  cases p <;> cases p' <;> simp only [KeyId.label] at h <;>
    first
    | rfl
    | exact absurd h (m1 _)
    | exact absurd h (m2 _)
    | exact absurd h (m3 _)
    | exact absurd h.symm (m1 _)
    | exact absurd h.symm (m2 _)
    | exact absurd h.symm (m3 _)
    | (have h1 := (subkeyInfo_inj ha hb h).2; subst h1; rfl)
    | (have h1 := (subkeyInfo_inj ha hb h).1; exact absurd h1 (by decide))

theorem secret_eq (C : Crypto) (k : KeyId) :
    k.secret C = C.hkdfExpand (rootKey C k.seed k.second) k.label 32 := by
  obtain ⟨s, t, p⟩ := k
  cases p <;> rfl

theorem secret_length {C : Crypto} (hC : C.Lawful) (k : KeyId) : (k.secret C).length = 32 := by
  rw [secret_eq]; exact hC.hkdf_length _ _ _

/-- The same root key and label -/
theorem same_input {C : Crypto} {a b : KeyId} (ha : a.Fits) (hb : b.Fits)
    (h : (rootKey C a.seed a.second, a.label) = (rootKey C b.seed b.second, b.label)) : a = b ∨ Collision C a b := by
  have h1 := congrArg Prod.fst h
  have h2 := label_inj ha hb (congrArg Prod.snd h)
  by_cases hr : a.root = b.root
  · obtain ⟨h3, h4⟩ := root_inj ha hb hr
    left
    obtain ⟨s, t, p⟩ := a
    obtain ⟨s', t', p'⟩ := b
    cases h2; cases h3; cases h4
    rfl
  · exact .inr (.argon2id hr h1)

theorem same_secret {C : Crypto} {a b : KeyId} (ha : a.Fits) (hb : b.Fits) (h : a.secret C = b.secret C) :
    a = b ∨ Collision C a b := by
  by_cases hi : (rootKey C a.seed a.second, a.label) = (rootKey C b.seed b.second, b.label)
  · exact same_input ha hb hi
  · rw [secret_eq, secret_eq] at h
    exact .inr (.hkdf hi h)

theorem shown_ed {C : Crypto} {k : KeyId} (h : ¬ k.isEncryption) :
    k.shown C = edPublic C k.second (k.secret C) ∧ k.hashed C = keyPreimage (edBody k.second (C.ed25519Pub (k.secret C))) := by
  obtain ⟨s, t, p⟩ := k
  cases p <;> first | exact ⟨rfl, rfl⟩ | exact absurd trivial h

theorem shown_ecdh {C : Crypto} {k : KeyId} (h : k.isEncryption) :
    k.shown C = ecdhPublic C k.second (k.secret C) ∧
      k.hashed C = keyPreimage (ecdhBody k.second (C.x25519Base (k.secret C))) := by
  obtain ⟨s, t, p⟩ := k
  cases p <;> first | exact ⟨rfl, rfl⟩ | exact absurd h id

theorem fingerprint_hashed {C : Crypto} (k : KeyId) : (k.shown C).fingerprint = C.sha1 (k.hashed C) := by
  obtain ⟨s, t, p⟩ := k
  cases p <;> rfl

theorem preimage_inj {b b' : Bytes} (h : keyPreimage b = keyPreimage b') : b = b' := by
  unfold keyPreimage at h
  exact (List.append_inj (List.cons.inj h).2 (by simp)).2

end Verif.Proofs
