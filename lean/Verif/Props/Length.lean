import Mathlib.Data.Finset.Card
import Mathlib.Order.Interval.Finset.Nat
import Verif.Proofs.Length
import Verif.Props.Keyring

/-! # What the length of a secret under a password tells (C125) -/

namespace Verif.Props

open Verif.Model Verif.Model.Cli Verif.Spec Verif.Spec.OpenPGP Verif.Proofs Verif.Instances Verif.Armor

theorem protected_length {C : Crypto} (hC : C.Lawful) {s : Secret} {password : Bytes} {n : Nat} (hp : Protected s)
    (h : openSecret C password s = some n) : ∃ k, HasOctets n k ∧ LockedIn s (22 + k) := by
  cases s with
  | clear _ => exact absurd hp id
  | stub => exact absurd hp id
  | locked cipher hash salt count iv data =>
    obtain ⟨k, h1, h2⟩ := locked_length hC hp.2.2.2.2 h
    exact ⟨k, h1, cipher, hash, salt, count, iv, data, rfl, h2⟩

theorem clamped_octets (b : Bytes) : HasOctets (clamped b) 32 := by
  unfold clamped HasOctets
  constructor
  · omega
  · right
    omega

/-- A key printed under a password, read without it: the encrypted field of each secret is 22 octets longer than the
secret without its leading zeros. For encryption subkeys that is always the same, 54 octets. -/
theorem c125_run {C : Crypto} (hC : C.Lawful) {seed second : Nat} {o : Output} (h : Printed C seed second o)
    (hp : o.password ≠ []) :
    ∃ key k, dearmor o.text = some key ∧ importKey C key = some k ∧
      (o.master → ∃ n, HasOctets (num (masterSeed C seed second)) n ∧ LockedIn k.secret (22 + n)) ∧
      (¬ o.master → k.secret = .stub) ∧
      k.subkeys.length = (wantedSubkeys C seed second o.wanted).length ∧
      ∀ sub ∈ k.subkeys, (∃ m n, { sub with secret := .clear m } ∈ wantedSubkeys C seed second o.wanted ∧
        HasOctets m n ∧ LockedIn sub.secret (22 + n)) ∧ (sub.key.algorithm = 18 → LockedIn sub.secret 54) := by
  obtain ⟨key, hd, hc⟩ := printed_contains hC h
  obtain ⟨k, subs, hk, -, -, -, -, hm, hn, hs, hperm, hprot, -⟩ := hc.imported
  obtain ⟨p1, p2⟩ := hprot hp
  have hs := (mapM_eq_some_iff _ _ _).1 hs
  refine ⟨key, k, hd, hk, fun hmaster => protected_length hC (p2 hmaster) (hm hmaster), hn, ?_, fun sub hsub => ?_⟩
  · have := congrArg List.length hs
    simp only [List.length_map] at this
    rw [this, hperm.length_eq]
  · have hmem : unlockSubkey C o.password sub ∈ subs.map some := by
      rw [← hs]
      exact List.mem_map_of_mem hsub
    obtain ⟨sub', hsub', e⟩ := List.mem_map.1 hmem
    unfold unlockSubkey at e
    rw [eq_comm, Option.bind_eq_bind, Option.bind_eq_some_iff] at e
    obtain ⟨m, hopen, e⟩ := e
    cases e
    obtain ⟨n, h1, h2⟩ := protected_length hC (p1 sub hsub) hopen
    have hw := hperm.mem_iff.1 hsub'
    refine ⟨⟨m, n, hw, h1, h2⟩, fun halg => ?_⟩
    simp only [wantedSubkeys, List.mem_append, Option.mem_toList, Option.map_eq_some_iff] at hw
    rcases hw with (⟨i, -, e⟩ | ⟨i, -, e⟩) | ⟨i, -, e⟩
    · have hm' : m = scalarInt C second seed i := by
        have := congrArg SubkeyInfo.secret e
        exact (Secret.clear.inj this).symm
      rw [hm'] at h1
      rw [octets_unique h1 (clamped_octets _)] at h2
      exact h2
    · have : (authenticationSubkey C seed second o.wanted.expires i).key.algorithm = 18 := by rw [e]; exact halg
      exact absurd this (by show ¬ (22 = 18); decide)
    · have : (signingSubkey C seed second o.wanted.expires i).key.algorithm = 18 := by rw [e]; exact halg
      exact absurd this (by show ¬ (22 = 18); decide)

/-- Two printed keys under any two passwords: who knows neither can tell the master secrets apart exactly if they have
different numbers of octets. Two keys of the same seed and second are never told apart like this. -/
theorem c125_told_apart {C : Crypto} (hC : C.Lawful) {seed second seed' second' : Nat} {o o' : Output}
    (h : Printed C seed second o) (h' : Printed C seed' second' o') (hp : o.password ≠ []) (hp' : o'.password ≠ [])
    (hm : o.master) (hm' : o'.master) :
    ∃ key k l key' k' l', dearmor o.text = some key ∧ importKey C key = some k ∧ LockedIn k.secret l ∧
      dearmor o'.text = some key' ∧ importKey C key' = some k' ∧ LockedIn k'.secret l' ∧
      (l = l' ↔ ∃ n, HasOctets (num (masterSeed C seed second)) n ∧ HasOctets (num (masterSeed C seed' second')) n) := by
  obtain ⟨key, k, h1, h2, h3, -⟩ := c125_run hC h hp
  obtain ⟨key', k', h1', h2', h3', -⟩ := c125_run hC h' hp'
  obtain ⟨n, hn, hl⟩ := h3 hm
  obtain ⟨n', hn', hl'⟩ := h3' hm'
  refine ⟨key, k, _, key', k', _, h1, h2, hl, h1', h2', hl', fun e => ⟨n, hn, ?_⟩, ?_⟩
  · rw [show n = n' by omega]
    exact hn'
  · rintro ⟨j, hj, hj'⟩
    rw [octets_unique hn hj, octets_unique hn' hj']

open Classical in
/-- One secret of 32 octets in 256 is shorter than the others. -/
theorem c125_one_in_256 :
    ((Finset.range (256 ^ 32)).filter fun n => ¬ HasOctets n 32).card * 256 = (Finset.range (256 ^ 32)).card := by
  have e : ((Finset.range (256 ^ 32)).filter fun n => ¬ HasOctets n 32) = Finset.range (256 ^ 31) := by
    ext n
    rw [Finset.mem_filter, Finset.mem_range, Finset.mem_range]
    unfold HasOctets
    omega
  rw [e, Finset.card_range, Finset.card_range]
  norm_num

/-! ## examples -/

theorem encryptKeys_asks : AsksFor (generateMeans (settingsOf [(str "out-word-file", .string (str "new")),
      (str "encrypt-keys", .bool true)])).key 0 0 0 ⟨str "anonymous", none, some 0, some 0, some 0⟩ True :=
  ⟨⟨str "anonymous", [], trimmed_same (by decide +kernel), trimmed_same (by decide +kernel), by decide⟩, .absent, _, .all,
    Iff.rfl, fun _ => rfl, fun h => absurd trivial h, fun _ => rfl, fun h => absurd trivial h, fun _ => rfl,
    fun h => absurd trivial h⟩

/-- What HKDF makes of the seed with 16 times 7 has only zeros. -/
def zeros : Crypto :=
  { toyCrypto with hkdfExpand := fun k _ n => List.replicate n (if k = rootKey toyCrypto sampleSeed 1700000000 then 0 else 255) }

theorem zeros_lawful : zeros.Lawful :=
  { toyCrypto_lawful with hkdf_length := fun _ _ _ => List.length_replicate }

/-- `generate -out-word-file=new -encrypt-keys`, with 16 times `b` for the seed -/
theorem encrypted_printed {C : Crypto} (b : Byte) : ∃ t,
    Printed C (valueOfBytes (List.replicate 16 b)) 1700000000
      ⟨t, str "key", ⟨str "anonymous", none, some 0, some 0, some 0⟩, True, True⟩ := by
  have hcl : CommandLine (options .generate) (settingsOf [(str "out-word-file", .string (str "new")),
      (str "encrypt-keys", .bool true)]) [] [str "-out-word-file=new", str "-encrypt-keys"] :=
    (c63_accepted .generate _ _ _).1 (by decide +kernel)
  have hseed : SeedBytes armorEnv (List.replicate 115 b) [] (List.replicate 16 b) (List.replicate 99 b) :=
    .system rfl rfl
  exact ⟨_, Printed.generate (C := C) (second := 1700000000)
    toyWordList_lawful goArmor_lawful sampleFS_wf (by decide) hcl encryptKeys_asks (by decide) (by decide) (by decide) hseed
    (by simp) (keyPw := some (str "key")) (phrasePw := none) ⟨rfl, rfl, by rintro p ⟨⟩; decide, by rintro p ⟨⟩⟩
    (fun _ => ⟨by decide +kernel, rfl⟩) (by decide) rfl (by decide)⟩

/-- Under the same password: 22 octets for the seed with 16 times 7, 54 for the one with 16 times 8 -/
example : ∃ t t' key k key' k', dearmor t = some key ∧ importKey zeros key = some k ∧ LockedIn k.secret 22 ∧
    dearmor t' = some key' ∧ importKey zeros key' = some k' ∧ LockedIn k'.secret 54 ∧
    ∀ sub ∈ k.subkeys, sub.key.algorithm = 18 → LockedIn sub.secret 54 := by
  obtain ⟨t, h⟩ := encrypted_printed (C := zeros) 7
  obtain ⟨t', h'⟩ := encrypted_printed (C := zeros) 8
  obtain ⟨key, k, h1, h2, h3, -, -, h4⟩ := c125_run zeros_lawful h (show str "key" ≠ [] by decide)
  obtain ⟨key', k', h1', h2', h3', -⟩ := c125_run zeros_lawful h' (show str "key" ≠ [] by decide)
  obtain ⟨n, hn, hl⟩ := h3 trivial
  obtain ⟨n', hn', hl'⟩ := h3' trivial
  have e : num (masterSeed zeros (valueOfBytes (List.replicate 16 7)) 1700000000) = 0 := by decide +kernel
  have e' : num (masterSeed zeros (valueOfBytes (List.replicate 16 8)) 1700000000) = 256 ^ 32 - 1 := by decide +kernel
  rw [e] at hn
  rw [e'] at hn'
  rw [octets_unique hn (show HasOctets 0 0 from ⟨by decide, .inl rfl⟩)] at hl
  rw [octets_unique hn' (show HasOctets (256 ^ 32 - 1) 32 from ⟨by decide, .inr (by decide)⟩)] at hl'
  exact ⟨t, t', key, k, key', k', h1, h2, hl, h1', h2', hl', fun sub hs => (h4 sub hs).2⟩

/-- The same two keys, compared without a password -/
example : ∃ t t' key k l key' k' l', dearmor t = some key ∧ importKey zeros key = some k ∧ LockedIn k.secret l ∧
    dearmor t' = some key' ∧ importKey zeros key' = some k' ∧ LockedIn k'.secret l' ∧ l ≠ l' := by
  obtain ⟨t, h⟩ := encrypted_printed (C := zeros) 7
  obtain ⟨t', h'⟩ := encrypted_printed (C := zeros) 8
  obtain ⟨key, k, l, key', k', l', h1, h2, h3, h4, h5, h6, h7⟩ := c125_told_apart zeros_lawful h h'
    (show str "key" ≠ [] by decide) (show str "key" ≠ [] by decide) trivial trivial
  refine ⟨t, t', key, k, l, key', k', l', h1, h2, h3, h4, h5, h6, fun e => ?_⟩
  obtain ⟨n, hn, hn'⟩ := h7.1 e
  have e : num (masterSeed zeros (valueOfBytes (List.replicate 16 7)) 1700000000) = 0 := by decide +kernel
  have e' : num (masterSeed zeros (valueOfBytes (List.replicate 16 8)) 1700000000) = 256 ^ 32 - 1 := by decide +kernel
  rw [e] at hn
  rw [e', octets_unique hn (show HasOctets 0 0 from ⟨by decide, .inl rfl⟩)] at hn'
  exact absurd hn'.1 (by decide)

end Verif.Props
