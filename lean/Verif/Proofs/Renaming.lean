import Verif.Spec.Renaming
import Verif.Proofs.Parallel

/-! # Lemmas for C122: programs with renamed seeds -/

namespace Verif.Proofs

open Verif.Model Verif.Model.Cli Verif.Spec Verif.Spec.OpenPGP Verif.Props

theorem renamed_lawful (π : Renaming) {C : Crypto} (h : C.Lawful) : (renamed π C).Lawful where
  phrase := {
    argon2id_length := fun p s t m th n => by
      show (if n = 32 then _ else _ : Bytes).length = n
      split <;> exact h.phrase.argon2id_length ..
    aesEnc_length := fun k b hk hb => h.phrase.aesEnc_length k _ hk (by rw [π.back.length, hb])
    aesDec_length := fun k b hk hb => by
      show (π.perm _).length = 16
      rw [π.length]; exact h.phrase.aesDec_length k b hk hb
    aes_inv := fun k b hk hb => by
      show π.perm (C.aesDec k (C.aesEnc k (π.back.perm b))) = b
      rw [h.phrase.aes_inv k _ hk (by rw [π.back.length, hb])]
      exact π.perm.apply_symm_apply b }
  hkdf_length := h.hkdf_length
  ed25519Pub_length := h.ed25519Pub_length
  ed25519Sign_length := h.ed25519Sign_length
  ed25519_verify := h.ed25519_verify
  x25519_length := h.x25519_length
  x25519_clamp := h.x25519_clamp
  sha1_length := h.sha1_length
  sha256_length := h.sha256_length
  sha384_length := h.sha384_length
  sha512_length := h.sha512_length
  aes256_length := h.aes256_length
  shuffle_le := h.shuffle_le
  seconds_lt := h.seconds_lt
  seconds_exact := h.seconds_exact

/-- The seed with its new name -/
def rename (π : Renaming) (s : Seed) : Seed :=
  match s.bytes with
  | .ok b => { s with value := (setBytes (π.perm b) : Nat) }
  | _ => s

theorem rename_era (π : Renaming) (s : Seed) : (rename π s).era = s.era := by
  unfold rename; split <;> rfl

theorem beBytes_len : ∀ n v : Nat, (beBytes n v).length = n
  | 0, _ => rfl
  | n + 1, v => by simp [beBytes, beBytes_len n]

theorem bytes_len {s : Seed} {b : Bytes} (h : s.bytes = .ok b) : b.length = 16 := by
  unfold Seed.bytes fillBytes at h
  split at h
  · cases h; exact beBytes_len ..
  · cases h

theorem bytes_of {era : Int} {b : Bytes} (h : b.length = 16) : (Seed.mk era (setBytes b : Nat)).bytes = .ok b := by
  show fillBytes _ 16 = _
  rw [fillBytes_natCast _ _ (by have := setBytes_lt b; rwa [h] at this)]
  have := beBytes_setBytes b
  rw [h] at this
  rw [this]

theorem rename_of (π : Renaming) {era : Int} {b : Bytes} (h : b.length = 16) :
    rename π ⟨era, (setBytes b : Nat)⟩ = ⟨era, (setBytes (π.perm b) : Nat)⟩ := by
  unfold rename; rw [bytes_of h]

/-- The bytes of a renamed seed are renamed. -/
theorem rename_bytes (π : Renaming) (s : Seed) :
    (∃ b, s.bytes = .ok b ∧ (rename π s).bytes = .ok (π.perm b)) ∨
      (∃ p, s.bytes = .panic p ∧ (rename π s).bytes = .panic p) := by
  cases h : s.bytes with
  | ok b =>
    refine .inl ⟨b, rfl, ?_⟩
    unfold rename
    rw [h]
    exact bytes_of (by rw [π.length, bytes_len h])
  | err e =>
    unfold Seed.bytes fillBytes at h
    split at h <;> cases h
  | panic p =>
    refine .inr ⟨p, rfl, ?_⟩
    unfold rename
    rw [h]
    exact h

/-! ## library -/

section
variable (π : Renaming) (C : Crypto)

theorem rootKey_renamed (s : Seed) (creation : Int) :
    Verif.Model.rootKey (renamed π C) (rename π s) creation = Verif.Model.rootKey C s creation := by
  unfold Verif.Model.rootKey
  obtain ⟨b, h1, h2⟩ | ⟨p, h1, h2⟩ := rename_bytes π s
  · rw [h1, h2]
    show Res.ok (C.argon2id (π.back.perm (π.perm b)) _ _ _ _ 32) = _
    rw [show π.back.perm (π.perm b) = b from π.perm.symm_apply_apply b]
    rfl
  · rw [h1, h2]; rfl

theorem keySet_renamed (s : Seed) (creation : Int) (o : KeyOptions) :
    derivePGPKeySet (renamed π C) (rename π s) creation o = derivePGPKeySet C s creation o := by
  unfold derivePGPKeySet
  rw [rootKey_renamed]
  rfl

/-- A renamed seed in the key of a seed -/
def renameKey (m : Mnemonikey) : Mnemonikey := { m with seed := rename π m.seed }

/-- Results that a function can be applied to -/
def mapRes {α β : Type} (f : α → β) : Res α → Res β
  | .ok a => .ok (f a)
  | .err e => .err e
  | .panic p => .panic p

theorem new_renamed (s : Seed) (creation : Int) (o : Option KeyOptions) :
    new (renamed π C) (rename π s) creation o = mapRes (renameKey π) (new C s creation o) := by
  unfold new
  rw [rename_era]
  cases eraCheck s.era with
  | err e => rfl
  | panic p => rfl
  | ok u =>
    simp only [Res.bind_ok]
    split
    · rfl
    · split
      · rfl
      · split
        · rfl
        · rw [keySet_renamed]
          cases derivePGPKeySet C s _ _ <;> rfl

theorem encrypted_renamed (L : WordList) (s : Seed) (offset : Nat) :
    encodeMnemonicEncrypted L (renamed π C).toPhraseCrypto (rename π s) offset =
      encodeMnemonicEncrypted L C.toPhraseCrypto s offset := by
  funext password rnd
  unfold encodeMnemonicEncrypted
  rw [rename_era]
  have h1 : encSeedKey (renamed π C).toPhraseCrypto = encSeedKey C.toPhraseCrypto := rfl
  rw [h1]
  obtain ⟨b, h2, h3⟩ | ⟨p, h2, h3⟩ := rename_bytes π s
  · have h4 : ∀ k : Bytes, (renamed π C).aesEnc k (π.perm b) = C.aesEnc k b := fun k => by
      show C.aesEnc k (π.back.perm (π.perm b)) = _
      rw [show π.back.perm (π.perm b) = b from π.perm.symm_apply_apply b]
    simp only [h2, h3, Res.bind_ok, h4]
  · simp only [h2, h3]
    rfl

theorem decrypt_renamed (hC : C.Lawful) {dm : DecodedMnemonic} (he : dm.encrypted = true) (password : Bytes) :
    dm.decryptSeed (renamed π C).toPhraseCrypto password = mapRes (rename π) (dm.decryptSeed C.toPhraseCrypto password) := by
  unfold DecodedMnemonic.decryptSeed
  have h1 : encSeedKey (renamed π C).toPhraseCrypto = encSeedKey C.toPhraseCrypto := rfl
  rw [h1, he]
  simp only [Bool.not_true, Bool.false_eq_true, if_false]
  cases dm.salt with
  | none => rfl
  | some salt =>
    dsimp only
    cases hk : encSeedKey C.toPhraseCrypto password salt dm.creationOffset with
    | err e => rfl
    | panic p => rfl
    | ok key =>
      have hl : key.length = 17 := by
        unfold encSeedKey at hk
        simp only [Res.bind_eq_ok] at hk
        obtain ⟨b1, -, b2, -, b3, -, h⟩ := hk
        cases h
        exact hC.phrase.argon2id_length ..
      simp only [Res.bind_ok]
      cases verifyBits key with
      | err e => rfl
      | panic p => rfl
      | ok v =>
        simp only [Res.bind_ok]
        split
        · rfl
        · unfold fillBytes
          split
          · simp only [Res.bind_ok]
            have hx : (C.aesDec (key.take 16) (beBytes 16 dm.entropy.natAbs)).length = 16 :=
              hC.phrase.aesDec_length _ _ (by simp [hl]) (beBytes_len ..)
            have hy : ∀ x : Bytes, x.length = 16 → bitLen (setBytes x : Nat) ≤ entropyBitCount := fun x h => by
              show (setBytes x).size ≤ 128
              rw [Nat.size_le]
              have := setBytes_lt x
              rw [h] at this
              exact this
            unfold newSeed
            cases eraCheck (versionEra dm.version) with
            | err e => rfl
            | panic p => rfl
            | ok u =>
              simp only [Res.bind_ok]
              rw [if_neg (by
                have := hy (π.perm (C.aesDec (key.take 16) (beBytes 16 dm.entropy.natAbs))) (by rw [π.length, hx])
                exact Nat.not_lt.2 this), if_neg (Nat.not_lt.2 (hy _ hx))]
              exact congrArg Res.ok (rename_of π hx).symm
          · rfl

end

/-! ## programs -/

def mapE {α β : Type} (f : α → β) : ResE α → ResE β
  | .ok a => .ok (f a)
  | .err e => .err e
  | .panic p => .panic p

def mapOut {α β : Type} (f : α → β) : Outcome α → Outcome β
  | .ok a => .ok (f a)
  | .err e => .err e
  | .panic p => .panic p
  | .waits c => .waits c
  | .loops => .loops

def mapOutE {α β : Type} (f : α → β) : OutcomeE α → OutcomeE β
  | .ok a => .ok (f a)
  | .err e => .err e
  | .panic p => .panic p
  | .waits c => .waits c
  | .loops => .loops

/-- The second program does what the first does, and renames the result. -/
def Mapped {α β σ : Type} {O : Type → Type} (m : (α → β) → O α → O β) (k : α → β) (x : σ → O α × σ) (y : σ → O β × σ) :
    Prop := ∀ st, y st = (m k (x st).1, (x st).2)

theorem bind_mapped {α β γ : Type} {k : α → β} {x : Prog α} {y : Prog β} (h : Mapped mapOut k x y) {f : β → Prog γ}
    {g : α → Prog γ} (hf : ∀ a, f (k a) = g a) : (y >>= f) = (x >>= g) := by
  funext st
  show Prog.bind y f st = Prog.bind x g st
  unfold Prog.bind
  rw [h st]
  obtain ⟨o, st1⟩ := x st
  cases o with
  | ok a => show f (k a) st1 = g a st1; rw [hf]
  | _ => rfl

theorem bindV_mapped {α β γ : Type} {k : α → β} {x : ProgV α} {y : ProgV β} (h : Mapped mapOut k x y) {f : β → ProgV γ}
    {g : α → ProgV γ} (hf : ∀ a, f (k a) = g a) : (y >>= f) = (x >>= g) := by
  funext st
  show ProgV.bind y f st = ProgV.bind x g st
  unfold ProgV.bind
  rw [h st]
  obtain ⟨o, st1⟩ := x st
  cases o with
  | ok a => show f (k a) st1 = g a st1; rw [hf]
  | _ => rfl

theorem bindE_mapped {α β γ : Type} {k : α → β} {x : ProgE α} {y : ProgE β} (h : Mapped mapOutE k x y) {f : β → ProgE γ}
    {g : α → ProgE γ} (hf : ∀ a, f (k a) = g a) : (y >>= f) = (x >>= g) := by
  funext st
  show ProgE.bind y f st = ProgE.bind x g st
  unfold ProgE.bind
  rw [h st]
  obtain ⟨o, st1⟩ := x st
  cases o with
  | ok a => show f (k a) st1 = g a st1; rw [hf]
  | _ => rfl

theorem lift_mapped {α β : Type} (k : α → β) (r : Res α) : Mapped mapOut k (lift r) (lift (mapRes k r)) := by
  intro st; cases r <;> rfl

theorem silent_mapped {α β : Type} {k : α → β} {x : Prog α} {y : Prog β} (h : Mapped mapOut k x y) :
    Mapped mapOut k (silent x) (silent y) := by
  intro st
  unfold silent
  rw [h]

theorem liftE_mapped {α β : Type} (k : α → β) (r : ResE α) : Mapped mapOutE k (liftE r) (liftE (mapE k r)) := by
  intro st; cases r <;> rfl

theorem newE_renamed (π : Renaming) (C : Crypto) (s : Seed) (creation : Int) (o : Option KeyOptions) :
    newE (renamed π C) (rename π s) creation o = mapE (renameKey π) (newE C s creation o) := by
  unfold newE
  rw [new_renamed]
  cases new C s creation o <;> rfl

theorem wrap_mapped {α β : Type} (k : α → β) (b : Bytes) (r : ResE α) : (mapE k r).wrap b = mapE k (r.wrap b) := by
  cases r <;> rfl

section
variable (π : Renaming) {C : Crypto} (hC : C.Lawful) {dm : DecodedMnemonic} (he : dm.encrypted = true)
include hC he

theorem passwordLoop_renamed (ps : List (Res Bytes)) :
    passwordLoop (renamed π C) dm ps = (mapOut (rename π) (passwordLoop C dm ps).1, (passwordLoop C dm ps).2) := by
  induction ps with
  | nil => rfl
  | cons p ps ih =>
    cases p with
    | ok p =>
      unfold passwordLoop
      rw [decrypt_renamed π C hC he]
      cases dm.decryptSeed C.toPhraseCrypto p with
      | ok s => rfl
      | panic p => rfl
      | err e => cases e <;> first | rfl | exact ih
    | _ => rfl

theorem passwordLoopV_renamed (ps : List (Res Bytes)) :
    passwordLoopV (renamed π C) dm ps = (mapOut (rename π) (passwordLoopV C dm ps).1, (passwordLoopV C dm ps).2) := by
  induction ps with
  | nil => rfl
  | cons p ps ih =>
    cases p with
    | ok p =>
      unfold passwordLoopV
      rw [decrypt_renamed π C hC he]
      cases dm.decryptSeed C.toPhraseCrypto p with
      | ok s => rfl
      | panic p => rfl
      | err e => cases e <;> first | rfl | (simp only [mapRes]; rw [ih])
    | _ => rfl

theorem passwordLoopE_renamed (ps : List (ResE Bytes)) :
    passwordLoopE (renamed π C) dm ps = (mapOutE (rename π) (passwordLoopE C dm ps).1, (passwordLoopE C dm ps).2) := by
  induction ps with
  | nil => rfl
  | cons p ps ih =>
    cases p with
    | ok p =>
      unfold passwordLoopE
      rw [decrypt_renamed π C hC he]
      cases dm.decryptSeed C.toPhraseCrypto p with
      | ok s => rfl
      | panic p => rfl
      | err e => cases e <;> first | rfl | exact ih
    | _ => rfl

theorem askSeed_renamed : Mapped mapOut (rename π) (askSeed C dm) (askSeed (renamed π C) dm) := by
  intro st
  unfold askSeed seedLoop
  simp only [he, if_true]
  rw [passwordLoop_renamed π hC he]

theorem askSeedV_renamed : Mapped mapOut (rename π) (askSeedV C dm) (askSeedV (renamed π C) dm) := by
  intro st
  unfold askSeedV
  simp only [he, if_true]
  rw [passwordLoopV_renamed π hC he]

theorem askSeedE_renamed : Mapped mapOutE (rename π) (askSeedE C dm) (askSeedE (renamed π C) dm) := by
  intro st
  unfold askSeedE
  simp only [he, if_true]
  rw [passwordLoopE_renamed π hC he]

end

/-- Only encrypted phrases are entered. -/
def Locked (L : WordList) (env : Env) (input : InputFlags) : Prop :=
  ∀ words dm, inputWords L env input = .ok words → decodeMnemonic L words = .ok dm → dm.encrypted = true

section
variable (π : Renaming) {C : Crypto} (hC : C.Lawful) {L : WordList} {env : Env} {input : InputFlags}
  (hl : Locked L env input)

/-- What is read from a phrase, with the seed renamed -/
def renameRead (r : Seed × DecodedMnemonic) : Seed × DecodedMnemonic := (rename π r.1, r.2)

include hC hl

theorem input_renamed {γ : Type} {f g : Seed × DecodedMnemonic → Prog γ} (hf : ∀ a, f (renameRead π a) = g a) :
    (decodeMnemonicFromInput L (renamed π C) env input >>= f) = (decodeMnemonicFromInput L C env input >>= g) := by
  refine bind_mapped (k := renameRead π) (fun st => ?_) hf
  unfold decodeMnemonicFromInput
  cases h1 : inputWords L env input with
  | err e => rfl
  | panic p => rfl
  | ok words =>
    show (lift (decodeMnemonic L words) >>= _ : Prog _) st = (mapOut _ ((lift (decodeMnemonic L words) >>= _ : Prog _) st).1,
      ((lift (decodeMnemonic L words) >>= _ : Prog _) st).2)
    cases h2 : decodeMnemonic L words with
    | err e => rfl
    | panic p => rfl
    | ok dm =>
      show (askSeed _ dm >>= _ : Prog _) st = (mapOut _ ((askSeed C dm >>= _ : Prog _) st).1, ((askSeed C dm >>= _ : Prog _) st).2)
      rw [bind_mapped (askSeed_renamed π hC (hl _ _ h1 h2)) (g := fun s => pure (rename π s, dm)) (fun _ => rfl)]
      show Prog.bind _ _ _ = (mapOut _ (Prog.bind _ _ _).1, (Prog.bind _ _ _).2)
      unfold Prog.bind
      obtain ⟨o, st1⟩ := askSeed C dm st
      cases o <;> rfl

theorem inputE_renamed (os : OsText) {γ : Type} {f g : Seed × DecodedMnemonic → ProgE γ}
    (hf : ∀ a, f (renameRead π a) = g a) :
    (decodeMnemonicFromInputE os L (renamed π C) env input >>= f) = (decodeMnemonicFromInputE os L C env input >>= g) := by
  refine bindE_mapped (k := renameRead π) (fun st => ?_) hf
  unfold decodeMnemonicFromInputE
  cases h1 : inputWordsE os L env input with
  | err e => rfl
  | panic p => rfl
  | ok words =>
    show (liftE (decodeMnemonicE L words) >>= _ : ProgE _) st =
      (mapOutE _ ((liftE (decodeMnemonicE L words) >>= _ : ProgE _) st).1, ((liftE (decodeMnemonicE L words) >>= _ : ProgE _) st).2)
    cases h2 : decodeMnemonicE L words with
    | err e => rfl
    | panic p => rfl
    | ok dm =>
      have h1' : inputWords L env input = .ok words := by
        rw [← plain_inputWords os, h1]; rfl
      have h2' : decodeMnemonic L words = .ok dm := by
        unfold decodeMnemonicE explain at h2
        cases h : decodeMnemonic L words with
        | ok x => rw [h] at h2; cases h2; rfl
        | err e => rw [h] at h2; cases h2
        | panic p => rw [h] at h2; cases h2
      show (askSeedE _ dm >>= _ : ProgE _) st =
        (mapOutE _ ((askSeedE C dm >>= _ : ProgE _) st).1, ((askSeedE C dm >>= _ : ProgE _) st).2)
      rw [bindE_mapped (askSeedE_renamed π hC (hl _ _ h1' h2')) (g := fun s => pure (rename π s, dm)) (fun _ => rfl)]
      show ProgE.bind _ _ _ = (mapOutE _ (ProgE.bind _ _ _).1, (ProgE.bind _ _ _).2)
      unfold ProgE.bind
      obtain ⟨o, st1⟩ := askSeedE C dm st
      cases o <;> rfl

omit hC hl in
theorem mappedV_bind {α β γ : Type} {k : β → γ} (x : ProgV α) {f : α → ProgV β} {g : α → ProgV γ}
    (h : ∀ a, Mapped mapOut k (f a) (g a)) : Mapped mapOut k (x >>= f) (x >>= g) := by
  intro st
  show ProgV.bind x g st = (mapOut k (ProgV.bind x f st).1, (ProgV.bind x f st).2)
  unfold ProgV.bind
  obtain ⟨o, st1⟩ := x st
  cases o with
  | ok a => exact h a st1
  | _ => rfl

omit hC hl in
theorem mappedV_lift {α β γ : Type} {k : β → γ} {r : Res α} {f : α → ProgV β} {g : α → ProgV γ}
    (h : ∀ a, r = .ok a → Mapped mapOut k (f a) (g a)) :
    Mapped mapOut k (silent (lift r) >>= f) (silent (lift r) >>= g) := by
  intro st
  cases r with
  | ok a => exact h a rfl _
  | _ => rfl

theorem inputV_renamed (verbose : Bool) {γ : Type} {f g : Seed × DecodedMnemonic → ProgV γ}
    (hf : ∀ a, f (renameRead π a) = g a) :
    (decodeMnemonicFromInputV L (renamed π C) env input verbose >>= f) =
      (decodeMnemonicFromInputV L C env input verbose >>= g) := by
  refine bindV_mapped (k := renameRead π) ?_ hf
  have key : Mapped mapOut (renameRead π)
      (silent (lift (inputWords L env input)) >>= fun words => silent (lift (decodeMnemonic L words)) >>= fun dm =>
        if verbose then do
          eprintln (str "Decoded mnemonic recovery phrase:")
          printDebugInfo (phraseDebugInfo dm)
          eprintln []
          let seed ← askSeedV C dm
          pure (seed, dm)
        else do
          let seed ← askSeedV C dm
          pure (seed, dm))
      (silent (lift (inputWords L env input)) >>= fun words => silent (lift (decodeMnemonic L words)) >>= fun dm =>
        if verbose then do
          eprintln (str "Decoded mnemonic recovery phrase:")
          printDebugInfo (phraseDebugInfo dm)
          eprintln []
          let seed ← askSeedV (renamed π C) dm
          pure (seed, dm)
        else do
          let seed ← askSeedV (renamed π C) dm
          pure (seed, dm)) := by
    refine mappedV_lift fun words h1 => mappedV_lift fun dm h2 => ?_
    have ask : Mapped mapOut (renameRead π) (askSeedV C dm >>= fun seed => pure (seed, dm))
        (askSeedV (renamed π C) dm >>= fun seed => pure (seed, dm)) := by
      intro st
      rw [bindV_mapped (askSeedV_renamed π hC (hl _ _ h1 h2)) (g := fun s => pure (rename π s, dm)) (fun _ => rfl)]
      show ProgV.bind _ _ _ = (mapOut _ (ProgV.bind _ _ _).1, (ProgV.bind _ _ _).2)
      unfold ProgV.bind
      obtain ⟨o, st1⟩ := askSeedV C dm st
      cases o <;> rfl
    cases verbose with
    | false => exact ask
    | true => exact mappedV_bind _ fun _ => mappedV_bind _ fun _ => mappedV_bind _ fun _ => ask
  unfold decodeMnemonicFromInputV
  by_cases hi : input.inputWordFile = []
  · simp only [hi, if_true]
    refine mappedV_bind _ fun _ => ?_
    cases verbose <;> exact key
  · simp only [hi, if_false]
    cases verbose <;> exact key

end

/-! ## exports: their AES has keys of 32 bytes -/

section
variable (π : Renaming) {C : Crypto} (hC : C.Lawful)
include hC

theorem s2kKey_length {password salt : Bytes} {n : Nat} {key : Bytes}
    (h : Pgp.stringToKey C Pgp.defaultStringToKeyHashFunc password salt n = .ok key) : key.length = 32 := by
  unfold Pgp.stringToKey at h
  split at h
  · cases h
  · cases h
    exact hC.sha256_length _

omit hC in
theorem cipher_renamed {key : Bytes} (h : key.length = 32) : Pgp.aesNewCipher (renamed π C) key = Pgp.aesNewCipher C key := by
  unfold Pgp.aesNewCipher
  have h16 : ¬ key.length = 16 := by omega
  simp only [h16, if_false]
  rfl

omit hC in
theorem stringToKey_renamed : Pgp.stringToKey (renamed π C) = Pgp.stringToKey C := by
  funext f p s n
  have h : Pgp.hashNew (renamed π C) = Pgp.hashNew C := rfl
  unfold Pgp.stringToKey
  rw [h]

theorem s2k_renamed : Pgp.encryptS2K (renamed π C) Pgp.defaultStringToKeyHashFunc =
    Pgp.encryptS2K C Pgp.defaultStringToKeyHashFunc := by
  funext plaintext password rnd
  unfold Pgp.encryptS2K
  refine congrArg (Bind.bind _) (funext fun a => congrArg (Bind.bind _) (funext fun b => ?_))
  obtain ⟨a, ra⟩ := a
  obtain ⟨b, rb⟩ := b
  dsimp only
  rw [stringToKey_renamed]
  cases h : Pgp.stringToKey C Pgp.defaultStringToKeyHashFunc password a (Pgp.s2kCountDecode Pgp.s2kCountMaximum) with
  | err e => rfl
  | panic p => rfl
  | ok key =>
    simp only [Res.bind_ok]
    rw [cipher_renamed π (s2kKey_length hC h)]
    rfl

theorem s2kE_renamed (os : OsText) : encryptS2KE os (renamed π C) Pgp.defaultStringToKeyHashFunc =
    encryptS2KE os C Pgp.defaultStringToKeyHashFunc := by
  funext plaintext password rnd
  unfold encryptS2KE
  refine congrArg (Bind.bind _) (funext fun a => congrArg (Bind.bind _) (funext fun b => ?_))
  obtain ⟨a, ra⟩ := a
  obtain ⟨b, rb⟩ := b
  dsimp only
  rw [stringToKey_renamed]
  cases h : Pgp.stringToKey C Pgp.defaultStringToKeyHashFunc password a (Pgp.s2kCountDecode Pgp.s2kCountMaximum) with
  | err e => rfl
  | panic p => rfl
  | ok key =>
    show (noError (Pgp.aesNewCipher _ key) >>= _) = (noError (Pgp.aesNewCipher C key) >>= _)
    rw [cipher_renamed π (s2kKey_length hC h)]
    rfl

theorem private_renamed : Pgp.ECKey.encodePrivate (renamed π C) = Pgp.ECKey.encodePrivate C := by
  funext key password rnd
  unfold Pgp.ECKey.encodePrivate
  rw [s2k_renamed π hC]

theorem privateE_renamed (os : OsText) : encodePrivateE os (renamed π C) = encodePrivateE os C := by
  funext key password rnd
  unfold encodePrivateE
  rw [s2kE_renamed π hC, private_renamed π hC]

theorem packet_renamed : Pgp.ECKey.encodePrivatePacket (renamed π C) = Pgp.ECKey.encodePrivatePacket C := by
  funext tag key password rnd
  unfold Pgp.ECKey.encodePrivatePacket
  rw [private_renamed π hC]

theorem packetE_renamed (os : OsText) : encodePrivatePacketE os (renamed π C) = encodePrivatePacketE os C := by
  funext tag key password rnd
  unfold encodePrivatePacketE
  rw [privateE_renamed π hC]

theorem subkey_renamed : Pgp.encodeSubkeyPackets (renamed π C) = Pgp.encodeSubkeyPackets C := by
  funext master base flags expiry password rnd
  unfold Pgp.encodeSubkeyPackets
  rw [packet_renamed π hC]
  rfl

theorem subkeyE_renamed (os : OsText) : encodeSubkeyPacketsE os (renamed π C) = encodeSubkeyPacketsE os C := by
  funext what master base flags expiry password rnd
  unfold encodeSubkeyPacketsE
  rw [packetE_renamed π hC]
  rfl

theorem subkeys_renamed : Pgp.KeySet.encodeAllSubkeyPackets (renamed π C) = Pgp.KeySet.encodeAllSubkeyPackets C := by
  funext ks password rnd
  simp only [Pgp.KeySet.encodeAllSubkeyPackets, Pgp.KeySet.encodeEncryption, Pgp.KeySet.encodeAuthentication,
    Pgp.KeySet.encodeSigning, subkey_renamed π hC]
  rfl

theorem subkeysE_renamed (os : OsText) : encodeAllSubkeyPacketsE os (renamed π C) = encodeAllSubkeyPacketsE os C := by
  funext ks password rnd
  simp only [encodeAllSubkeyPacketsE, encodeEncryptionE, encodeAuthenticationE, encodeSigningE, subkeyE_renamed π hC]
  rfl

theorem export_renamed (m : Mnemonikey) : exportKey (renamed π C) (renameKey π m) = exportKey C m := by
  have h1 : Pgp.KeySet.encodePackets (renamed π C) = Pgp.KeySet.encodePackets C := by
    funext ks password rnd
    simp only [Pgp.KeySet.encodePackets, subkeys_renamed π hC, packet_renamed π hC]
    rfl
  have h2 : Pgp.KeySet.encodeSubkeyPackets (renamed π C) = Pgp.KeySet.encodeSubkeyPackets C := by
    funext ks password cert rnd
    simp only [Pgp.KeySet.encodeSubkeyPackets, subkeys_renamed π hC]
    rfl
  funext master cert password
  unfold exportKey
  congr 2
  · funext rnd
    unfold Mnemonikey.encodePGP
    rw [h1]
    rfl
  · funext rnd
    unfold Mnemonikey.encodeSubkeysPGP
    rw [h2]
    rfl

theorem exportE_renamed (os : OsText) (m : Mnemonikey) :
    exportKeyE os (renamed π C) (renameKey π m) = exportKeyE os C m := by
  have h1 : encodePacketsE os (renamed π C) = encodePacketsE os C := by
    funext ks password rnd
    simp only [encodePacketsE, subkeysE_renamed π hC, packetE_renamed π hC]
    rfl
  have h2 : encodeOnlySubkeyPacketsE os (renamed π C) = encodeOnlySubkeyPacketsE os C := by
    funext ks password cert rnd
    simp only [encodeOnlySubkeyPacketsE, subkeysE_renamed π hC]
    rfl
  funext master cert password
  unfold exportKeyE
  rw [h1, h2]
  rfl

end

/-! ## subcommands -/

section
variable (π : Renaming) (C : Crypto)

theorem debug_renamed (F : Fmt) (m : Mnemonikey) :
    printKeyDebugInfo F (renamed π C) (renameKey π m) = printKeyDebugInfo F C m := rfl

theorem phrase_renamed (L : WordList) (m : Mnemonikey) :
    (renameKey π m).encodeMnemonicEncrypted L (renamed π C) = m.encodeMnemonicEncrypted L C :=
  encrypted_renamed π C L m.seed m.creationOffset

theorem phraseE_renamed (os : OsText) (L : WordList) (s : Seed) (offset : Nat) :
    encodeMnemonicEncryptedE os L (renamed π C).toPhraseCrypto (rename π s) offset =
      encodeMnemonicEncryptedE os L C.toPhraseCrypto s offset := by
  funext password rnd
  unfold encodeMnemonicEncryptedE
  rw [encrypted_renamed]

end

section
variable (π : Renaming) {C : Crypto} (hC : C.Lawful) {L : WordList} {env : Env}
include hC

theorem recover_renamed (opts : RecoverOptions) (hl : Locked L env opts.input) :
    recoverAndPrintKey L (renamed π C) env opts = recoverAndPrintKey L C env opts := by
  unfold recoverAndPrintKey
  refine lift_congr fun ttl _ => ?_
  split
  · rfl
  · refine lift_congr fun a _ => input_renamed π hC hl fun r => ?_
    show (lift (new (renamed π C) (rename π r.1) r.2.creation _) >>= _ : Prog _) = (lift (new C r.1 r.2.creation _) >>= _ : Prog _)
    rw [new_renamed]
    exact bind_mapped (lift_mapped _ _) fun m => by rw [export_renamed π hC]

theorem recoverV_renamed (F : Fmt) (opts : RecoverOptions) (hl : Locked L env opts.input) (verbose : Bool) :
    recoverAndPrintKeyV F L (renamed π C) env opts verbose = recoverAndPrintKeyV F L C env opts verbose := by
  unfold recoverAndPrintKeyV
  refine silent_congr fun ttl _ => ?_
  split
  · rfl
  · refine silent_congr fun a _ => inputV_renamed π hC hl verbose fun r => ?_
    show (silent (lift (new (renamed π C) (rename π r.1) r.2.creation _)) >>= _ : ProgV _) =
      (silent (lift (new C r.1 r.2.creation _)) >>= _ : ProgV _)
    rw [new_renamed]
    exact bindV_mapped (silent_mapped (lift_mapped _ _)) fun m => by rw [export_renamed π hC, debug_renamed]

theorem recoverE_renamed (F : Fmt) (os : OsText) (opts : RecoverOptions) (hl : Locked L env opts.input) :
    recoverAndPrintKeyE F os L (renamed π C) env opts = recoverAndPrintKeyE F os L C env opts := by
  unfold recoverAndPrintKeyE
  refine liftE_congr fun ttl _ => ?_
  split
  · rfl
  · refine liftE_congr fun a _ => inputE_renamed π hC hl os fun r => ?_
    show (liftE ((newE (renamed π C) (rename π r.1) r.2.creation _).wrap _) >>= _ : ProgE _) =
      (liftE ((newE C r.1 r.2.creation _).wrap _) >>= _ : ProgE _)
    rw [newE_renamed, wrap_mapped]
    exact bindE_mapped (liftE_mapped _ _) fun m => by rw [exportE_renamed π hC]

theorem convert_renamed (opts : ConvertOptions) (hl : Locked L env opts.input) (he : opts.encryptPhrase = true) :
    decodeAndConvertPhrase L (renamed π C) env opts = decodeAndConvertPhrase L C env opts := by
  unfold decodeAndConvertPhrase
  refine input_renamed π hC hl fun r => ?_
  simp only [he, if_true, renameRead, encrypted_renamed]

theorem convertV_renamed (opts : ConvertOptions) (hl : Locked L env opts.input) (he : opts.encryptPhrase = true)
    (verbose : Bool) :
    decodeAndConvertPhraseV L (renamed π C) env opts verbose = decodeAndConvertPhraseV L C env opts verbose := by
  unfold decodeAndConvertPhraseV
  refine inputV_renamed π hC hl verbose fun r => ?_
  simp only [he, if_true, renameRead, encrypted_renamed]

theorem convertE_renamed (os : OsText) (opts : ConvertOptions) (hl : Locked L env opts.input)
    (he : opts.encryptPhrase = true) :
    decodeAndConvertPhraseE os L (renamed π C) env opts = decodeAndConvertPhraseE os L C env opts := by
  unfold decodeAndConvertPhraseE
  refine inputE_renamed π hC hl os fun r => ?_
  simp only [he, if_true, renameRead, phraseE_renamed]

end

/-! ## new keys -/

section
variable (π : Renaming) {C : Crypto} (hC : C.Lawful) (L : WordList) (env : Env) (opts : GenerateOptions) (he : opts.encryptPhrase = true)
  (hs : opts.unsafeEntropy = []) {e : Bytes} (hlen : e.length = 16) (rest : Bytes)

theorem events_lift {α β : Type} {r : Res α} {f g : α → ProgV β} {st st' : StV} (he : st.events = st'.events)
    (h : ∀ a, (f a ⟨st.prompts, st.rnd, st.events ++ []⟩).2.events = (g a ⟨st'.prompts, st'.rnd, st'.events ++ []⟩).2.events) :
    ((silent (lift r) >>= f) st).2.events = ((silent (lift r) >>= g) st').2.events := by
  cases r with
  | ok a => exact h a
  | err e => show st.events ++ [] = st'.events ++ []; rw [he]
  | panic p => show st.events ++ [] = st'.events ++ []; rw [he]

theorem ends_lift {α β : Type} {r : ResE α} {f g : α → ProgE β} {st st' : StE} (h : ∀ a, (f a st).1 = (g a st').1) :
    ((liftE r >>= f) st).1 = ((liftE r >>= g) st').1 := by
  cases r with
  | ok a => exact h a
  | _ => rfl

include hlen in
theorem generateSeed_renamed : generateSeed (e ++ rest) = .ok (⟨0, (setBytes e : Nat)⟩, rest) ∧
    generateSeed (π.perm e ++ rest) = .ok (rename π ⟨0, (setBytes e : Nat)⟩, rest) := by
  rw [(generateSeed_bytes hlen).1, (generateSeed_bytes ((π.length e).trans hlen)).1, valueOfBytes_eq, valueOfBytes_eq,
    rename_of π hlen]
  exact ⟨rfl, rfl⟩

include hC he hs hlen

theorem generateV_renamed (F : Fmt) (verbose : Bool) (prompts : List (Res Bytes)) (events : List Ev) :
    (generateAndPrintKeyV F L (renamed π C) env opts verbose ⟨prompts, π.perm e ++ rest, events⟩).2.events =
      (generateAndPrintKeyV F L C env opts verbose ⟨prompts, e ++ rest, events⟩).2.events := by
  obtain ⟨g1, g2⟩ := generateSeed_renamed π hlen rest
  unfold generateAndPrintKeyV
  refine events_lift rfl fun ttl => events_lift rfl fun a => ?_
  simp only [hs, ne_eq, not_true_eq_false, if_false, he, if_true]
  have s1 : ∀ p ev, silent (seedOf env []) ⟨p, e ++ rest, ev⟩ = (.ok ⟨0, (setBytes e : Nat)⟩, ⟨p, rest, ev ++ []⟩) := by
    intro p ev
    unfold silent seedOf
    rw [if_neg (by simp)]
    unfold random
    dsimp only
    rw [g1]
    rfl
  have s2 : ∀ p ev, silent (seedOf env []) ⟨p, π.perm e ++ rest, ev⟩ =
      (.ok (rename π ⟨0, (setBytes e : Nat)⟩), ⟨p, rest, ev ++ []⟩) := by
    intro p ev
    unfold silent seedOf
    rw [if_neg (by simp)]
    unfold random
    dsimp only
    rw [g2]
    rfl
  show (ProgV.bind _ _ _).2.events = (ProgV.bind _ _ _).2.events
  unfold ProgV.bind
  rw [s1, s2]
  dsimp only
  rw [new_renamed]
  rw [bindV_mapped (silent_mapped (lift_mapped _ _)) fun m => ?_]
  simp only [export_renamed π hC, debug_renamed, phrase_renamed]

theorem generateE_renamed (F : Fmt) (os : OsText) (prompts : List (ResE Bytes)) (acts : List Act) :
    (generateAndPrintKeyE F os L (renamed π C) env opts ⟨prompts, π.perm e ++ rest, acts⟩).1 =
      (generateAndPrintKeyE F os L C env opts ⟨prompts, e ++ rest, acts⟩).1 := by
  obtain ⟨g1, g2⟩ := generateSeed_renamed π hlen rest
  unfold generateAndPrintKeyE
  refine ends_lift fun ttl => ends_lift fun a => ?_
  have hE : ∀ {b : Bytes} {r : Seed × Bytes}, generateSeed b = .ok r → ∀ t, generateSeedE t b = .ok r := by
    intro b r h t
    have := plain_generateSeed t b
    rw [h] at this
    cases hx : generateSeedE t b with
    | ok y => rw [hx] at this; cases this; rfl
    | err e => rw [hx] at this; cases this
    | panic p => rw [hx] at this; cases this
  simp only [hs, he, if_true]
  have s1 : ∀ p ev, seedOfE os env [] ⟨p, e ++ rest, ev⟩ = (.ok ⟨0, (setBytes e : Nat)⟩, ⟨p, rest, ev⟩) := by
    intro p ev
    unfold seedOfE
    rw [if_neg (by simp)]
    unfold randomE
    dsimp only
    rw [hE g1]
  have s2 : ∀ p ev, seedOfE os env [] ⟨p, π.perm e ++ rest, ev⟩ =
      (.ok (rename π ⟨0, (setBytes e : Nat)⟩), ⟨p, rest, ev⟩) := by
    intro p ev
    unfold seedOfE
    rw [if_neg (by simp)]
    unfold randomE
    dsimp only
    rw [hE g2]
  show (ProgE.bind _ _ _).1 = (ProgE.bind _ _ _).1
  unfold ProgE.bind
  rw [s1, s2]
  dsimp only
  rw [newE_renamed]
  rw [bindE_mapped (liftE_mapped _ _) fun m => ?_]
  rw [exportE_renamed π hC]
  have : ∀ pw, encodeMnemonicEncryptedE os L (renamed π C).toPhraseCrypto (renameKey π m).seed (renameKey π m).creationOffset pw =
      encodeMnemonicEncryptedE os L C.toPhraseCrypto m.seed m.creationOffset pw := fun pw => by
    show encodeMnemonicEncryptedE os L (renamed π C).toPhraseCrypto (rename π m.seed) m.creationOffset pw = _
    rw [phraseE_renamed]
  simp only [this]

end

end Verif.Proofs
