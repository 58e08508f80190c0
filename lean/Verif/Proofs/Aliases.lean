import Verif.Spec.Aliases
import Verif.Proofs.Renaming

/-! # Lemmas for C123: programs with aliases for phrase passwords -/

namespace Verif.Proofs

open Verif.Model Verif.Model.Cli Verif.Spec Verif.Spec.OpenPGP Verif.Props

section
variable (π : Aliases) {C : Crypto}

theorem aliased_lawful (h : C.Lawful) : (aliased π C).Lawful where
  phrase := {
    argon2id_length := fun p s t m th n => by
      show (if n = 17 then _ else _ : Bytes).length = n
      split <;> exact h.phrase.argon2id_length ..
    aesEnc_length := h.phrase.aesEnc_length
    aesDec_length := h.phrase.aesDec_length
    aes_inv := h.phrase.aes_inv }
  hkdf_length := h.hkdf_length
  ed25519Pub_length := h.ed25519Pub_length
  ed25519Sign_length := h.ed25519Sign_length
  ed25519_verify := h.ed25519_verify
  x25519_length := h.x25519_length
  x25519_clamp := h.x25519_clamp
  sha1_length := h.sha1_length
  sha256_length := h.sha256_length
  sha384_length := h.sha384_length
  sha512_length := h.sha512_length
  aes256_length := h.aes256_length
  shuffle_le := h.shuffle_le
  seconds_lt := h.seconds_lt
  seconds_exact := h.seconds_exact

theorem encSeedKey_aliased (p : Bytes) (salt : Int) (offset : Nat) :
    encSeedKey (aliased π C).toPhraseCrypto (π.perm p) salt offset = encSeedKey C.toPhraseCrypto p salt offset := by
  unfold encSeedKey
  have h : ∀ b, (aliased π C).argon2id (π.perm p) b argonTimeFactor argonMemoryFactor argonThreads 17 =
      C.argon2id p b argonTimeFactor argonMemoryFactor argonThreads 17 := fun b => by
    show C.argon2id (π.perm.symm (π.perm p)) b _ _ _ 17 = _
    rw [Equiv.symm_apply_apply]
  simp only [h]

theorem alias_empty (p : Bytes) : (π.perm p).length = 0 ↔ p.length = 0 := by
  rw [List.length_eq_zero_iff, List.length_eq_zero_iff]
  constructor
  · intro h
    rw [← π.empty] at h
    exact π.perm.injective h
  · rintro rfl
    exact π.empty

theorem encrypt_aliased (L : WordList) (s : Seed) (offset : Nat) (p rnd : Bytes) :
    encodeMnemonicEncrypted L (aliased π C).toPhraseCrypto s offset (π.perm p) rnd =
      encodeMnemonicEncrypted L C.toPhraseCrypto s offset p rnd := by
  unfold encodeMnemonicEncrypted
  simp only [encSeedKey_aliased, alias_empty]
  rfl

theorem decrypt_aliased (dm : DecodedMnemonic) (p : Bytes) :
    dm.decryptSeed (aliased π C).toPhraseCrypto (π.perm p) = dm.decryptSeed C.toPhraseCrypto p := by
  unfold DecodedMnemonic.decryptSeed
  simp only [encSeedKey_aliased]
  rfl

theorem new_aliased : new (aliased π C) = new C := rfl

theorem newE_aliased : newE (aliased π C) = newE C := rfl

theorem export_aliased : exportKey (aliased π C) = exportKey C := rfl

theorem exportE_aliased : exportKeyE (C := aliased π C) = exportKeyE (C := C) := rfl

theorem debug_aliased (F : Fmt) : printKeyDebugInfo F (aliased π C) = printKeyDebugInfo F C := rfl

/-- An answer with the text of its error left out -/
def Aliases.plain : Res Bytes → Res Bytes := mapRes π.perm

theorem plain_answer (r : ResE Bytes) : (π.answer r).plain = mapRes π.perm r.plain := by cases r <;> rfl

/-! ## the loop of recover and convert -/

theorem loop_aliased (dm : DecodedMnemonic) (ps : List (ResE Bytes)) : ∃ used rest, ps = used ++ rest ∧
    (passwordLoopV C dm (ps.map ResE.plain)).2.1 = rest.map ResE.plain ∧ (passwordLoopE C dm ps).2 = rest ∧
    used.length ≤ decryptions (passwordLoopV C dm (ps.map ResE.plain)).2.2 ∧
    (rest ≠ [] → decryptions (passwordLoopV C dm (ps.map ResE.plain)).2.2 = used.length) ∧
    ∀ rest', (rest = [] → rest' = []) →
      passwordLoopV (aliased π C) dm ((used.map π.answer ++ rest').map ResE.plain) =
        ((passwordLoopV C dm (ps.map ResE.plain)).1, rest'.map ResE.plain, (passwordLoopV C dm (ps.map ResE.plain)).2.2) ∧
      passwordLoopE (aliased π C) dm (used.map π.answer ++ rest') = ((passwordLoopE C dm ps).1, rest') := by
  have one : ∀ c : Bytes, c = decryptPrompt → decryptions [.password c false] = 1 := by
    rintro c rfl
    decide +kernel
  induction ps with
  | nil =>
    refine ⟨[], [], rfl, rfl, rfl, Nat.zero_le _, fun h => absurd rfl h, fun rest' h => ?_⟩
    cases h rfl
    exact ⟨rfl, rfl⟩
  | cons p ps ih =>
    cases p with
    | err e => exact ⟨[.err e], ps, rfl, rfl, rfl, (one _ rfl).ge, fun _ => one _ rfl, fun rest' _ => ⟨rfl, rfl⟩⟩
    | panic e => exact ⟨[.panic e], ps, rfl, rfl, rfl, (one _ rfl).ge, fun _ => one _ rfl, fun rest' _ => ⟨rfl, rfl⟩⟩
    | ok p =>
      have hd := decrypt_aliased π (C := C) dm p
      show ∃ used rest, ResE.ok p :: ps = used ++ rest ∧
        (passwordLoopV C dm (Res.ok p :: ps.map ResE.plain)).2.1 = rest.map ResE.plain ∧
        (passwordLoopE C dm (ResE.ok p :: ps)).2 = rest ∧
        used.length ≤ decryptions (passwordLoopV C dm (Res.ok p :: ps.map ResE.plain)).2.2 ∧
        (rest ≠ [] → decryptions (passwordLoopV C dm (Res.ok p :: ps.map ResE.plain)).2.2 = used.length) ∧
        ∀ rest', (rest = [] → rest' = []) →
          passwordLoopV (aliased π C) dm ((used.map π.answer ++ rest').map ResE.plain) =
            ((passwordLoopV C dm (Res.ok p :: ps.map ResE.plain)).1, rest'.map ResE.plain,
              (passwordLoopV C dm (Res.ok p :: ps.map ResE.plain)).2.2) ∧
          passwordLoopE (aliased π C) dm (used.map π.answer ++ rest') = ((passwordLoopE C dm (ResE.ok p :: ps)).1, rest')
      by_cases hw : dm.decryptSeed C.toPhraseCrypto p = .err .mnemonicDecryption
      · obtain ⟨used, rest, h1, h2, h3, h4, h5, h6⟩ := ih
        have e1 : passwordLoopV C dm (.ok p :: ps.map ResE.plain) =
            ((passwordLoopV C dm (ps.map ResE.plain)).1, (passwordLoopV C dm (ps.map ResE.plain)).2.1,
              [.password decryptPrompt false, .err (red (str "failed to decrypt entropy: incorrect password") ++ str "\n")] ++
                (passwordLoopV C dm (ps.map ResE.plain)).2.2) := by
          rw [passwordLoopV, hw]
        have e2 : passwordLoopE C dm (.ok p :: ps) = passwordLoopE C dm ps := by rw [passwordLoopE, hw]
        have hcount : ∀ evs, decryptions ([.password decryptPrompt false,
            .err (red (str "failed to decrypt entropy: incorrect password") ++ str "\n")] ++ evs) = decryptions evs + 1 := by
          intro evs
          unfold decryptions
          rw [List.countP_append, Nat.add_comm]
          rfl
        refine ⟨.ok p :: used, rest, by rw [h1]; rfl, by rw [e1]; exact h2, by rw [e2]; exact h3, ?_, ?_, ?_⟩
        · rw [e1, hcount]; exact Nat.succ_le_succ h4
        · intro hr
          rw [e1, hcount, h5 hr]; rfl
        · intro rest' hr
          obtain ⟨a1, a2⟩ := h6 rest' hr
          rw [e1, e2]
          constructor
          · show passwordLoopV _ dm (.ok (π.perm p) :: (used.map π.answer ++ rest').map ResE.plain) = _
            rw [passwordLoopV, hd, hw]
            dsimp only
            rw [a1]
          · show passwordLoopE _ dm (.ok (π.perm p) :: _) = _
            rw [passwordLoopE, hd, hw]
            exact a2
      · refine ⟨[.ok p], ps, rfl, ?_⟩
        have hs : ∃ o oE, (∀ (C' : Crypto) (q : Bytes), dm.decryptSeed C'.toPhraseCrypto q = dm.decryptSeed C.toPhraseCrypto p →
            (∀ t, passwordLoopV C' dm (.ok q :: t) = (o, t, [.password decryptPrompt false])) ∧
            ∀ t, passwordLoopE C' dm (.ok q :: t) = (oE, t)) := by
          cases h : dm.decryptSeed C.toPhraseCrypto p with
          | ok s => exact ⟨.ok s, .ok s, fun C' q hq => ⟨fun t => by rw [passwordLoopV, hq], fun t => by rw [passwordLoopE, hq]⟩⟩
          | panic s =>
            exact ⟨.panic s, .panic s, fun C' q hq => ⟨fun t => by rw [passwordLoopV, hq], fun t => by rw [passwordLoopE, hq]⟩⟩
          | err e =>
            refine ⟨.err e, .err ⟨e, []⟩, fun C' q hq => ⟨fun t => ?_, fun t => ?_⟩⟩
            · rw [passwordLoopV, hq]
              cases e <;> first | rfl | exact absurd h hw
            · rw [passwordLoopE, hq]
              cases e <;> first | rfl | exact absurd h hw
        obtain ⟨o, oE, hs⟩ := hs
        obtain ⟨v, e⟩ := hs C p rfl
        obtain ⟨v', e'⟩ := hs (aliased π C) (π.perm p) hd
        rw [v, e]
        refine ⟨rfl, rfl, (one _ rfl).ge, fun _ => one _ rfl, fun rest' _ => ⟨v' _, e' _⟩⟩

end

/-! ## programs that differ in the answers -/

/-- The second program, with answers that `φ` gives, does what the first does with the answers themselves, and its
result is what `k` gives; if there is one, then the answers left are what `ψ` gives. -/
def HomV {α β : Type} (φ ψ : List (Res Bytes) → List (Res Bytes)) (k : α → β) (x : ProgV α) (y : ProgV β) : Prop :=
  ∀ ps rnd ev, (y ⟨φ ps, rnd, ev⟩).1 = mapOut k (x ⟨ps, rnd, ev⟩).1 ∧
    (y ⟨φ ps, rnd, ev⟩).2.events = (x ⟨ps, rnd, ev⟩).2.events ∧
    (y ⟨φ ps, rnd, ev⟩).2.rnd = (x ⟨ps, rnd, ev⟩).2.rnd ∧
    ∀ a, (x ⟨ps, rnd, ev⟩).1 = .ok a → (y ⟨φ ps, rnd, ev⟩).2.prompts = ψ (x ⟨ps, rnd, ev⟩).2.prompts

def HomE {α β : Type} (φ ψ : List (ResE Bytes) → List (ResE Bytes)) (k : α → β) (x : ProgE α) (y : ProgE β) : Prop :=
  ∀ ps rnd acts, (y ⟨φ ps, rnd, acts⟩).1 = mapOutE k (x ⟨ps, rnd, acts⟩).1 ∧
    (y ⟨φ ps, rnd, acts⟩).2.acts = (x ⟨ps, rnd, acts⟩).2.acts ∧
    (y ⟨φ ps, rnd, acts⟩).2.rnd = (x ⟨ps, rnd, acts⟩).2.rnd ∧
    ∀ a, (x ⟨ps, rnd, acts⟩).1 = .ok a → (y ⟨φ ps, rnd, acts⟩).2.prompts = ψ (x ⟨ps, rnd, acts⟩).2.prompts

/-- The program looks at no answers. -/
def FreeV {α : Type} (x : ProgV α) : Prop := ∀ φ, HomV φ φ id x x

def FreeE {α : Type} (x : ProgE α) : Prop := ∀ φ, HomE φ φ id x x

def FreeP {α : Type} (x : Prog α) : Prop := ∀ ps rnd acts,
  x ⟨ps, rnd, acts⟩ = ((x ⟨[], rnd, acts⟩).1, { (x ⟨[], rnd, acts⟩).2 with prompts := ps })

theorem homV_bind {α β γ δ : Type} {φ ψ χ : List (Res Bytes) → List (Res Bytes)} {k : α → β} {l : γ → δ} {x : ProgV α}
    {y : ProgV β} {f : α → ProgV γ} {g : β → ProgV δ}
    (h : HomV φ ψ k x y) (hf : ∀ a, HomV ψ χ l (f a) (g (k a))) : HomV φ χ l (x >>= f) (y >>= g) := by
  intro ps rnd ev
  show (ProgV.bind _ _ _).1 = mapOut l (ProgV.bind _ _ _).1 ∧ (ProgV.bind _ _ _).2.events = (ProgV.bind _ _ _).2.events ∧
    (ProgV.bind _ _ _).2.rnd = (ProgV.bind _ _ _).2.rnd ∧
    ∀ a, (ProgV.bind _ _ _).1 = _ → (ProgV.bind _ _ _).2.prompts = χ (ProgV.bind _ _ _).2.prompts
  unfold ProgV.bind
  obtain ⟨h1, h2, h3, h4⟩ := h ps rnd ev
  revert h1 h2 h3 h4
  generalize x ⟨ps, rnd, ev⟩ = r
  generalize y ⟨φ ps, rnd, ev⟩ = r'
  obtain ⟨o, ps1, rnd1, ev1⟩ := r
  obtain ⟨o', ps2, rnd2, ev2⟩ := r'
  rintro h1 h2 h3 h4
  simp only at h1 h2 h3 h4
  subst h1 h2 h3
  cases o with
  | ok a =>
    cases h4 a rfl
    exact hf a ps1 rnd2 ev2
  | _ => exact ⟨rfl, rfl, rfl, fun a h => by cases h⟩

theorem homE_bind {α β γ δ : Type} {φ ψ χ : List (ResE Bytes) → List (ResE Bytes)} {k : α → β} {l : γ → δ} {x : ProgE α}
    {y : ProgE β} {f : α → ProgE γ} {g : β → ProgE δ}
    (h : HomE φ ψ k x y) (hf : ∀ a, HomE ψ χ l (f a) (g (k a))) : HomE φ χ l (x >>= f) (y >>= g) := by
  intro ps rnd ev
  show (ProgE.bind _ _ _).1 = mapOutE l (ProgE.bind _ _ _).1 ∧ (ProgE.bind _ _ _).2.acts = (ProgE.bind _ _ _).2.acts ∧
    (ProgE.bind _ _ _).2.rnd = (ProgE.bind _ _ _).2.rnd ∧
    ∀ a, (ProgE.bind _ _ _).1 = _ → (ProgE.bind _ _ _).2.prompts = χ (ProgE.bind _ _ _).2.prompts
  unfold ProgE.bind
  obtain ⟨h1, h2, h3, h4⟩ := h ps rnd ev
  revert h1 h2 h3 h4
  generalize x ⟨ps, rnd, ev⟩ = r
  generalize y ⟨φ ps, rnd, ev⟩ = r'
  obtain ⟨o, ps1, rnd1, ev1⟩ := r
  obtain ⟨o', ps2, rnd2, ev2⟩ := r'
  rintro h1 h2 h3 h4
  simp only at h1 h2 h3 h4
  subst h1 h2 h3
  cases o with
  | ok a =>
    cases h4 a rfl
    exact hf a ps1 rnd2 ev2
  | _ => exact ⟨rfl, rfl, rfl, fun a h => by cases h⟩

theorem mapOut_id {α : Type} (o : Outcome α) : mapOut id o = o := by cases o <;> rfl

theorem mapOutE_id {α : Type} (o : OutcomeE α) : mapOutE id o = o := by cases o <;> rfl

section
variable {α β : Type}

theorem free_lift (r : Res α) : FreeP (lift r) := by intro ps rnd acts; cases r <;> rfl

theorem free_emit (a : List Act) : FreeP (emit a) := fun _ _ _ => rfl

theorem free_random (f : Bytes → Res (α × Bytes)) : FreeP (random f) := by
  intro ps rnd acts
  unfold random
  dsimp only
  cases f rnd <;> rfl

theorem free_bind {x : Prog α} {f : α → Prog β} (hx : FreeP x) (hf : ∀ a, FreeP (f a)) : FreeP (x >>= f) := by
  intro ps rnd acts
  show Prog.bind _ _ _ = ((Prog.bind _ _ _).1, { (Prog.bind _ _ _).2 with prompts := ps })
  unfold Prog.bind
  rw [hx ps]
  have h2 := hx [] rnd acts
  revert h2
  generalize x ⟨[], rnd, acts⟩ = r
  obtain ⟨o, ps1, rnd1, acts1⟩ := r
  intro h2
  have h3 : ps1 = [] := congrArg (fun z : Outcome α × St => z.2.prompts) h2
  subst h3
  cases o with
  | ok a => exact hf a ps rnd1 acts1
  | _ => rfl

theorem free_save (env : Env) (words : List Bytes) (file : Bytes) : FreeP (save env words file) :=
  free_bind (free_emit _) fun _ => free_lift _

theorem free_seedOf (env : Env) (e : Bytes) : FreeP (seedOf env e) := by
  unfold seedOf
  split
  · exact free_lift _
  · exact free_random _

theorem free_export (C : Crypto) (m : Mnemonikey) (a b : Bool) (p : Bytes) : FreeP (exportKey C m a b p) := by
  unfold exportKey
  split <;> exact free_random _

theorem freeV_silent {x : Prog α} (h : FreeP x) : FreeV (silent x) := by
  intro φ ps rnd ev
  unfold silent
  rw [h (φ ps), h ps]
  exact ⟨(mapOut_id _).symm, rfl, rfl, fun _ _ => rfl⟩

theorem freeV_event (e : Ev) : FreeV (event e) := fun _ _ _ _ => ⟨rfl, rfl, rfl, fun _ _ => rfl⟩

theorem freeV_eprints (t : List Bytes) : FreeV (eprints t) := fun _ _ _ _ => ⟨rfl, rfl, rfl, fun _ _ => rfl⟩

theorem freeV_pure (a : α) : FreeV (pure a : ProgV α) := fun _ _ _ _ => ⟨rfl, rfl, rfl, fun _ _ => rfl⟩

theorem freeV_bind {x : ProgV α} {f : α → ProgV β} (hx : FreeV x) (hf : ∀ a, FreeV (f a)) : FreeV (x >>= f) :=
  fun φ => homV_bind (hx φ) fun a => hf a φ

theorem freeV_words (env : Env) (words : List Bytes) : FreeV (printMnemonicV env words) := by
  unfold printMnemonicV
  refine freeV_bind (freeV_event _) fun _ => freeV_bind (freeV_event _) fun _ => freeV_bind (freeV_eprints _) fun _ =>
    freeV_bind (freeV_event _) fun _ => ?_
  split
  · exact fun _ _ _ _ => ⟨rfl, rfl, rfl, fun _ _ => rfl⟩
  · exact freeV_bind (freeV_silent (free_lift _)) fun _ => freeV_bind (freeV_event _) fun _ => freeV_event _

theorem freeV_key (key : Bytes) : FreeV (printKeyV key) :=
  freeV_bind (freeV_event _) fun _ => freeV_bind (freeV_silent (free_emit _)) fun _ => freeV_event _

theorem freeE_liftE (r : ResE α) : FreeE (liftE r) := by
  intro φ ps rnd acts
  cases r <;> exact ⟨rfl, rfl, rfl, fun _ _ => rfl⟩

theorem freeE_random (f : Bytes → ResE (α × Bytes)) : FreeE (randomE f) := by
  intro φ ps rnd acts
  unfold randomE
  dsimp only
  cases f rnd <;> exact ⟨rfl, rfl, rfl, fun _ _ => rfl⟩

theorem freeE_noError (x : Prog α) : FreeE (noErrorE x) := by
  intro φ ps rnd acts
  exact ⟨(mapOutE_id _).symm, rfl, rfl, fun _ _ => rfl⟩

theorem freeE_pure (a : α) : FreeE (pure a : ProgE α) := fun _ _ _ _ => ⟨rfl, rfl, rfl, fun _ _ => rfl⟩

theorem freeE_bind {x : ProgE α} {f : α → ProgE β} (hx : FreeE x) (hf : ∀ a, FreeE (f a)) : FreeE (x >>= f) :=
  fun φ => homE_bind (hx φ) fun a => hf a φ

theorem freeE_save (os : OsText) (env : Env) (words : List Bytes) (file : Bytes) : FreeE (saveE os env words file) :=
  freeE_bind (freeE_noError _) fun _ => freeE_liftE _

theorem freeE_seedOf (os : OsText) (env : Env) (e : Bytes) : FreeE (seedOfE os env e) := by
  unfold seedOfE
  split
  · exact freeE_liftE _
  · exact freeE_random _

theorem freeE_export (os : OsText) (C : Crypto) (m : Mnemonikey) (a b : Bool) (p : Bytes) :
    FreeE (exportKeyE os C m a b p) := by
  unfold exportKeyE
  split <;> exact freeE_random _

end

/-! ## prompts -/

section
variable (π : Aliases)

/-- The first answers as they are, aliases for the others -/
def keep (n : Nat) (ps : List (ResE Bytes)) : List (ResE Bytes) := ps.take n ++ (ps.drop n).map π.answer

def keepV (n : Nat) (ps : List (Res Bytes)) : List (Res Bytes) := ps.take n ++ (ps.drop n).map (mapRes π.perm)

theorem keep_plain (n : Nat) (ps : List (ResE Bytes)) : (keep π n ps).map ResE.plain = keepV π n (ps.map ResE.plain) := by
  unfold keep keepV
  rw [List.map_append, List.map_take, ← List.map_drop, List.map_map, List.map_map]
  congr 2
  funext r
  exact plain_answer π r

theorem askV_key (t : Bytes) (c : Bool) : HomV (keepV π 1) (keepV π 0) id (askPassword t c) (askPassword t c) := by
  intro ps rnd ev
  cases ps with
  | nil => exact ⟨rfl, rfl, rfl, fun a h => by cases h⟩
  | cons p ps => cases p <;> exact ⟨rfl, rfl, rfl, fun _ _ => rfl⟩

theorem askE_key (c : Bool) : HomE (keep π 1) (keep π 0) id (userInputPasswordE c) (userInputPasswordE c) := by
  intro ps rnd ev
  cases ps with
  | nil => exact ⟨rfl, rfl, rfl, fun a h => by cases h⟩
  | cons p ps => cases p <;> exact ⟨rfl, rfl, rfl, fun _ _ => rfl⟩

theorem askV_phrase (t : Bytes) (c : Bool) : HomV (keepV π 0) (keepV π 0) π.perm (askPassword t c) (askPassword t c) := by
  intro ps rnd ev
  cases ps with
  | nil => exact ⟨rfl, rfl, rfl, fun a h => by cases h⟩
  | cons p ps => cases p <;> exact ⟨rfl, rfl, rfl, fun _ _ => rfl⟩

theorem askE_phrase (c : Bool) : HomE (keep π 0) (keep π 0) π.perm (userInputPasswordE c) (userInputPasswordE c) := by
  intro ps rnd ev
  cases ps with
  | nil => exact ⟨rfl, rfl, rfl, fun a h => by cases h⟩
  | cons p ps => cases p <;> exact ⟨rfl, rfl, rfl, fun _ _ => rfl⟩

end

/-! ## generate -/

section
variable (π : Aliases) {C : Crypto} (L : WordList) (env : Env)

theorem freeV_debug (F : Fmt) (m : Mnemonikey) : FreeV (printKeyDebugInfo F C m) := freeV_eprints _

/-- The phrase password and the phrase made with it -/
theorem phraseV_aliased (s : Seed) (offset : Nat) (t : Bytes) : HomV (keepV π 0) (keepV π 0) id
    (askPassword t true >>= fun p => silent (random (encodeMnemonicEncrypted L C.toPhraseCrypto s offset p)))
    (askPassword t true >>= fun p => silent (random (encodeMnemonicEncrypted L (aliased π C).toPhraseCrypto s offset p))) := by
  refine homV_bind (askV_phrase π t true) fun p => ?_
  rw [show encodeMnemonicEncrypted L (aliased π C).toPhraseCrypto s offset (π.perm p) =
    encodeMnemonicEncrypted L C.toPhraseCrypto s offset p from funext fun rnd => encrypt_aliased π L s offset p rnd]
  exact freeV_silent (free_random _) _

theorem phraseE_aliased (os : OsText) (s : Seed) (offset : Nat) : HomE (keep π 0) (keep π 0) id
    (userInputPasswordE true >>= fun p => randomE (encodeMnemonicEncryptedE os L C.toPhraseCrypto s offset p))
    (userInputPasswordE true >>= fun p => randomE (encodeMnemonicEncryptedE os L (aliased π C).toPhraseCrypto s offset p)) := by
  refine homE_bind (askE_phrase π true) fun p => ?_
  rw [show encodeMnemonicEncryptedE os L (aliased π C).toPhraseCrypto s offset (π.perm p) =
    encodeMnemonicEncryptedE os L C.toPhraseCrypto s offset p from funext fun rnd => by
      unfold encodeMnemonicEncryptedE; rw [encrypt_aliased π L s offset p rnd]]
  exact freeE_random _ _

/-- How many answers generate takes for its key -/
def keyQuestions (encryptKeys : Bool) : Nat := if encryptKeys then 1 else 0

theorem keyV_aliased (b : Bool) : HomV (keepV π (keyQuestions b)) (keepV π 0) id
    (if b then askPassword keyPasswordPrompt true else pure [] : ProgV Bytes)
    (if b then askPassword keyPasswordPrompt true else pure [] : ProgV Bytes) := by
  cases b
  · exact freeV_pure _ _
  · exact askV_key π _ _

theorem keyE_aliased (b : Bool) : HomE (keep π (keyQuestions b)) (keep π 0) id
    (if b then userInputPasswordE true else pure [] : ProgE Bytes)
    (if b then userInputPasswordE true else pure [] : ProgE Bytes) := by
  cases b
  · exact freeE_pure _ _
  · exact askE_key π _

theorem generateV_aliased (F : Fmt) (opts : GenerateOptions) (verbose : Bool) :
    HomV (keepV π (keyQuestions opts.key.encryptKeys)) (keepV π 0) id
      (generateAndPrintKeyV F L C env opts verbose) (generateAndPrintKeyV F L (aliased π C) env opts verbose) := by
  unfold generateAndPrintKeyV
  refine homV_bind (freeV_silent (free_lift _) _) fun ttl => homV_bind (freeV_silent (free_lift _) _) fun a => ?_
  have key : HomV (keepV π (keyQuestions opts.key.encryptKeys)) (keepV π 0) id
      (silent (seedOf env opts.unsafeEntropy) >>= fun seed => (do
        let mnk ← silent (lift (new C seed env.now (some
          { name := trimSpace opts.key.name, email := trimSpace opts.key.email, ttl := ttl
            encryptionSubkeyIndex := 0, authenticationSubkeyIndex := 0, signingSubkeyIndex := 0
            subkeys := a.2 })))
        let password ← (if opts.key.encryptKeys then askPassword keyPasswordPrompt true else pure [] : ProgV Bytes)
        let key ← silent (exportKey C mnk a.1 true password)
        let words ← (if opts.encryptPhrase then do
            let phrasePassword ← askPassword phrasePasswordPrompt true
            silent (random (mnk.encodeMnemonicEncrypted L C phrasePassword))
          else silent (lift (mnk.encodeMnemonicPlaintext L)) : ProgV (List Bytes))
        if opts.outputWordFile ≠ [] then silent (save env words opts.outputWordFile)
        if verbose then do
          eprint (str "Generated OpenPGP private key with " ++ formatInt entropyBitCount ++ str " bits of entropy:\n")
          printKeyDebugInfo F C mnk
          eprintln []
        printKeyV (env.armor key)
        if opts.outputWordFile = [] then printMnemonicV env words))
      (silent (seedOf env opts.unsafeEntropy) >>= fun seed => (do
        let mnk ← silent (lift (new (aliased π C) seed env.now (some
          { name := trimSpace opts.key.name, email := trimSpace opts.key.email, ttl := ttl
            encryptionSubkeyIndex := 0, authenticationSubkeyIndex := 0, signingSubkeyIndex := 0
            subkeys := a.2 })))
        let password ← (if opts.key.encryptKeys then askPassword keyPasswordPrompt true else pure [] : ProgV Bytes)
        let key ← silent (exportKey (aliased π C) mnk a.1 true password)
        let words ← (if opts.encryptPhrase then do
            let phrasePassword ← askPassword phrasePasswordPrompt true
            silent (random (mnk.encodeMnemonicEncrypted L (aliased π C) phrasePassword))
          else silent (lift (mnk.encodeMnemonicPlaintext L)) : ProgV (List Bytes))
        if opts.outputWordFile ≠ [] then silent (save env words opts.outputWordFile)
        if verbose then do
          eprint (str "Generated OpenPGP private key with " ++ formatInt entropyBitCount ++ str " bits of entropy:\n")
          printKeyDebugInfo F (aliased π C) mnk
          eprintln []
        printKeyV (env.armor key)
        if opts.outputWordFile = [] then printMnemonicV env words)) := by
    rw [new_aliased, export_aliased, debug_aliased]
    refine homV_bind (freeV_silent (free_seedOf _ _) _) fun seed => homV_bind (freeV_silent (free_lift _) _) fun m =>
      homV_bind (keyV_aliased π _) fun p => homV_bind (freeV_silent (free_export _ _ _ _ _) _) fun key =>
        homV_bind (ψ := keepV π 0) (k := id) ?_ fun words => ?_
    · cases opts.encryptPhrase
      · exact freeV_silent (free_lift _) _
      · exact phraseV_aliased π L m.seed m.creationOffset _
    · have tail : FreeV (do
          printKeyV (env.armor key)
          if opts.outputWordFile = [] then printMnemonicV env words : ProgV Unit) := by
        refine freeV_bind (freeV_key _) fun _ => ?_
        split
        · exact freeV_words _ _
        · exact freeV_pure _
      have tail2 : FreeV (do
          if verbose then do
            eprint (str "Generated OpenPGP private key with " ++ formatInt entropyBitCount ++ str " bits of entropy:\n")
            printKeyDebugInfo F C m
            eprintln []
          printKeyV (env.armor key)
          if opts.outputWordFile = [] then printMnemonicV env words : ProgV Unit) := by
        cases verbose
        · exact tail
        · exact freeV_bind (freeV_event _) fun _ => freeV_bind (freeV_debug _ _) fun _ => freeV_bind (freeV_event _) fun _ => tail
      by_cases ho : opts.outputWordFile = []
      · simp only [ho, ne_eq, not_true_eq_false, if_false] at tail2 ⊢
        exact tail2 _
      · simp only [ho, ne_eq, not_false_eq_true, if_true] at tail2 ⊢
        exact freeV_bind (freeV_silent (free_save _ _ _)) (fun _ => tail2) _
  by_cases hu : opts.unsafeEntropy = []
  · simp only [hu, ne_eq, not_true_eq_false, if_false] at key ⊢
    exact key
  · simp only [hu, ne_eq, not_false_eq_true, if_true] at key ⊢
    exact homV_bind (freeV_event _ _) fun _ => key

theorem generateE_aliased (F : Fmt) (os : OsText) (opts : GenerateOptions) :
    HomE (keep π (keyQuestions opts.key.encryptKeys)) (keep π 0) id
      (generateAndPrintKeyE F os L C env opts) (generateAndPrintKeyE F os L (aliased π C) env opts) := by
  unfold generateAndPrintKeyE
  refine homE_bind (freeE_liftE _ _) fun ttl => homE_bind (freeE_liftE _ _) fun a => ?_
  rw [newE_aliased]
  refine homE_bind (freeE_seedOf _ _ _ _) fun seed => homE_bind (freeE_liftE _ _) fun m =>
    homE_bind (keyE_aliased π _) fun p => homE_bind (freeE_export _ _ _ _ _ _ _) fun key =>
      homE_bind (ψ := keep π 0) (k := id) ?_ fun words => ?_
  · cases opts.encryptPhrase
    · exact freeE_liftE _ _
    · exact phraseE_aliased π L os m.seed m.creationOffset
  · have tail : FreeE (do
        noErrorE (printKey (env.armor key))
        if opts.outputWordFile = [] then noErrorE (printMnemonic env words) : ProgE Unit) := by
      refine freeE_bind (freeE_noError _) fun _ => ?_
      split
      · exact freeE_noError _
      · exact freeE_pure _
    by_cases ho : opts.outputWordFile = []
    · simp only [ho, ne_eq, not_true_eq_false, if_false] at tail ⊢
      exact tail _
    · simp only [ho, ne_eq, not_false_eq_true, if_true] at tail ⊢
      exact freeE_bind (freeE_save _ _ _ _) (fun _ => tail) _

end

/-! ## phrases given to recover and convert -/

theorem decryptions_append (a b : List Ev) : decryptions (a ++ b) = decryptions a + decryptions b := List.countP_append

theorem decryptions_err (t : List Bytes) : decryptions (t.map .err) = 0 := by
  unfold decryptions
  rw [List.countP_eq_zero]
  intro e h
  obtain ⟨x, -, rfl⟩ := List.mem_map.1 h
  simp

theorem decryptions_act (t : List Act) : decryptions (t.map .act) = 0 := by
  unfold decryptions
  rw [List.countP_eq_zero]
  intro e h
  obtain ⟨x, -, rfl⟩ := List.mem_map.1 h
  simp

/-- What is read before a password is asked for -/
theorem input_front (L : WordList) (env : Env) (input : InputFlags) (verbose : Bool) (os : OsText) :
    ∃ new, decryptions new = 0 ∧
    ((∃ dm, (∀ C st, decodeMnemonicFromInputV L C env input verbose st =
          (askSeedV C dm >>= fun s => pure (s, dm) : ProgV _) { st with events := st.events ++ new }) ∧
        ∀ C st, decodeMnemonicFromInputE os L C env input st = (askSeedE C dm >>= fun s => pure (s, dm) : ProgE _) st) ∨
      ∃ o oE, (∀ a, o ≠ .ok a) ∧ (∀ a, oE ≠ .ok a) ∧
        (∀ C st, decodeMnemonicFromInputV L C env input verbose st = (o, { st with events := st.events ++ new })) ∧
        ∀ C st, decodeMnemonicFromInputE os L C env input st = (oE, st)) := by
  obtain ⟨pre, hp, hpre⟩ : ∃ pre, decryptions pre = 0 ∧ ∀ {α : Type} (x : ProgV α) st,
      (if input.inputWordFile = [] then askWordsV env input >>= fun _ => x else x) st =
        x { st with events := st.events ++ pre } := by
    by_cases hi : input.inputWordFile = []
    · refine ⟨(rawWarnings env input).map .err ++ [.words (byLine env input)], ?_, fun x st => ?_⟩
      · rw [decryptions_append, decryptions_err]
        rfl
      · rw [if_pos hi]
        show x { st with events := st.events ++ (rawWarnings env input).map .err ++ [.words (byLine env input)] } = _
        rw [List.append_assoc]
    · refine ⟨[], rfl, fun x st => ?_⟩
      rw [if_neg hi, List.append_nil]
  have hV : ∀ C, decodeMnemonicFromInputV L C env input verbose =
      if input.inputWordFile = [] then askWordsV env input >>= fun _ =>
        (silent (lift (inputWords L env input)) >>= fun words => silent (lift (decodeMnemonic L words)) >>= fun dm =>
          if verbose then do
            eprintln (str "Decoded mnemonic recovery phrase:")
            printDebugInfo (phraseDebugInfo dm)
            eprintln []
            let seed ← askSeedV C dm
            pure (seed, dm)
          else do
            let seed ← askSeedV C dm
            pure (seed, dm))
      else (silent (lift (inputWords L env input)) >>= fun words => silent (lift (decodeMnemonic L words)) >>= fun dm =>
          if verbose then do
            eprintln (str "Decoded mnemonic recovery phrase:")
            printDebugInfo (phraseDebugInfo dm)
            eprintln []
            let seed ← askSeedV C dm
            pure (seed, dm)
          else do
            let seed ← askSeedV C dm
            pure (seed, dm)) := by
    intro C
    unfold decodeMnemonicFromInputV
    by_cases hi : input.inputWordFile = []
    · rw [if_pos hi]
    · rw [if_neg hi]
  have h1 := plain_inputWords os L env input
  cases hw : inputWordsE os L env input with
  | err e =>
    rw [hw] at h1
    refine ⟨pre, hp, .inr ⟨.err e.kind, .err e, (fun a h => by cases h), (fun a h => by cases h), fun C st => ?_, fun C st => ?_⟩⟩
    · rw [hV, hpre, ← h1]
      show (_, { st with events := st.events ++ pre ++ [] }) = _
      rw [List.append_nil]
    · unfold decodeMnemonicFromInputE
      rw [hw]
      rfl
  | panic e =>
    rw [hw] at h1
    refine ⟨pre, hp, .inr ⟨.panic e, .panic e, (fun a h => by cases h), (fun a h => by cases h), fun C st => ?_, fun C st => ?_⟩⟩
    · rw [hV, hpre, ← h1]
      show (_, { st with events := st.events ++ pre ++ [] }) = _
      rw [List.append_nil]
    · unfold decodeMnemonicFromInputE
      rw [hw]
      rfl
  | ok words =>
    rw [hw] at h1
    have h1 : inputWords L env input = .ok words := h1.symm
    cases hd : decodeMnemonic L words with
    | err e =>
      have hdE : ∃ t, decodeMnemonicE L words = .err ⟨e, t⟩ := by
        unfold decodeMnemonicE explain; rw [hd]; exact ⟨_, rfl⟩
      obtain ⟨t, hdE⟩ := hdE
      refine ⟨pre, hp, .inr ⟨.err e, .err ⟨e, t⟩, (fun a h => by cases h), (fun a h => by cases h), fun C st => ?_, fun C st => ?_⟩⟩
      · rw [hV, hpre, h1]
        show (silent (lift (decodeMnemonic L words)) >>= _ : ProgV _) { st with events := st.events ++ pre ++ [] } = _
        rw [hd, List.append_nil]
        show (_, { st with events := st.events ++ pre ++ [] }) = _
        rw [List.append_nil]
      · unfold decodeMnemonicFromInputE
        rw [hw]
        show (liftE (decodeMnemonicE L words) >>= _ : ProgE _) st = _
        rw [hdE]
        rfl
    | panic e =>
      have hdE : decodeMnemonicE L words = .panic e := by
        unfold decodeMnemonicE explain; rw [hd]
      refine ⟨pre, hp, .inr ⟨.panic e, .panic e, (fun a h => by cases h), (fun a h => by cases h), fun C st => ?_, fun C st => ?_⟩⟩
      · rw [hV, hpre, h1]
        show (silent (lift (decodeMnemonic L words)) >>= _ : ProgV _) { st with events := st.events ++ pre ++ [] } = _
        rw [hd, List.append_nil]
        show (_, { st with events := st.events ++ pre ++ [] }) = _
        rw [List.append_nil]
      · unfold decodeMnemonicFromInputE
        rw [hw]
        show (liftE (decodeMnemonicE L words) >>= _ : ProgE _) st = _
        rw [hdE]
        rfl
    | ok dm =>
      have hdE : decodeMnemonicE L words = .ok dm := by
        unfold decodeMnemonicE explain; rw [hd]
      have hE : ∀ C st, decodeMnemonicFromInputE os L C env input st =
          (askSeedE C dm >>= fun s => pure (s, dm) : ProgE _) st := by
        intro C st
        unfold decodeMnemonicFromInputE
        rw [hw]
        show (liftE (decodeMnemonicE L words) >>= _ : ProgE _) st = _
        rw [hdE]
        rfl
      cases verbose with
      | false =>
        refine ⟨pre, hp, .inl ⟨dm, fun C st => ?_, hE⟩⟩
        rw [hV, hpre, h1]
        show (silent (lift (decodeMnemonic L words)) >>= _ : ProgV _) { st with events := st.events ++ pre ++ [] } = _
        rw [hd, List.append_nil]
        show (askSeedV C dm >>= _ : ProgV _) { st with events := st.events ++ pre ++ [] } = _
        rw [List.append_nil]
      | true =>
        refine ⟨pre ++ (.err (str "Decoded mnemonic recovery phrase:" ++ str "\n") ::
          ((phraseDebugInfo dm).map (debugRow (maxKeyLen (phraseDebugInfo dm)))).map .err ++ [.err ([] ++ str "\n")]), ?_,
          .inl ⟨dm, fun C st => ?_, hE⟩⟩
        · rw [decryptions_append, hp, show ∀ (a b : Bytes) (t : List Bytes), (Ev.err a :: t.map Ev.err ++ [Ev.err b]) =
            (a :: t ++ [b]).map Ev.err from fun a b t => by simp, decryptions_err]
        · rw [hV, hpre, h1]
          show (silent (lift (decodeMnemonic L words)) >>= _ : ProgV _) { st with events := st.events ++ pre ++ [] } = _
          rw [hd, List.append_nil]
          show (askSeedV C dm >>= _ : ProgV _) { st with events := st.events ++ pre ++ [] ++ [.err _] ++ _ ++ [.err _] } = _
          simp only [List.append_assoc, List.append_nil, List.nil_append, List.cons_append]

theorem input_aliased (π : Aliases) {C : Crypto} (L : WordList) (env : Env) (input : InputFlags) (verbose : Bool) (os : OsText)
    (ps : List (ResE Bytes)) : ∃ used rest new oV oE, ps = used ++ rest ∧
      used.length ≤ decryptions new ∧ (rest ≠ [] → decryptions new = used.length) ∧
      (∀ rnd ev, decodeMnemonicFromInputV L C env input verbose ⟨ps.map ResE.plain, rnd, ev⟩ =
        (oV, ⟨rest.map ResE.plain, rnd, ev ++ new⟩)) ∧
      (∀ rnd acts, decodeMnemonicFromInputE os L C env input ⟨ps, rnd, acts⟩ = (oE, ⟨rest, rnd, acts⟩)) ∧
      ∀ rest', (rest = [] → rest' = []) →
        (∀ rnd ev, decodeMnemonicFromInputV L (aliased π C) env input verbose
            ⟨(used.map π.answer ++ rest').map ResE.plain, rnd, ev⟩ = (oV, ⟨rest'.map ResE.plain, rnd, ev ++ new⟩)) ∧
        ∀ rnd acts, decodeMnemonicFromInputE os L (aliased π C) env input ⟨used.map π.answer ++ rest', rnd, acts⟩ =
          (oE, ⟨rest', rnd, acts⟩) := by
  obtain ⟨new, hn, h⟩ := input_front L env input verbose os
  obtain ⟨dm, hV, hE⟩ | ⟨o, oE, -, -, hV, hE⟩ := h
  · cases he : dm.encrypted with
    | true =>
      obtain ⟨used, rest, h1, h2, h3, h4, h5, h6⟩ := loop_aliased π (C := C) dm ps
      have eV : ∀ (C' : Crypto) (qs : List (ResE Bytes)) rnd ev, (askSeedV C' dm >>= fun s => pure (s, dm) : ProgV _)
          ⟨qs.map ResE.plain, rnd, ev⟩ = (mapOut (fun s => (s, dm)) (passwordLoopV C' dm (qs.map ResE.plain)).1,
            ⟨(passwordLoopV C' dm (qs.map ResE.plain)).2.1, rnd, ev ++ (passwordLoopV C' dm (qs.map ResE.plain)).2.2⟩) := by
        intro C' qs rnd ev
        show ProgV.bind _ _ _ = _
        unfold ProgV.bind askSeedV
        simp only [he, if_true]
        cases (passwordLoopV C' dm (qs.map ResE.plain)).1 <;> rfl
      have eE : ∀ (C' : Crypto) (qs : List (ResE Bytes)) rnd acts, (askSeedE C' dm >>= fun s => pure (s, dm) : ProgE _)
          ⟨qs, rnd, acts⟩ = (mapOutE (fun s => (s, dm)) (passwordLoopE C' dm qs).1, ⟨(passwordLoopE C' dm qs).2, rnd, acts⟩) := by
        intro C' qs rnd acts
        show ProgE.bind _ _ _ = _
        unfold ProgE.bind askSeedE
        simp only [he, if_true]
        cases (passwordLoopE C' dm qs).1 <;> rfl
      refine ⟨used, rest, new ++ (passwordLoopV C dm (ps.map ResE.plain)).2.2,
        mapOut (fun s => (s, dm)) (passwordLoopV C dm (ps.map ResE.plain)).1,
        mapOutE (fun s => (s, dm)) (passwordLoopE C dm ps).1, h1, ?_, ?_, fun rnd ev => ?_,
        fun rnd acts => ?_, fun rest' hr => ⟨fun rnd ev => ?_, fun rnd acts => ?_⟩⟩
      · rw [decryptions_append, hn, Nat.zero_add]; exact h4
      · rw [decryptions_append, hn, Nat.zero_add]; exact h5
      · rw [hV]
        show (askSeedV C dm >>= _ : ProgV _) ⟨ps.map ResE.plain, rnd, ev ++ new⟩ = _
        rw [eV, h2, List.append_assoc]
      · rw [hE, eE, h3]
      · rw [hV]
        show (askSeedV _ dm >>= _ : ProgV _) ⟨(used.map π.answer ++ rest').map ResE.plain, rnd, ev ++ new⟩ = _
        rw [eV, (h6 rest' hr).1, List.append_assoc]
      · rw [hE, eE, (h6 rest' hr).2]
    | false =>
      have hs : ∀ (C' : Crypto) p, dm.decryptSeed C'.toPhraseCrypto p = dm.seed := by
        intro C' p
        unfold DecodedMnemonic.decryptSeed
        rw [he]
        rfl
      have hq : ∃ o, ∀ (C' : Crypto) qs, seedLoop C' dm qs = (o, qs) := by
        unfold seedLoop
        simp only [he, hs]
        cases dm.seed with
        | ok s => exact ⟨.ok s, fun _ _ => rfl⟩
        | err e => cases e <;> exact ⟨_, fun _ _ => rfl⟩
        | panic e => exact ⟨.panic e, fun _ _ => rfl⟩
      obtain ⟨o, hq⟩ := hq
      have eV : ∀ (C' : Crypto) qs rnd ev, (askSeedV C' dm >>= fun s => pure (s, dm) : ProgV _) ⟨qs, rnd, ev⟩ =
          (mapOut (fun s => (s, dm)) o, ⟨qs, rnd, ev⟩) := by
        intro C' qs rnd ev
        show ProgV.bind _ _ _ = _
        unfold ProgV.bind askSeedV silent askSeed
        simp only [he, hq, Bool.false_eq_true, if_false]
        cases o <;> simp [mapOut, pure]
      have eE : ∃ oE, ∀ (C' : Crypto) qs rnd acts, (askSeedE C' dm >>= fun s => pure (s, dm) : ProgE _) ⟨qs, rnd, acts⟩ =
          (oE, ⟨qs, rnd, acts⟩) := by
        have h : ∀ (C' : Crypto) qs rnd acts, (askSeedE C' dm >>= fun s => pure (s, dm) : ProgE _) ⟨qs, rnd, acts⟩ =
            ((noErrorE (fun st => (o, st)) >>= fun s => pure (s, dm) : ProgE _) ⟨qs, rnd, acts⟩) := by
          intro C' qs rnd acts
          show ProgE.bind _ _ _ = ProgE.bind _ _ _
          unfold ProgE.bind askSeedE noErrorE askSeed
          simp only [he, hq, Bool.false_eq_true, if_false]
        cases o with
        | ok s => exact ⟨_, h⟩
        | err e => exact ⟨_, h⟩
        | panic e => exact ⟨_, h⟩
        | waits c => exact ⟨_, h⟩
        | loops => exact ⟨_, h⟩
      obtain ⟨oE, eE⟩ := eE
      refine ⟨[], ps, new, mapOut (fun s => (s, dm)) o, oE, rfl, Nat.zero_le _, fun _ => hn, fun rnd ev => ?_, fun rnd acts => ?_,
        fun rest' _ => ⟨fun rnd ev => ?_, fun rnd acts => ?_⟩⟩
      · rw [hV]
        exact eV _ _ _ _
      · rw [hE, eE]
      · rw [hV]
        exact eV _ _ _ _
      · rw [hE]
        exact eE _ _ _ _
  · exact ⟨[], ps, new, o, oE, rfl, Nat.zero_le _, fun _ => hn, fun rnd ev => hV _ _, fun rnd acts => hE _ _,
      fun rest' _ => ⟨fun rnd ev => hV _ _, fun rnd acts => hE _ _⟩⟩

theorem exists_plain (qs : List (Res Bytes)) : ∃ ps : List (ResE Bytes), qs = ps.map ResE.plain := by
  refine ⟨qs.map fun | .ok a => .ok a | .err e => .err ⟨e, []⟩ | .panic p => .panic p, ?_⟩
  rw [List.map_map]
  conv => lhs; rw [← List.map_id qs]
  refine List.map_congr_left fun r _ => ?_
  cases r <;> rfl

section
variable (π : Aliases) {C : Crypto} (L : WordList) (env : Env)

theorem inputV_aliased (os : OsText) (input : InputFlags) (verbose : Bool) : HomV (keepV π 0) (keepV π 0) id
    (decodeMnemonicFromInputV L C env input verbose) (decodeMnemonicFromInputV L (aliased π C) env input verbose) := by
  intro qs rnd ev
  obtain ⟨ps, rfl⟩ := exists_plain qs
  obtain ⟨used, rest, new, oV, oE, h1, -, -, hV, -, h⟩ := input_aliased π (C := C) L env input verbose os ps
  obtain ⟨hV', -⟩ := h (rest.map π.answer) (by rintro rfl; rfl)
  rw [← keep_plain, show keep π 0 ps = used.map π.answer ++ rest.map π.answer by rw [h1]; simp [keep], hV, hV']
  refine ⟨(mapOut_id _).symm, rfl, rfl, fun _ _ => ?_⟩
  show (rest.map π.answer).map ResE.plain = keepV π 0 (rest.map ResE.plain)
  rw [← keep_plain]
  rfl

theorem inputE_aliased (os : OsText) (input : InputFlags) : HomE (keep π 0) (keep π 0) id
    (decodeMnemonicFromInputE os L C env input) (decodeMnemonicFromInputE os L (aliased π C) env input) := by
  intro ps rnd acts
  obtain ⟨used, rest, new, oV, oE, h1, -, -, -, hE, h⟩ := input_aliased π (C := C) L env input false os ps
  obtain ⟨-, hE'⟩ := h (rest.map π.answer) (by rintro rfl; rfl)
  rw [show keep π 0 ps = used.map π.answer ++ rest.map π.answer by rw [h1]; simp [keep], hE, hE']
  exact ⟨(mapOutE_id _).symm, rfl, rfl, fun _ _ => rfl⟩

theorem convertV_aliased (os : OsText) (opts : ConvertOptions) (verbose : Bool) : HomV (keepV π 0) (keepV π 0) id
    (decodeAndConvertPhraseV L C env opts verbose) (decodeAndConvertPhraseV L (aliased π C) env opts verbose) := by
  unfold decodeAndConvertPhraseV
  refine homV_bind (inputV_aliased π L env os _ _) fun r => homV_bind (ψ := keepV π 0) (k := id) ?_ fun words => ?_
  · cases opts.encryptPhrase
    · exact freeV_silent (free_lift _) _
    · exact phraseV_aliased π L r.1 _ _
  · split
    · exact freeV_words _ _ _
    · exact freeV_silent (free_save _ _ _) _

theorem convertE_aliased (os : OsText) (opts : ConvertOptions) : HomE (keep π 0) (keep π 0) id
    (decodeAndConvertPhraseE os L C env opts) (decodeAndConvertPhraseE os L (aliased π C) env opts) := by
  unfold decodeAndConvertPhraseE
  refine homE_bind (inputE_aliased π L env os _) fun r => homE_bind (ψ := keep π 0) (k := id) ?_ fun words => ?_
  · cases opts.encryptPhrase
    · exact freeE_liftE _ _
    · exact phraseE_aliased π L os r.1 _
  · split
    · exact freeE_noError _ _
    · exact freeE_save _ _ _ _ _

end

/-! ## recover -/

/-- The program asks for no phrase's password. -/
def AsksNone {α : Type} (x : ProgV α) : Prop := ∀ st, ∃ new, (x st).2.events = st.events ++ new ∧ decryptions new = 0

section
variable {α β : Type}

theorem asksNone_bind {x : ProgV α} {f : α → ProgV β} (hx : AsksNone x) (hf : ∀ a, AsksNone (f a)) : AsksNone (x >>= f) := by
  intro st
  show ∃ new, (ProgV.bind x f st).2.events = _ ∧ _
  unfold ProgV.bind
  obtain ⟨new, h1, h2⟩ := hx st
  revert h1
  generalize x st = r
  obtain ⟨o, st1⟩ := r
  intro h1
  simp only at h1
  cases o with
  | ok a =>
    obtain ⟨new', h3, h4⟩ := hf a st1
    exact ⟨new ++ new', by rw [← List.append_assoc, ← h1, ← h3], by rw [decryptions_append, h2, h4]⟩
  | _ => exact ⟨new, h1, h2⟩

theorem asksNone_silent (x : Prog α) : AsksNone (silent x) := fun _ => ⟨_, rfl, decryptions_act _⟩

theorem asksNone_err (t : Bytes) : AsksNone (event (.err t)) := fun _ => ⟨[.err t], rfl, rfl⟩

theorem asksNone_eprints (t : List Bytes) : AsksNone (eprints t) := fun _ => ⟨t.map .err, rfl, decryptions_err t⟩

theorem asksNone_key : AsksNone (askPassword keyPasswordPrompt true) :=
  asksNone_bind (fun _ => ⟨[.password keyPasswordPrompt true], rfl, by decide +kernel⟩) fun _ => asksNone_silent _

end

section
variable (π : Aliases) {C : Crypto} (L : WordList) (env : Env)

/-- What recover does when it has the seed -/
def restV (F : Fmt) (C : Crypto) (opts : RecoverOptions) (verbose : Bool) (master : Bool) (o : KeyOptions)
    (r : Seed × DecodedMnemonic) : ProgV Unit := do
  let mnk ← silent (lift (new C r.1 r.2.creation (some o)))
  let password ← (if opts.key.encryptKeys then askPassword keyPasswordPrompt true else pure [] : ProgV Bytes)
  let key ← silent (exportKey C mnk master opts.selfCert password)
  if verbose then do
    eprintln (str "Re-derived OpenPGP key:")
    printKeyDebugInfo F C mnk
    eprintln []
  printKeyV (env.armor key)

theorem asksNone_rest (F : Fmt) (opts : RecoverOptions) (verbose : Bool) (master : Bool) (o : KeyOptions)
    (r : Seed × DecodedMnemonic) : AsksNone (restV env F C opts verbose master o r) := by
  unfold restV
  refine asksNone_bind (asksNone_silent _) fun m => asksNone_bind ?_ fun p => asksNone_bind (asksNone_silent _) fun key => ?_
  · split
    · exact asksNone_key
    · exact fun st => ⟨[], (List.append_nil _).symm, rfl⟩
  · have tail : AsksNone (printKeyV (env.armor key)) :=
      asksNone_bind (asksNone_err _) fun _ => asksNone_bind (asksNone_silent _) fun _ => asksNone_err _
    cases verbose
    · exact tail
    · exact asksNone_bind (asksNone_err _) fun _ => asksNone_bind (asksNone_eprints _) fun _ => asksNone_bind (asksNone_err _) fun _ => tail

/-- The answers to the questions for a phrase's password -/
def swapped (k : Nat) (ps : List (ResE Bytes)) : List (ResE Bytes) := (ps.take k).map π.answer ++ ps.drop k

def restE (os : OsText) (C : Crypto) (opts : RecoverOptions) (master : Bool) (o : KeyOptions)
    (r : Seed × DecodedMnemonic) : ProgE Unit := do
  let mnk ← liftE ((newE C r.1 r.2.creation (some o)).wrap (str "failed to re-derive PGP keys"))
  let password ← (if opts.key.encryptKeys then userInputPasswordE true else pure [] : ProgE Bytes)
  let key ← exportKeyE os C mnk master opts.selfCert password
  noErrorE (printKey (env.armor key))

theorem lifted {α β : Type} (r : Res α) (f : α → ProgV β) (st : StV) : (silent (lift r) >>= f) st =
    match r with
    | .ok a => f a st
    | .err e => (.err e, st)
    | .panic p => (.panic p, st) := by
  obtain ⟨ps, rnd, ev⟩ := st
  cases r with
  | ok a => show f a ⟨ps, rnd, ev ++ []⟩ = _; rw [List.append_nil]
  | err e => show (_, (⟨ps, rnd, ev ++ []⟩ : StV)) = _; rw [List.append_nil]
  | panic e => show (_, (⟨ps, rnd, ev ++ []⟩ : StV)) = _; rw [List.append_nil]

theorem liftedE {α β : Type} (r : ResE α) (f : α → ProgE β) (st : StE) : (liftE r >>= f) st =
    match r with
    | .ok a => f a st
    | .err e => (.err e, st)
    | .panic p => (.panic p, st) := by cases r <;> rfl

/-- What recover does before it reads a phrase -/
theorem recover_front (F : Fmt) (os : OsText) (opts : RecoverOptions) (verbose : Bool) :
    (∃ o oE, (∀ C st, recoverAndPrintKeyV F L C env opts verbose st = (o, st)) ∧
      ∀ C st, recoverAndPrintKeyE F os L C env opts st = (oE, st)) ∨
    ∃ master o, (∀ C st, recoverAndPrintKeyV F L C env opts verbose st =
        (decodeMnemonicFromInputV L C env opts.input verbose >>= restV env F C opts verbose master o) st) ∧
      ∀ C st, recoverAndPrintKeyE F os L C env opts st =
        (decodeMnemonicFromInputE os L C env opts.input >>= restE env os C opts master o) st := by
  have h1 : (ttlOfE F opts.key.ttl).plain = ttlOf opts.key.ttl := by simp [ttlOfE]
  have h2 := plain_only F opts.key.only
  cases ht : ttlOfE F opts.key.ttl with
  | err e =>
    rw [ht] at h1
    refine .inl ⟨.err e.kind, .err e, fun C st => ?_, fun C st => ?_⟩
    · unfold recoverAndPrintKeyV; rw [lifted, ← h1]; rfl
    · unfold recoverAndPrintKeyE; rw [liftedE, ht]
  | panic e =>
    rw [ht] at h1
    refine .inl ⟨.panic e, .panic e, fun C st => ?_, fun C st => ?_⟩
    · unfold recoverAndPrintKeyV; rw [lifted, ← h1]; rfl
    · unfold recoverAndPrintKeyE; rw [liftedE, ht]
  | ok ttl =>
    rw [ht] at h1
    have h1 : ttlOf opts.key.ttl = .ok ttl := h1.symm
    by_cases hi : opts.encIndex > maxSubkeyIndex ∨ opts.authIndex > maxSubkeyIndex ∨ opts.sigIndex > maxSubkeyIndex
    · refine .inl ⟨.err .badSubkeyIndex, .err ⟨.badSubkeyIndex, indexText⟩, fun C st => ?_, fun C st => ?_⟩
      · unfold recoverAndPrintKeyV
        rw [lifted, h1]
        dsimp only
        rw [if_pos hi]
        show (_, { st with events := st.events ++ [] }) = _
        rw [List.append_nil]
        rfl
      · unfold recoverAndPrintKeyE
        rw [liftedE, ht]
        dsimp only
        rw [if_pos hi]
        rfl
    · cases hd : decodeOnlyKeyTypesE F opts.key.only with
      | err e =>
        rw [hd] at h2
        refine .inl ⟨.err e.kind, .err e, fun C st => ?_, fun C st => ?_⟩
        · unfold recoverAndPrintKeyV; rw [lifted, h1]; dsimp only; rw [if_neg hi, lifted, ← h2]; rfl
        · unfold recoverAndPrintKeyE; rw [liftedE, ht]; dsimp only; rw [if_neg hi, liftedE, hd]
      | panic e =>
        rw [hd] at h2
        refine .inl ⟨.panic e, .panic e, fun C st => ?_, fun C st => ?_⟩
        · unfold recoverAndPrintKeyV; rw [lifted, h1]; dsimp only; rw [if_neg hi, lifted, ← h2]; rfl
        · unfold recoverAndPrintKeyE; rw [liftedE, ht]; dsimp only; rw [if_neg hi, liftedE, hd]
      | ok ms =>
        rw [hd] at h2
        have h2 : decodeOnlyKeyTypes opts.key.only = .ok ms := h2.symm
        refine .inr ⟨ms.1,
          { name := trimSpace opts.key.name, email := trimSpace opts.key.email, ttl := ttl
            encryptionSubkeyIndex := UInt16.ofNat opts.encIndex
            authenticationSubkeyIndex := UInt16.ofNat opts.authIndex
            signingSubkeyIndex := UInt16.ofNat opts.sigIndex
            subkeys := ms.2 }, fun C st => ?_, fun C st => ?_⟩
        · unfold recoverAndPrintKeyV; rw [lifted, h1]; dsimp only; rw [if_neg hi, lifted, h2]; rfl
        · unfold recoverAndPrintKeyE; rw [liftedE, ht]; dsimp only; rw [if_neg hi, liftedE, hd]; rfl

theorem recover_aliased (F : Fmt) (os : OsText) (opts : RecoverOptions) (verbose : Bool) (ps : List (ResE Bytes)) (rnd : Bytes)
    (k : Nat) (hk : k = decryptions (recoverAndPrintKeyV F L C env opts verbose ⟨ps.map ResE.plain, rnd, []⟩).2.events) :
    (recoverAndPrintKeyV F L (aliased π C) env opts verbose ⟨(swapped π k ps).map ResE.plain, rnd, []⟩).2.events =
      (recoverAndPrintKeyV F L C env opts verbose ⟨ps.map ResE.plain, rnd, []⟩).2.events ∧
    (recoverAndPrintKeyE F os L (aliased π C) env opts ⟨swapped π k ps, rnd, []⟩).1 =
      (recoverAndPrintKeyE F os L C env opts ⟨ps, rnd, []⟩).1 := by
  obtain ⟨o, oE, f1, f2⟩ | ⟨master, o, f1, f2⟩ := recover_front L env F os opts verbose
  · rw [f1, f1, f2, f2]
    exact ⟨rfl, rfl⟩
  · obtain ⟨used, rest, new, oV, oE, e1, e2, e3, hV, hE, h⟩ := input_aliased π (C := C) L env opts.input verbose os ps
    obtain ⟨hV', hE'⟩ := h rest id
    have hs : swapped π k ps = used.map π.answer ++ rest := by
      have hk2 : k = decryptions new := by
        rw [hk, f1]
        show decryptions (ProgV.bind _ _ _).2.events = _
        unfold ProgV.bind
        rw [hV]
        cases oV with
        | ok r =>
          obtain ⟨new', q1, q2⟩ := asksNone_rest (C := C) env F opts verbose master o r ⟨rest.map ResE.plain, rnd, [] ++ new⟩
          show decryptions (restV env F C opts verbose master o r ⟨rest.map ResE.plain, rnd, [] ++ new⟩).2.events = _
          rw [q1, decryptions_append, q2]
          rfl
        | _ => rfl
      unfold swapped
      rw [hk2, e1]
      by_cases hr : rest = []
      · subst hr
        rw [List.append_nil, List.take_of_length_le e2, List.drop_of_length_le e2]
      · rw [e3 hr, List.take_left, List.drop_left]
    rw [hs, f1, f1, f2, f2]
    constructor
    · show (ProgV.bind _ _ _).2.events = (ProgV.bind _ _ _).2.events
      unfold ProgV.bind
      rw [hV, hV']
      cases oV with
      | ok r => rfl
      | _ => rfl
    · show (ProgE.bind _ _ _).1 = (ProgE.bind _ _ _).1
      unfold ProgE.bind
      rw [hE, hE']
      cases oE with
      | ok r => rfl
      | _ => rfl

end

end Verif.Proofs
