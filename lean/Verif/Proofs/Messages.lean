import Verif.Proofs.Errors

/-!
# Texts of errors: what they can be
-/

namespace Verif.Proofs

open Verif.Model Verif.Model.Pgp Verif.Model.Cli Verif.Spec

/-! ## Which errors the parts without texts could return -/

/-- Errors that no command returns -/
def never : List Err := [.invalidEra, .entropyTooLarge, .mnemonicDecryption, .invalidIndex, .payloadTooLarge,
  .payloadBitLen, .extraBits, .emptyPassword, .cipherKeySize, .seedLength]

def Kinds {α : Type} (S : Err → Prop) : Res α → Prop
  | .err e => S e
  | _ => True

theorem kinds_bind {α β : Type} {S : Err → Prop} {x : Res α} {f : α → Res β} (h : Kinds S x)
    (hf : ∀ a, Kinds S (f a)) : Kinds S (x >>= f) := by
  cases x with
  | ok a => exact hf a
  | err e => exact h
  | panic p => trivial

theorem kinds_mono {α : Type} {S T : Err → Prop} {x : Res α} (h : Kinds S x) (hST : ∀ e, S e → T e) :
    Kinds T x := by
  cases x with
  | err e => exact hST _ h
  | _ => trivial

theorem kinds_fill {S : Err → Prop} (x : Int) (n : Nat) : Kinds S (fillBytes x n) := by
  unfold fillBytes; split <;> trivial

theorem kinds_new {S : Err → Prop} (x : Int) (n : Nat) : Kinds S (BitBuffer.new x n) := by
  unfold BitBuffer.new; split <;> trivial

theorem kinds_append {S : Err → Prop} (b : BitBuffer) (x : Int) (n : Nat) :
    Kinds S (b.appendTrailingBits x n) := by
  unfold BitBuffer.appendTrailingBits; split <;> trivial

theorem kinds_popL {S : Err → Prop} (b : BitBuffer) (n : Nat) : Kinds S (b.popLeadingBits n) := by
  unfold BitBuffer.popLeadingBits; split <;> trivial

theorem kinds_popT {S : Err → Prop} (b : BitBuffer) (n : Nat) : Kinds S (b.popTrailingBits n) := by
  unfold BitBuffer.popTrailingBits; split <;> trivial

theorem kinds_verify {S : Err → Prop} (k : Bytes) : Kinds S (verifyBits k) := by
  unfold verifyBits; split <;> trivial

theorem kinds_randLoop {S : Err → Prop} (h : S .randomRead) (m k b : Nat) : ∀ (f : Nat) (rnd : Bytes),
    Kinds S (randIntLoop m k b f rnd)
  | 0, _ => h
  | f + 1, rnd => by
    unfold randIntLoop
    split
    · exact h
    · dsimp only
      split
      all_goals
        split
        · trivial
        · exact kinds_randLoop h m k b f _

theorem kinds_randInt {S : Err → Prop} (h : S .randomRead) (rnd : Bytes) (m : Nat) : Kinds S (randInt rnd m) := by
  unfold randInt
  split
  · trivial
  · dsimp only
    split
    · trivial
    · exact kinds_randLoop h _ _ _ _ _

theorem kinds_era (era : Int) : Kinds (· ∈ never) (eraCheck era) := by
  unfold eraCheck; split
  · simp [Kinds, never]
  · trivial

theorem kinds_newSeed (era n : Int) : Kinds (· ∈ never) (newSeed era n) := by
  unfold newSeed
  refine kinds_bind (kinds_era _) fun _ => ?_
  split
  · simp [Kinds, never]
  · trivial

theorem kinds_encodeLoop {S : Err → Prop} : ∀ (i : Nat) (p : Int) (acc : List Nat), Kinds S (encodeLoop i p acc)
  | 0, p, acc => by unfold encodeLoop; split <;> trivial
  | i + 1, p, acc => by
    unfold encodeLoop
    split
    · exact kinds_encodeLoop i _ _
    · trivial

theorem kinds_words (L : WordList) : ∀ is, Kinds (· ∈ never) (encodeToWords L is)
  | [] => trivial
  | i :: is => by
    unfold encodeToWords
    split
    · simp [Kinds, never]
    · exact kinds_bind (kinds_words L is) fun _ => trivial

theorem kinds_encode (L : WordList) (v : Nat) (b : BitBuffer) : Kinds (· ∈ never) (encodeMnemonic L v b) := by
  unfold encodeMnemonic
  refine kinds_bind (kinds_fill _ _) fun _ => kinds_bind (kinds_append _ _ _) fun _ => ?_
  split
  · simp [Kinds, never]
  · refine kinds_bind ?_ fun _ => kinds_words L _
    unfold encodeToIndices
    split
    · simp [Kinds, never]
    · exact kinds_encodeLoop _ _ _

theorem kinds_plaintext (L : WordList) (s : Seed) (o : Nat) :
    Kinds (· ∈ never) (encodeMnemonicPlaintext L s o) := by
  unfold encodeMnemonicPlaintext
  exact kinds_bind (kinds_era _) fun _ => kinds_bind (kinds_new _ _) fun _ =>
    kinds_bind (kinds_append _ _ _) fun _ => kinds_bind (kinds_append _ _ _) fun _ => kinds_encode L _ _

theorem kinds_key {S : Err → Prop} (C : PhraseCrypto) (p : Bytes) (s : Int) (o : Nat) :
    Kinds S (encSeedKey C p s o) :=
  kinds_bind (kinds_new _ _) fun _ => kinds_bind (kinds_append _ _ _) fun _ =>
    kinds_bind (kinds_fill _ _) fun _ => trivial

theorem kinds_encrypted (L : WordList) (C : PhraseCrypto) (s : Seed) (o : Nat) (p rnd : Bytes) :
    Kinds (fun e => e = .randomRead ∨ e ∈ never) (encodeMnemonicEncrypted L C s o p rnd) := by
  unfold encodeMnemonicEncrypted
  refine kinds_bind (kinds_mono (kinds_era _) fun _ => Or.inr) fun _ => ?_
  split
  · simp [Kinds, never]
  · refine kinds_bind (kinds_new _ _) fun _ => kinds_bind (kinds_randInt (.inl rfl) _ _) fun _ => ?_
    refine kinds_bind (kinds_key _ _ _ _) fun _ => kinds_bind (kinds_fill _ _) fun _ => ?_
    refine kinds_bind (kinds_verify _) fun _ => kinds_bind (kinds_append _ _ _) fun _ => ?_
    refine kinds_bind (kinds_append _ _ _) fun _ => kinds_bind (kinds_append _ _ _) fun _ => ?_
    refine kinds_bind (kinds_append _ _ _) fun _ => ?_
    exact kinds_bind (kinds_mono (kinds_encode L _ _) fun _ => Or.inr) fun _ => trivial

theorem kinds_decrypt (C : PhraseCrypto) (dm : DecodedMnemonic) (p : Bytes) :
    Kinds (· ∈ never) (dm.decryptSeed C p) := by
  unfold DecodedMnemonic.decryptSeed
  split
  · unfold DecodedMnemonic.seed
    split
    · simp [Kinds, never]
    · exact kinds_newSeed _ _
  · split
    · trivial
    · refine kinds_bind (kinds_key _ _ _ _) fun _ => kinds_bind (kinds_verify _) fun _ => ?_
      split
      · simp [Kinds, never]
      · exact kinds_bind (kinds_fill _ _) fun _ => kinds_newSeed _ _

theorem kinds_edKey (C : Crypto) (s : Bytes) (c x : Int) : Kinds (· ∈ never) (newEdKey C s c x) := by
  unfold newEdKey; split
  · simp [Kinds, never]
  · trivial

theorem kinds_curveKey (C : Crypto) (s : Bytes) (c x : Int) (k) : Kinds (· ∈ never) (newCurveKey C s c x k) := by
  unfold newCurveKey; split
  · simp [Kinds, never]
  · trivial

theorem kinds_derive (C : Crypto) (s : Seed) (c : Int) (o : KeyOptions) :
    Kinds (· ∈ never) (derivePGPKeySet C s c o) := by
  unfold derivePGPKeySet
  refine kinds_bind (kinds_bind (kinds_fill _ _) fun _ => trivial) fun _ => ?_
  refine kinds_bind (kinds_edKey _ _ _ _) fun _ => ?_
  refine kinds_bind ?_ fun _ => kinds_bind ?_ fun _ => kinds_bind ?_ fun _ => trivial
  · split
    · exact kinds_bind (kinds_curveKey _ _ _ _ _) fun _ => trivial
    · trivial
  · split
    · exact kinds_bind (kinds_edKey _ _ _ _) fun _ => trivial
    · trivial
  · split
    · exact kinds_bind (kinds_edKey _ _ _ _) fun _ => trivial
    · trivial

theorem kinds_newKey (C : Crypto) (s : Seed) (c : Int) (o : Option KeyOptions) :
    Kinds (fun e => (e = .ttlInvalid ∨ e = .creationTooLate ∨ e = .creationTooEarly) ∨ e ∈ never) (new C s c o) := by
  unfold new
  refine kinds_bind (kinds_mono (kinds_era _) fun _ => Or.inr) fun _ => ?_
  dsimp only
  split
  · simp [Kinds]
  · split
    · simp [Kinds]
    · split
      · simp [Kinds]
      · exact kinds_bind (kinds_mono (kinds_derive _ _ _ _) fun _ => Or.inr) fun _ => trivial

theorem kinds_s2k {S : Err → Prop} (C : Crypto) (h : Byte) (p s : Bytes) (n : Nat) :
    Kinds S (stringToKey C h p s n) := by
  unfold stringToKey; split
  · trivial
  · split <;> trivial

theorem kinds_aes (C : Crypto) (k : Bytes) : Kinds (· ∈ never) (aesNewCipher C k) := by
  unfold aesNewCipher; split
  · trivial
  · split
    · trivial
    · simp [Kinds, never]

theorem kinds_hashSize {S : Err → Prop} (h : Byte) : Kinds S (hashSize h) := by
  unfold hashSize; split
  · trivial
  · split
    · trivial
    · split <;> trivial

theorem kinds_sign {S : Err → Prop} (C : Crypto) (k : Bytes) (r : SignatureRequest) : Kinds S (sign C k r) := by
  unfold sign
  dsimp only
  split
  · trivial
  · split <;> trivial

theorem kinds_bindSubkey {S : Err → Prop} (C : Crypto) (k : EdKey) (b : ECKey) (f : Byte) (x : Int) :
    Kinds S (k.bindSubkey C b f x) := by
  unfold EdKey.bindSubkey
  refine kinds_bind ?_ fun _ => kinds_sign _ _ _
  split
  · split
    · trivial
    · exact kinds_bind (kinds_sign _ _ _) fun _ => trivial
  · trivial

theorem kinds_certify {S : Err → Prop} (C : Crypto) (ks : KeySet) : Kinds S (ks.encodeSelfCertification C) :=
  kinds_bind (kinds_sign _ _ _) fun _ => trivial

theorem kinds_swap {S : Err → Prop} (l : List Bytes) (i j : Nat) : Kinds S (swap l i j) := by
  unfold swap; split <;> trivial

theorem kinds_shuffle {S : Err → Prop} (d : Nat → Nat) : ∀ (n : Nat) (l : List Bytes), Kinds S (shuffleLoop d n l)
  | 0, _ => trivial
  | n + 1, _ => kinds_bind (kinds_swap _ _ _) fun _ => kinds_shuffle d n _

theorem kinds_decodeWords (L : WordList) : ∀ ws, Kinds (fun e => e = .invalidWord) (decodeWords L ws)
  | [] => trivial
  | w :: ws => by
    unfold decodeWords
    split
    · simp [Kinds]
    · exact kinds_bind (kinds_decodeWords L ws) fun _ => trivial

theorem kinds_decodeLoop : ∀ (is : List Nat) (p : Int), Kinds (· ∈ never) (decodeLoop p is)
  | [], _ => trivial
  | i :: is, p => by
    unfold decodeLoop
    split
    · simp [Kinds, never]
    · exact kinds_decodeLoop is _

/-- The errors of DecodeMnemonic; a version is refused only when the first word announces it. -/
theorem kinds_decode {L : WordList} (hL : ∀ w i, L.lookup w = some i → i < 4096) (ws : List Bytes) :
    Kinds (fun e => (e = .invalidChecksum ∨ e = .invalidWordCount ∨ e = .invalidWord ∨
      (e = .invalidVersion ∧ 2 ≤ announced L ws ∧ announced L ws < 16 ∧
        (parseMnemonicVersionRaw L (ws.headD [])).1 = announced L ws)) ∨ e ∈ never) (decodeMnemonic L ws) := by
  unfold decodeMnemonic
  split
  · simp [Kinds]
  · rename_i w ws'
    simp only [List.headD_cons]
    have hv : (∃ v, parseMnemonicVersion L w = .ok v ∧ versionCheck v = .ok ()) ∨
        parseMnemonicVersion L w = .err .invalidWord ∨
        (parseMnemonicVersion L w = .err .invalidVersion ∧ 2 ≤ announced L (w :: ws') ∧
          announced L (w :: ws') < 16 ∧ (parseMnemonicVersionRaw L w).1 = announced L (w :: ws')) := by
      unfold parseMnemonicVersion parseMnemonicVersionRaw announced
      cases hl : L.lookup (L.toLower w) with
      | none => simp
      | some i =>
        have hi := hL _ _ hl
        have hs : i >>> (bitsPerWord - mnemonicVersionBitCount) = i / 256 := by
          simp [Nat.shiftRight_eq_div_pow, bitsPerWord, mnemonicVersionBitCount]
        simp only [hs, hl]
        unfold versionCheck mnemonicVersionLatest
        by_cases h : i / 256 > 1
        · simp [h]; omega
        · simp [h]; omega
    rcases hv with ⟨v, hv, hc⟩ | hv | hv
    · rw [hv, Res.bind_ok, hc, Res.bind_ok]
      split
      · simp [Kinds]
      · refine kinds_bind (kinds_mono (kinds_decodeWords L _) fun e h => by simp [h]) fun _ => ?_
        refine kinds_bind (kinds_mono (kinds_decodeLoop _ _) fun _ => Or.inr) fun _ => ?_
        refine kinds_bind (kinds_new _ _) fun _ => kinds_bind (kinds_popT _ _) fun _ => ?_
        refine kinds_bind (kinds_fill _ _) fun _ => ?_
        split
        · simp [Kinds]
        · refine kinds_bind (kinds_popL _ _) fun _ => kinds_bind (kinds_popL _ _) fun _ => ?_
          refine kinds_bind ?_ fun _ => kinds_bind (kinds_popL _ _) fun _ => ?_
          · split
            · exact kinds_bind (kinds_popL _ _) fun _ => kinds_bind (kinds_popL _ _) fun _ => trivial
            · trivial
          · split
            · simp [Kinds, never]
            · trivial
    · rw [hv]; simp [Kinds]
    · rw [hv.1]; exact .inl (.inr (.inr (.inr ⟨rfl, hv.2⟩)))

/-! ## Programs -/

def SaysR {α : Type} (M : Err → Bytes → Prop) : ResE α → Prop
  | .err e => M e.kind e.text
  | _ => True

theorem saysR_bind {α β : Type} {M : Err → Bytes → Prop} {x : ResE α} {f : α → ResE β} (h : SaysR M x)
    (hf : ∀ a, x = .ok a → SaysR M (f a)) : SaysR M (x >>= f) := by
  cases x with
  | ok a => exact hf a rfl
  | err e => exact h
  | panic p => trivial

theorem saysR_explain {α : Type} {M : Err → Bytes → Prop} {S : Err → Prop} {r : Res α} {t : Err → Bytes}
    (h : Kinds S r) (hM : ∀ e, S e → M e (t e)) : SaysR M (explain r t) := by
  cases r with
  | err e => exact hM e h
  | _ => trivial

theorem saysR_noError {α : Type} {M : Err → Bytes → Prop} {r : Res α} (hM : ∀ e ∈ never, ∀ t, M e t)
    (h : Kinds (· ∈ never) r) : SaysR M (noError r) := saysR_explain h fun e he => hM e he _

theorem saysR_wrap {α : Type} {M : Err → Bytes → Prop} {x : ResE α} {b : Bytes}
    (h : SaysR (fun k t => M k (b ++ str ": " ++ t)) x) : SaysR M (x.wrap b) := by
  cases x with
  | err e => exact h
  | _ => trivial

theorem saysR_mono {α : Type} {M N : Err → Bytes → Prop} {x : ResE α} (h : SaysR M x)
    (hMN : ∀ k t, M k t → N k t) : SaysR N x := by
  cases x with
  | err e => exact hMN _ _ h
  | _ => trivial

/-- If the errors of the prompts have such texts, so have those of the program; it takes prompts from the list. -/
def Says {α : Type} (M : Err → Bytes → Prop) (x : ProgE α) : Prop :=
  ∀ st, (∀ r ∈ st.prompts, SaysR M r) →
    (∀ e, (x st).1 = .err e → M e.kind e.text) ∧ (∀ r ∈ (x st).2.prompts, r ∈ st.prompts)

theorem says_pure {α : Type} {M : Err → Bytes → Prop} (a : α) : Says M (pure a : ProgE α) := fun st _ =>
  ⟨fun e h => (by change OutcomeE.ok a = _ at h; cases h), fun _ h => h⟩

theorem says_bind {α β : Type} {M : Err → Bytes → Prop} {x : ProgE α} {f : α → ProgE β} (h : Says M x)
    (hf : ∀ a, Says M (f a)) : Says M (x >>= f) := by
  intro st hp
  obtain ⟨h1, h2⟩ := h st hp
  change (∀ e, (ProgE.bind x f st).1 = _ → _) ∧ ∀ r ∈ (ProgE.bind x f st).2.prompts, _
  unfold ProgE.bind
  rcases hx : x st with ⟨o, st'⟩
  rw [hx] at h1 h2
  dsimp only at h1 h2
  cases o with
  | ok a =>
    obtain ⟨h3, h4⟩ := hf a st' fun r hr => hp r (h2 r hr)
    exact ⟨h3, fun r hr => h2 r (h4 r hr)⟩
  | err e => exact ⟨fun e' he => h1 e' (by cases he; rfl), h2⟩
  | panic p => exact ⟨fun e' he => (by cases he), h2⟩
  | waits c => exact ⟨fun e' he => (by cases he), h2⟩
  | loops => exact ⟨fun e' he => (by cases he), h2⟩

theorem says_lift {α : Type} {M : Err → Bytes → Prop} {r : ResE α} (h : SaysR M r) : Says M (liftE r) := by
  intro st _
  cases r with
  | ok a => exact ⟨fun e he => by simp [liftE] at he, fun _ h => h⟩
  | err e => exact ⟨fun e' he => by simp only [liftE, OutcomeE.err.injEq] at he; exact he ▸ h, fun _ h => h⟩
  | panic p => exact ⟨fun e he => by simp [liftE] at he, fun _ h => h⟩

theorem says_bindLift {α β : Type} {M : Err → Bytes → Prop} {r : ResE α} {f : α → ProgE β} (h : SaysR M r)
    (hf : ∀ a, r = .ok a → Says M (f a)) : Says M (liftE r >>= f) := by
  cases r with
  | ok a => exact hf a rfl
  | err e => exact says_lift (α := β) (r := .err e) h
  | panic p => exact says_lift (α := β) (r := .panic p) trivial

theorem says_password {M : Err → Bytes → Prop} (confirm : Bool) : Says M (userInputPasswordE confirm) := by
  rintro ⟨ps, rnd, acts⟩ hp
  cases ps with
  | nil => exact ⟨fun e he => by simp [userInputPasswordE] at he, fun _ h => h⟩
  | cons p ps =>
    cases p with
    | ok p => exact ⟨fun e he => by simp [userInputPasswordE] at he, fun r h => List.mem_cons_of_mem _ h⟩
    | err e =>
      refine ⟨fun e' he => ?_, fun r h => List.mem_cons_of_mem _ h⟩
      simp only [userInputPasswordE, OutcomeE.err.injEq] at he
      exact he ▸ hp _ List.mem_cons_self
    | panic p => exact ⟨fun e he => by simp [userInputPasswordE] at he, fun r h => List.mem_cons_of_mem _ h⟩

theorem says_random {α : Type} {M : Err → Bytes → Prop} {f : Bytes → ResE (α × Bytes)}
    (h : ∀ rnd, SaysR M (f rnd)) : Says M (randomE f) := by
  rintro ⟨ps, rnd, acts⟩ hp
  unfold randomE
  dsimp only
  have := h rnd
  cases hf : f rnd with
  | ok a => exact ⟨fun e he => by simp at he, fun _ h => h⟩
  | err e =>
    rw [hf] at this
    exact ⟨fun e' he => by simp only [OutcomeE.err.injEq] at he; exact he ▸ this, fun _ h => h⟩
  | panic p => exact ⟨fun e he => by simp at he, fun _ h => h⟩

theorem says_noError {α : Type} {M : Err → Bytes → Prop} {x : Prog α} (h : ∀ st e, (x st).1 ≠ .err e) :
    Says M (noErrorE x) := by
  intro st _
  refine ⟨fun e he => ?_, fun _ h => h⟩
  unfold noErrorE at he
  dsimp only at he
  have := h ⟨[], st.rnd, st.acts⟩
  cases hx : (x ⟨[], st.rnd, st.acts⟩).1 with
  | err e => exact absurd hx (this e)
  | _ => rw [hx] at he; cases he

theorem says_emit {M : Err → Bytes → Prop} (acts : List Act) : Says M (noErrorE (emit acts)) :=
  says_noError fun _ _ h => by cases h

theorem says_ite {α : Type} {M : Err → Bytes → Prop} {p : Prop} [Decidable p] {x y : ProgE α}
    (h : p → Says M x) (h' : ¬ p → Says M y) : Says M (if p then x else y) := by
  split
  · exact h ‹_›
  · exact h' ‹_›

theorem says_print {M : Err → Bytes → Prop} (env : Env) (words : List Bytes) :
    Says M (noErrorE (printMnemonic env words)) := by
  refine says_noError fun st e h => ?_
  unfold printMnemonic at h
  dsimp only at h
  cases hj : justifyTerminalWidth 19 env.columns 0 notice with
  | none => rw [hj] at h; cases h
  | some r =>
    rw [hj] at h
    cases r with
    | ok b => cases h
    | panic p => cases h
    | err e =>
      unfold justifyTerminalWidth justifyWidth at hj
      dsimp only at hj
      split at hj
      · cases hj
      · split at hj
        · cases hj
        · rw [Option.map_eq_some_iff] at hj
          obtain ⟨_, -, hj⟩ := hj
          cases hj

/-! ## The parts of the commands -/

theorem says_s2k {M : Err → Bytes → Prop} (hN : ∀ e ∈ never, ∀ t, M e t) (os : OsText) (C : Crypto) (h : Byte)
    (p w rnd : Bytes)
    (h1 : M .randomRead (str "failed to read random salt" ++ str ": " ++ os.random))
    (h2 : M .randomRead (str "failed to read random IV" ++ str ": " ++ os.random)) :
    SaysR M (encryptS2KE os C h p w rnd) := by
  have hr : ∀ (rnd : Bytes) (n : Nat), Kinds (· = .randomRead) (randRead rnd n) := by
    intro rnd n
    unfold randRead
    split
    · rfl
    · trivial
  unfold encryptS2KE
  refine saysR_bind (saysR_wrap (saysR_explain (hr _ _) fun e he => he ▸ h1)) fun _ _ => ?_
  refine saysR_bind (saysR_wrap (saysR_explain (hr _ _) fun e he => he ▸ h2)) fun _ _ => ?_
  refine saysR_bind (saysR_noError hN (kinds_s2k _ _ _ _ _)) fun _ _ => ?_
  refine saysR_bind (saysR_noError hN (kinds_aes _ _)) fun _ _ => ?_
  refine saysR_bind (saysR_noError hN (kinds_hashSize _)) fun _ _ => ?_
  refine saysR_bind (saysR_noError hN ?_) fun _ _ => trivial
  split
  · trivial
  · split
    · trivial
    · split
      · trivial
      · simp [Kinds, never]

theorem says_privatePacket {M : Err → Bytes → Prop} (hN : ∀ e ∈ never, ∀ t, M e t) (os : OsText) (C : Crypto)
    (tag : Byte) (key : ECKey) (password rnd : Bytes)
    (h1 : password ≠ [] → M .randomRead (str "failed to read random salt" ++ str ": " ++ os.random))
    (h2 : password ≠ [] → M .randomRead (str "failed to read random IV" ++ str ": " ++ os.random)) :
    SaysR M (encodePrivatePacketE os C tag key password rnd) := by
  unfold encodePrivatePacketE
  refine saysR_bind ?_ fun _ _ => trivial
  unfold encodePrivateE
  split
  · rename_i hp
    have hne : password ≠ [] := List.ne_nil_of_length_pos hp
    exact saysR_bind (says_s2k hN os C _ _ _ _ (h1 hne) (h2 hne)) fun _ _ => trivial
  · rename_i hp
    refine saysR_noError hN ?_
    unfold ECKey.encodePrivate
    rw [if_neg hp]
    trivial

/-- What an export says, when there is a password -/
def ExportSays (os : OsText) (password : Bytes) (k : Err) (t : Bytes) : Prop :=
  (password ≠ [] ∧ ExportText os k t) ∨ k ∈ never

theorem exportText_salt (os : OsText) (b what : Bytes) (h : what ∈ packetNames)
    (hb : b = str "failed to encode " ++ what ++ str " packet") :
    ExportText os .randomRead (b ++ str ": " ++ (str "failed to read random salt" ++ str ": " ++ os.random)) := by
  have : b ++ str ": " ++ (str "failed to read random salt" ++ str ": " ++ os.random) =
      str "failed to encode " ++ what ++ str " packet: failed to read random salt: " ++ os.random := by
    have e : str " packet: failed to read random salt: " =
        str " packet" ++ str ": " ++ str "failed to read random salt" ++ str ": " := by decide +kernel
    rw [hb, e]
    simp only [List.append_assoc]
  rw [this]
  exact .salt h

theorem exportText_iv (os : OsText) (b what : Bytes) (h : what ∈ packetNames)
    (hb : b = str "failed to encode " ++ what ++ str " packet") :
    ExportText os .randomRead (b ++ str ": " ++ (str "failed to read random IV" ++ str ": " ++ os.random)) := by
  have : b ++ str ": " ++ (str "failed to read random IV" ++ str ": " ++ os.random) =
      str "failed to encode " ++ what ++ str " packet: failed to read random IV: " ++ os.random := by
    have e : str " packet: failed to read random IV: " =
        str " packet" ++ str ": " ++ str "failed to read random IV" ++ str ": " := by decide +kernel
    rw [hb, e]
    simp only [List.append_assoc]
  rw [this]
  exact .iv h

theorem says_packet (os : OsText) (C : Crypto) (tag : Byte) (key : ECKey) (password rnd b what : Bytes)
    (h : what ∈ packetNames) (hb : b = str "failed to encode " ++ what ++ str " packet") :
    SaysR (ExportSays os password) ((encodePrivatePacketE os C tag key password rnd).wrap b) := by
  refine saysR_wrap (says_privatePacket (fun e he t => .inr he) os C tag key password rnd ?_ ?_)
  · exact fun hp => .inl ⟨hp, exportText_salt os b what h hb⟩
  · exact fun hp => .inl ⟨hp, exportText_iv os b what h hb⟩

theorem says_subkey (os : OsText) (C : Crypto) (what : Bytes) (m : EdKey) (base : ECKey) (flags : Byte)
    (expiry : Int) (password rnd : Bytes) (h : what ++ str " subkey" ∈ packetNames) :
    SaysR (ExportSays os password) (encodeSubkeyPacketsE os C what m base flags expiry password rnd) := by
  unfold encodeSubkeyPacketsE
  refine saysR_bind (says_packet os C _ _ _ _ _ _ h ?_) fun _ _ => ?_
  · have e : str " subkey packet" = str " subkey" ++ str " packet" := by decide +kernel
    rw [e]
    simp only [List.append_assoc]
  · exact saysR_bind (saysR_noError (fun e he t => .inr he) (kinds_bindSubkey _ _ _ _ _)) fun _ _ => trivial

theorem says_all (os : OsText) (C : Crypto) (ks : KeySet) (password rnd : Bytes) :
    SaysR (ExportSays os password) (encodeAllSubkeyPacketsE os C ks password rnd) := by
  unfold encodeAllSubkeyPacketsE
  refine saysR_bind ?_ fun _ _ => saysR_bind ?_ fun _ _ => saysR_bind ?_ fun _ _ =>
    saysR_bind (saysR_noError (fun e he t => .inr he) (kinds_shuffle _ _ _)) fun _ _ => trivial
  · unfold encodeEncryptionE
    split
    · trivial
    · exact says_subkey os C _ _ _ _ _ _ _ (by decide +kernel)
  · unfold encodeAuthenticationE
    split
    · trivial
    · exact says_subkey os C _ _ _ _ _ _ _ (by decide +kernel)
  · unfold encodeSigningE
    split
    · trivial
    · exact says_subkey os C _ _ _ _ _ _ _ (by decide +kernel)

theorem says_export {M : Err → Bytes → Prop} (os : OsText) (C : Crypto) (mnk : Mnemonikey) (master cert : Bool)
    (password : Bytes) (hM : ∀ k t, ExportSays os password k t → M k t) :
    Says M (exportKeyE os C mnk master cert password) := by
  unfold exportKeyE
  refine says_ite (fun _ => says_random fun rnd => saysR_mono ?_ hM)
    (fun _ => says_random fun rnd => saysR_mono ?_ hM)
  · unfold encodePacketsE
    refine saysR_bind (says_packet os C _ _ _ _ _ (str "master key") (by decide +kernel) (by decide +kernel))
      fun _ _ => ?_
    refine saysR_bind (saysR_noError (fun e he t => .inr he) (kinds_certify _ _)) fun _ _ => ?_
    exact saysR_bind (says_all os C _ _ _) fun _ _ => trivial
  · unfold encodeOnlySubkeyPacketsE
    refine saysR_bind (saysR_noError (fun e he t => .inr he) ?_) fun _ _ => ?_
    · split
      · exact kinds_certify _ _
      · trivial
    · exact saysR_bind (says_all os C _ _ _) fun _ _ => trivial

theorem says_new {M : Err → Bytes → Prop} (hN : ∀ e ∈ never, ∀ t, M e t) (C : Crypto) (s : Seed) (c : Int)
    (o : Option KeyOptions) (hM : ∀ k t, NewText k t → M k t) : SaysR M (newE C s c o) := by
  refine saysR_explain (kinds_newKey C s c o) ?_
  rintro e ((rfl | rfl | rfl) | h)
  · exact hM _ _ .ttl
  · exact hM _ _ .late
  · exact hM _ _ .early
  · exact hN e h _

theorem says_seedR {M : Err → Bytes → Prop} (hN : ∀ e ∈ never, ∀ t, M e t) (text rnd : Bytes)
    (h : rnd.length < 16 → M .randomRead (str "failed to generate 128 bits of secure random seed data: " ++ text)) :
    SaysR M (generateSeedE text rnd) := by
  unfold generateSeedE
  refine saysR_bind (saysR_wrap ?_) fun _ _ => saysR_bind (saysR_noError hN (kinds_newSeed _ _)) fun _ _ => trivial
  have e : str "failed to generate " ++ formatInt entropyBitCount ++ str " bits of secure random seed data" ++
      str ": " = str "failed to generate 128 bits of secure random seed data: " := by decide +kernel
  rw [e]
  refine saysR_explain (S := fun e => e = .randomRead ∧ rnd.length < 16) ?_ ?_
  · by_cases hr : rnd.length < 16
    · exact kinds_randInt ⟨rfl, hr⟩ _ _
    · change Kinds _ (randInt rnd (2 ^ 128))
      rw [randInt_seed, if_neg hr]
      trivial
  · rintro e ⟨rfl, hr⟩
    exact h hr

theorem says_seedOf {M : Err → Bytes → Prop} (hN : ∀ e ∈ never, ∀ t, M e t) (F : Fmt) (os : OsText) (env : Env)
    (opts : GenerateOptions) (prompts : List (ResE Bytes))
    (hM : ∀ k t, GenerateText F.quote os opts (entropySource env opts.unsafeEntropy) prompts k t → M k t) :
    Says M (seedOfE os env opts.unsafeEntropy) := by
  unfold seedOfE
  refine says_ite (fun hu => says_lift ?_) (fun hu => says_random fun rnd => says_seedR hN _ _ fun _ => ?_)
  · refine saysR_bind ?_ fun source hs => saysR_bind (says_seedR hN _ _ fun hlen => hM _ _ ?_) fun _ _ => trivial
    · split
      · trivial
      · rename_i hd
        cases hr : env.fs.read opts.unsafeEntropy with
        | none => exact hM _ _ (.noEntropyFile hu (by rw [entropySource, if_neg hd, hr]))
        | some c => trivial
    · have hsrc : entropySource env opts.unsafeEntropy = some source := by
        unfold entropySource
        split at hs
        · rename_i hd
          rw [if_pos hd]; cases hs; rfl
        · rename_i hd
          rw [if_neg hd]
          cases hr : env.fs.read opts.unsafeEntropy with
          | none => rw [hr] at hs; cases hs
          | some c => rw [hr] at hs; cases hs; rfl
      unfold readFullText
      split
      · rename_i he
        have e : str "failed to generate 128 bits of secure random seed data: " ++ str "EOF" =
          str "failed to generate 128 bits of secure random seed data: EOF" := by decide +kernel
        rw [e]
        exact .entropyEmpty hu (by rw [hsrc, he])
      · rename_i he
        have e : str "failed to generate 128 bits of secure random seed data: " ++ str "unexpected EOF" =
          str "failed to generate 128 bits of secure random seed data: unexpected EOF" := by decide +kernel
        rw [e]
        exact .entropyShort hu hsrc he hlen
  · exact hM _ _ (.random (by simpa using hu))

theorem says_ttl {M : Err → Bytes → Prop} (F : Fmt) (f : KeyFlags) (hM : ∀ k t, FlagText F.quote f k t → M k t) :
    SaysR M (ttlOfE F f.ttl) := by
  unfold ttlOfE
  refine saysR_wrap (saysR_explain (S := (· = .badDuration)) ?_ ?_)
  · unfold ttlOf
    split
    · unfold parseTTL
      split
      · rfl
      · split
        · rfl
        · split
          · rfl
          · trivial
    · trivial
  · rintro e rfl
    have e : incorrectUsage ++ str ": " ++ durationText F f.ttl =
        str "incorrect usage: invalid duration parameter: " ++ F.quote f.ttl := by
      unfold durationText
      rw [← List.append_assoc]
      congr 1
    rw [e]
    exact hM _ _ .duration

theorem says_onlyLoop {M : Err → Bytes → Prop} (F : Fmt) (f : KeyFlags)
    (hM : ∀ k t, FlagText F.quote f k t → M k t) : ∀ (elems known : List Bytes) (m : Bool) (acc : List Bytes),
    IsList f.only (known ++ elems) → (∀ k ∈ known, k ∈ keyTypes) → SaysR M (onlyLoopE F m acc elems)
  | [], _, _, _, _, _ => trivial
  | e :: elems, known, m, acc, hl, hk => by
    have hl' : IsList f.only ((known ++ [e]) ++ elems) := by simpa using hl
    unfold onlyLoopE
    split
    · rename_i he
      refine says_onlyLoop F f hM elems _ _ _ hl' fun k hk' => ?_
      rcases List.mem_append.1 hk' with h | h
      · exact hk k h
      · rw [List.mem_singleton] at h
        rw [h, he]
        decide
    · rename_i he1
      split
      · rename_i he
        refine says_onlyLoop F f hM elems _ _ _ hl' fun k hk' => ?_
        rcases List.mem_append.1 hk' with h | h
        · exact hk k h
        · rw [List.mem_singleton] at h
          rw [h]
          rcases he with rfl | rfl | rfl <;> decide
      · rename_i he
        have e' : incorrectUsage ++ str ": unknown -only list element " ++ F.quote e =
          str "incorrect usage: unknown -only list element " ++ F.quote e := by congr 1
        change M _ (incorrectUsage ++ str ": unknown -only list element " ++ F.quote e)
        rw [e']
        refine hM _ _ (.only hl hk ?_)
        simp only [keyTypes, List.map_cons, List.map_nil, List.mem_cons, List.not_mem_nil, or_false]
        unfold subkeyTypeEncryption subkeyTypeAuthentication subkeyTypeSigning at he
        tauto

theorem says_only {M : Err → Bytes → Prop} (F : Fmt) (f : KeyFlags)
    (hM : ∀ k t, FlagText F.quote f k t → M k t) : SaysR M (decodeOnlyKeyTypesE F f.only) := by
  unfold decodeOnlyKeyTypesE
  split
  · exact says_onlyLoop F f hM _ [] _ _
      ⟨split_ne _, split_mem _, (intercalate_split _).symm⟩ (by simp)
  · trivial

theorem says_save {M : Err → Bytes → Prop} (os : OsText) (env : Env) (words : List Bytes) (file : Bytes)
    (hM : ∀ k t, SaveText os file k t → M k t) : Says M (saveE os env words file) := by
  refine says_bind (says_emit _) fun _ => says_lift (saysR_wrap (saysR_explain
    (S := fun e => e = .fileInaccessible ∨ e = .fileExists ∨ e = .fileWrite) ?_ ?_))
  · unfold saveMnemonic
    split
    · simp [Kinds]
    · split
      · simp [Kinds]
      · split
        · simp [Kinds]
        · dsimp only
          split
          · simp [Kinds]
          · trivial
  · rintro e (rfl | rfl | rfl)
    · have e : str "failed to write words to file" ++ str ": " ++ saveText os file .fileInaccessible =
          str "failed to write words to file: failed to write word-file to " ++ file ++
            str ": path is not accessible: " ++ os.stat := by
        have e : str "failed to write words to file: failed to write word-file to " =
          str "failed to write words to file" ++ str ": " ++ str "failed to write word-file to " := by
            decide +kernel
        rw [e]
        simp only [saveText, List.append_assoc]
      rw [e]
      exact hM _ _ .inaccessible
    · have e : str "failed to write words to file" ++ str ": " ++ saveText os file .fileExists =
          str "failed to write words to file: refused to write word-file to " ++ file ++
            str ": file already exists" := by
        have e : str "failed to write words to file: refused to write word-file to " =
          str "failed to write words to file" ++ str ": " ++ str "refused to write word-file to " := by
            decide +kernel
        rw [e]
        simp only [saveText, List.append_assoc]
      rw [e]
      exact hM _ _ .exists
    · have e : str "failed to write words to file" ++ str ": " ++ saveText os file .fileWrite =
          str "failed to write words to file: failed to write words to file: " ++ os.write := by
        have e : str "failed to write words to file: failed to write words to file: " =
          str "failed to write words to file" ++ str ": " ++ str "failed to write words to file: " := by
            decide +kernel
        rw [e]
        simp only [saveText, List.append_assoc]
      rw [e]
      exact hM _ _ .write

theorem readLoopE_ok {L : WordList} {path : Bytes} : ∀ (ts acc ws : List Bytes), acc.length ≤ 100 →
    readLoopE L path acc ts = .ok ws → ws = acc ++ ts.map L.toLower ∧ ws.length ≤ 100 ∧
      ∀ t ∈ ts, ∃ i, L.lookup (L.toLower t) = some i
  | [], acc, ws, ha, h => by
    cases h; simp [ha]
  | t :: ts, acc, ws, ha, h => by
    unfold readLoopE at h
    dsimp only at h
    cases hl : L.lookup (L.toLower t) with
    | none => rw [hl] at h; cases h
    | some i =>
      rw [hl] at h
      dsimp only at h
      split at h
      · cases h
      · rename_i hlen
        obtain ⟨h1, h2, h3⟩ := readLoopE_ok ts _ ws (by omega) h
        refine ⟨by simp [h1], h2, ?_⟩
        rintro t' ht
        rcases List.mem_cons.1 ht with rfl | ht
        · exact ⟨i, hl⟩
        · exact h3 t' ht

theorem says_readLoop {M : Err → Bytes → Prop} {L : WordList} {path : Bytes}
    (h1 : M .fileBadWord (str "found word in " ++ path ++ str " not present in wordlist"))
    (h2 : M .fileBadFormat (str "invalid format for word file")) : ∀ (ts acc : List Bytes),
    SaysR M (readLoopE L path acc ts)
  | [], _ => trivial
  | t :: ts, acc => by
    unfold readLoopE
    dsimp only
    split
    · exact h1
    · split
      · exact h2
      · exact says_readLoop h1 h2 ts _

theorem kinds_keys {L : WordList} : ∀ (stdin : Bytes) (s : WordState),
    Kinds (fun e => e = .stdinRead ∨ e = .aborted) (keyLoop L s stdin).1
  | [], _ => .inl rfl
  | c :: stdin, s => by
    unfold keyLoop
    cases hk : keyStep L s c with
    | next s' => exact kinds_keys stdin s'
    | finished r =>
      dsimp only
      have hn : ∀ (s : WordState) (r : Res (List Bytes)), nextWord s = .finished r →
          Kinds (fun e => e = Err.stdinRead ∨ e = .aborted) r := by
        intro s r h
        unfold nextWord at h
        split at h
        · cases h
        · cases h; trivial
      unfold keyStep at hk
      split at hk
      · cases hk; exact .inr rfl
      · dsimp only at hk
        split at hk
        · exact hn _ _ hk
        · split at hk
          · cases hk
          · split at hk
            · split at hk
              · cases hk
              · split at hk
                · split at hk
                  · cases hk
                  · cases hk; trivial
                  · exact hn _ _ hk
                · exact hn _ _ hk
            · cases hk

theorem kinds_simple {L : WordList} : ∀ (lines words : List Bytes) (n : Nat),
    Kinds (· = .stdinRead) (simpleLoop L n words lines)
  | [], _, _ => rfl
  | line :: lines, words, n => by
    unfold simpleLoop
    dsimp only
    split
    · split
      · split
        · exact kinds_simple lines _ _
        · trivial
        · split
          · exact kinds_simple lines _ _
          · trivial
      · split
        · exact kinds_simple lines _ _
        · trivial
    · exact kinds_simple lines _ _

theorem mnemonicSize_wanted (v : Nat) : mnemonicSize v = wordsWanted v := by
  rcases v with - | - | v
  · decide
  · decide
  · unfold mnemonicSize wordsWanted
    rw [if_neg (by omega), if_neg (by omega)]
    have : payloadBitCount (v + 2) = 0 := by
      simp [payloadBitCount]
    rw [this]
    decide

theorem raw_announced {L : WordList} (w : Bytes) (ws : List Bytes) :
    (parseMnemonicVersionRaw L w).1 = announced L (w :: ws) := by
  unfold parseMnemonicVersionRaw announced
  cases hl : L.lookup (L.toLower w) with
  | none => simp [hl]
  | some i => simp [hl, Nat.shiftRight_eq_div_pow, bitsPerWord, mnemonicVersionBitCount]

/-- Where the numbers in a message come from, in terms of the model -/
def Counts (L : WordList) (env : Env) (input : InputFlags) (n v : Nat) (k : Err) : Prop :=
  n ≤ 100 ∧ v < 16 ∧
  (k = .fileWordCount → ∃ content, env.fs.read input.inputWordFile = some content ∧
    n = (scanWords content).length ∧ v = announced L ((scanWords content).map L.toLower)) ∧
  (k = .invalidVersion → ∃ ws, inputWords L env input = .ok ws ∧ v = announced L ws)

/-- What the part reading a phrase says -/
def InputSays (os : OsText) (L : WordList) (env : Env) (input : InputFlags) (k : Err) (t : Bytes) : Prop :=
  ∃ n v, InputText os input.inputWordFile n v k t ∧ Counts L env input n v k

theorem counted_zero {L : WordList} {env : Env} {input : InputFlags} {k : Err} (h1 : k ≠ .fileWordCount)
    (h2 : k ≠ .invalidVersion) : Counts L env input 0 0 k :=
  ⟨by omega, by omega, fun h => absurd h h1, fun h => absurd h h2⟩

theorem says_inputWords {M : Err → Bytes → Prop} (os : OsText) {L : WordList}
    (hL : ∀ w i, L.lookup w = some i → i < 4096) (env : Env)
    (input : InputFlags) (hM : ∀ k t, InputSays os L env input k t → M k t) :
    SaysR M (inputWordsE os L env input) := by
  unfold inputWordsE
  split
  · rename_i hf
    unfold readWordFileE
    cases hc : env.fs.read input.inputWordFile with
    | none => exact hM _ _ ⟨0, 0, .open hf, counted_zero (by simp) (by simp)⟩
    | some content =>
      refine saysR_bind (says_readLoop ?_ ?_ _ _) fun words hw => ?_
      · exact hM _ _ ⟨0, 0, .badWord hf, counted_zero (by simp) (by simp)⟩
      · exact hM _ _ ⟨0, 0, .format hf, counted_zero (by simp) (by simp)⟩
      · obtain ⟨hw1, hw2, hw3⟩ := readLoopE_ok _ _ _ (by simp) hw
        rw [List.nil_append] at hw1
        cases words with
        | nil => exact hM _ _ ⟨0, 0, .noWords hf, counted_zero (by simp) (by simp)⟩
        | cons first rest =>
          dsimp only
          split
          · rename_i hne
            rw [raw_announced first rest, mnemonicSize_wanted] at hne ⊢
            refine hM _ _ ⟨_, _, .count hf hne, hw2, ?_, fun _ => ⟨content, hc, ?_, ?_⟩, fun h => by cases h⟩
            · unfold announced
              dsimp only
              cases hl : L.lookup (L.toLower first) with
              | none => simp
              | some i =>
                have := hL _ _ hl
                simp only [Option.getD_some]
                omega
            · rw [hw1, List.length_map]
            · rw [hw1]
          · trivial
  · rename_i hf
    have hf : input.inputWordFile = [] := by simpa using hf
    split
    · refine saysR_explain (S := (· = .stdinRead)) (kinds_simple _ _ _) ?_
      rintro e rfl
      exact hM _ _ ⟨0, 0, .lines hf, counted_zero (by simp) (by simp)⟩
    · refine saysR_explain (kinds_keys _ _) ?_
      rintro e (rfl | rfl)
      · exact hM _ _ ⟨0, 0, .keys hf, counted_zero (by simp) (by simp)⟩
      · exact hM _ _ ⟨0, 0, .aborted hf, counted_zero (by simp) (by simp)⟩

theorem says_askSeed {M : Err → Bytes → Prop} (hN : ∀ e ∈ never, ∀ t, M e t) (C : Crypto) (dm : DecodedMnemonic) :
    Says M (askSeedE C dm) := by
  intro st hp
  unfold askSeedE
  split
  · dsimp only
    have : ∀ ps, (∀ r ∈ ps, SaysR M r) → (∀ e, (passwordLoopE C dm ps).1 = .err e → M e.kind e.text) ∧
        ∀ r ∈ (passwordLoopE C dm ps).2, r ∈ ps := by
      intro ps
      induction ps with
      | nil => exact fun _ => ⟨fun e h => (by cases h), fun _ h => h⟩
      | cons p ps ih =>
        intro hp
        cases p with
        | err e => exact ⟨fun e' h => (by cases h; exact hp _ List.mem_cons_self), fun _ h => List.mem_cons_of_mem _ h⟩
        | panic p => exact ⟨fun e' h => (by cases h), fun _ h => List.mem_cons_of_mem _ h⟩
        | ok p =>
          have hk := kinds_decrypt C.toPhraseCrypto dm p
          obtain ⟨i1, i2⟩ := ih fun r hr => hp r (List.mem_cons_of_mem _ hr)
          unfold passwordLoopE
          cases hd : dm.decryptSeed C.toPhraseCrypto p with
          | ok s => exact ⟨fun e' h => (by cases h), fun _ h => List.mem_cons_of_mem _ h⟩
          | panic p => exact ⟨fun e' h => (by cases h), fun _ h => List.mem_cons_of_mem _ h⟩
          | err e =>
            rw [hd] at hk
            by_cases he : e = .mnemonicDecryption
            · subst he
              exact ⟨i1, fun r hr => List.mem_cons_of_mem _ (i2 r hr)⟩
            · refine ⟨fun e' h => ?_, fun r hr => ?_⟩
              · have : e' = ⟨e, []⟩ := by
                  cases e <;> first | exact absurd rfl he | (cases h; rfl)
                rw [this]
                exact hN _ hk _
              · have : r ∈ ps := by
                  cases e <;> first | exact absurd rfl he | exact hr
                exact List.mem_cons_of_mem _ this
    exact this st.prompts hp
  · rename_i henc
    have hne : ∀ st e, (askSeed C dm st).1 = .err e → e ∈ never := by
      intro st e h
      unfold askSeed seedLoop at h
      rw [if_neg henc] at h
      have hk := kinds_decrypt C.toPhraseCrypto dm []
      cases hd : dm.decryptSeed C.toPhraseCrypto [] with
      | ok s => rw [hd] at h; cases h
      | panic p => rw [hd] at h; cases h
      | err e' =>
        rw [hd] at h hk
        have : e = e' := by
          cases e' <;> first | (cases h; rfl) | cases h
        rw [this]
        exact hk
    refine ⟨fun e he => ?_, fun _ h => h⟩
    unfold noErrorE at he
    dsimp only at he
    have := hne ⟨[], st.rnd, st.acts⟩
    cases hx : (askSeed C dm ⟨[], st.rnd, st.acts⟩).1 with
    | err e' =>
      rw [hx] at he
      cases he
      exact hN _ (this e' hx) _
    | _ => rw [hx] at he; cases he

theorem says_input {M : Err → Bytes → Prop} (hN : ∀ e ∈ never, ∀ t, M e t) (os : OsText) {L : WordList}
    (hL : ∀ w i, L.lookup w = some i → i < 4096) (C : Crypto) (env : Env)
    (input : InputFlags) (hM : ∀ k t, InputSays os L env input k t → M k t) :
    Says M (decodeMnemonicFromInputE os L C env input) := by
  unfold decodeMnemonicFromInputE
  refine says_bindLift (says_inputWords os hL env input hM) fun words hw => ?_
  have hw : inputWords L env input = .ok words := by
    rw [← plain_inputWords os, hw]; rfl
  refine says_bind (says_lift (saysR_explain (kinds_decode hL words) ?_)) fun dm =>
    says_bind (says_askSeed hN C dm) fun _ => says_pure _
  rintro e ((rfl | rfl | rfl | ⟨rfl, h2, h16, hr⟩) | he)
  · exact hM _ _ ⟨0, 0, .checksum, counted_zero (by simp) (by simp)⟩
  · exact hM _ _ ⟨0, 0, .size, counted_zero (by simp) (by simp)⟩
  · exact hM _ _ ⟨0, 0, .word, counted_zero (by simp) (by simp)⟩
  · unfold decodeText
    rw [hr]
    exact hM _ _ ⟨0, _, .version h2, by omega, h16, fun h => (by cases h), fun _ => ⟨words, hw, rfl⟩⟩
  · exact hN _ he _

theorem says_phrase {M : Err → Bytes → Prop} (hN : ∀ e ∈ never, ∀ t, M e t) (os : OsText) (L : WordList)
    (C : PhraseCrypto) (s : Seed) (o : Nat) (p : Bytes) (hM : M .randomRead os.random) :
    Says M (randomE (encodeMnemonicEncryptedE os L C s o p)) := by
  refine says_random fun rnd => saysR_explain (kinds_encrypted L C s o p rnd) ?_
  rintro e (rfl | he)
  · exact hM
  · exact hN _ he _

/-! ## The commands -/

theorem says_printKey {M : Err → Bytes → Prop} (b : Bytes) : Says M (noErrorE (printKey b)) :=
  says_noError fun _ _ h => by cases h

def GenerateSays (F : Fmt) (os : OsText) (env : Env) (opts : GenerateOptions) (prompts : List (ResE Bytes))
    (k : Err) (t : Bytes) : Prop :=
  GenerateText F.quote os opts (entropySource env opts.unsafeEntropy) prompts k t ∨ k ∈ never

theorem says_generate (F : Fmt) (os : OsText) (L : WordList) (C : Crypto) (env : Env) (opts : GenerateOptions)
    (prompts : List (ResE Bytes)) :
    Says (GenerateSays F os env opts prompts) (generateAndPrintKeyE F os L C env opts) := by
  have hN : ∀ e ∈ never, ∀ t, GenerateSays F os env opts prompts e t := fun e he t => .inr he
  unfold generateAndPrintKeyE
  refine says_bind (says_lift (says_ttl F _ fun k t h => .inl (.flags h))) fun ttl => ?_
  refine says_bind (says_lift (says_only F _ fun k t h => .inl (.flags h))) fun ms => ?_
  obtain ⟨m, s⟩ := ms
  refine says_bind (says_seedOf hN F os env opts prompts fun k t h => .inl h) fun seed => ?_
  refine says_bind (says_lift (says_new hN _ _ _ _ fun k t h => .inl (.new h))) fun mnk => ?_
  have hrest : ∀ password, (opts.key.encryptKeys = false → password = []) → Says (GenerateSays F os env opts prompts) (do
        let key ← exportKeyE os C mnk m true password
        let words ← (if opts.encryptPhrase then do
            let phrasePassword ← userInputPasswordE true
            randomE (encodeMnemonicEncryptedE os L C.toPhraseCrypto mnk.seed mnk.creationOffset phrasePassword)
          else liftE (noError (mnk.encodeMnemonicPlaintext L)) : ProgE (List Bytes))
        if opts.outputWordFile ≠ [] then saveE os env words opts.outputWordFile
        noErrorE (printKey (env.armor key))
        if opts.outputWordFile = [] then noErrorE (printMnemonic env words)) := by
    intro password hpw
    refine says_bind (says_export os C mnk m true password ?_) fun key => ?_
    · rintro k t (⟨hp, h⟩ | h)
      · refine .inl (.export ?_ h)
        by_contra hk
        exact hp (hpw (by simpa using hk))
      · exact .inr h
    refine says_bind (says_ite (fun he => says_bind (says_password true) fun p => says_phrase hN os L _ _ _ _
      (.inl (.phrase he))) fun _ => says_lift (saysR_noError hN (kinds_plaintext _ _ _))) fun words => ?_
    by_cases ho : opts.outputWordFile = []
    · simp only [ho, ne_eq, not_true_eq_false, if_false, if_true]
      exact says_bind (says_printKey _) fun _ => says_print _ _
    · simp only [ho, ne_eq, not_false_eq_true, if_true, if_false]
      exact says_bind (says_save os env words _ fun k t h => .inl (.save ho h)) fun _ =>
        says_bind (says_printKey _) fun _ => says_pure _
  by_cases hk : opts.key.encryptKeys = true
  · simp only [hk, if_true]
    exact says_bind (says_password true) fun password => hrest password (by simp [hk])
  · simp only [hk]
    exact hrest [] fun _ => rfl

def RecoverSays (F : Fmt) (os : OsText) (L : WordList) (env : Env) (opts : RecoverOptions)
    (prompts : List (ResE Bytes)) (k : Err) (t : Bytes) : Prop :=
  (∃ n v, RecoverText F.quote os opts n v prompts k t ∧ Counts L env opts.input n v k) ∨ k ∈ never

theorem says_recover (F : Fmt) (os : OsText) {L : WordList} (hL : ∀ w i, L.lookup w = some i → i < 4096) (C : Crypto)
    (env : Env) (opts : RecoverOptions) (prompts : List (ResE Bytes)) :
    Says (RecoverSays F os L env opts prompts) (recoverAndPrintKeyE F os L C env opts) := by
  have hN : ∀ e ∈ never, ∀ t, RecoverSays F os L env opts prompts e t := fun e he t => .inr he
  have hF : ∀ k t, FlagText F.quote opts.key k t → RecoverSays F os L env opts prompts k t := fun k t h =>
    .inl ⟨0, 0, .flags h, by cases h <;> exact counted_zero (by simp) (by simp)⟩
  unfold recoverAndPrintKeyE
  refine says_bind (says_lift (says_ttl F _ hF)) fun ttl => ?_
  refine says_ite (fun _ => says_lift (.inl ⟨0, 0, ?_, counted_zero (by simp) (by simp)⟩)) fun _ => ?_
  · have e : indexText = str "invalid subkey index; must be less than or equal to 65535" := by decide +kernel
    change RecoverText _ _ _ _ _ _ _ indexText
    rw [e]
    exact .index
  refine says_bind (says_lift (says_only F _ hF)) fun ms => ?_
  obtain ⟨m, s⟩ := ms
  dsimp only
  refine says_bind (says_input hN os hL C env _ ?_) fun sd => ?_
  · rintro k t ⟨n, v, h, hc⟩
    exact .inl ⟨n, v, .input h, hc⟩
  obtain ⟨seed, dm⟩ := sd
  dsimp only
  refine says_bind (says_lift (saysR_wrap (says_new (fun e he t => hN e he _) _ _ _ _ ?_))) fun mnk => ?_
  · intro k t h
    have e : str "failed to re-derive PGP keys" ++ str ": " ++ t = str "failed to re-derive PGP keys: " ++ t := by
      congr 1
    rw [e]
    exact .inl ⟨0, 0, .new h, by cases h <;> exact counted_zero (by simp) (by simp)⟩
  have hrest : ∀ password, (opts.key.encryptKeys = false → password = []) →
      Says (RecoverSays F os L env opts prompts) (do
        let key ← exportKeyE os C mnk m opts.selfCert password
        noErrorE (printKey (env.armor key))) := by
    intro password hpw
    refine says_bind (says_export os C mnk m opts.selfCert password ?_) fun key => says_printKey _
    rintro k t (⟨hp, h⟩ | h)
    · refine .inl ⟨0, 0, .export ?_ h, by cases h <;> exact counted_zero (by simp) (by simp)⟩
      by_contra hk
      exact hp (hpw (by simpa using hk))
    · exact .inr h
  by_cases hk : opts.key.encryptKeys = true
  · simp only [hk, if_true]
    exact says_bind (says_password true) fun password => hrest password (by simp [hk])
  · simp only [hk]
    exact hrest [] fun _ => rfl

def ConvertSays (os : OsText) (L : WordList) (env : Env) (opts : ConvertOptions)
    (prompts : List (ResE Bytes)) (k : Err) (t : Bytes) : Prop :=
  (∃ n v, ConvertText os opts n v prompts k t ∧ Counts L env opts.input n v k) ∨ k ∈ never

theorem says_convert (os : OsText) {L : WordList} (hL : ∀ w i, L.lookup w = some i → i < 4096) (C : Crypto)
    (env : Env) (opts : ConvertOptions) (prompts : List (ResE Bytes)) :
    Says (ConvertSays os L env opts prompts) (decodeAndConvertPhraseE os L C env opts) := by
  have hN : ∀ e ∈ never, ∀ t, ConvertSays os L env opts prompts e t := fun e he t => .inr he
  unfold decodeAndConvertPhraseE
  refine says_bind (says_input hN os hL C env _ ?_) fun sd => ?_
  · rintro k t ⟨n, v, h, hc⟩
    exact .inl ⟨n, v, .input h, hc⟩
  obtain ⟨seed, dm⟩ := sd
  dsimp only
  refine says_bind (says_ite (fun he => says_bind (says_password true) fun p => says_phrase hN os L _ _ _ _
    (.inl ⟨0, 0, .phrase he, counted_zero (by simp) (by simp)⟩))
    fun _ => says_lift (saysR_noError hN (kinds_plaintext _ _ _))) fun words => ?_
  refine says_ite (fun _ => says_print _ _) fun ho => says_save os env words _ fun k t h => ?_
  exact .inl ⟨0, 0, .save ho h, by cases h <;> exact counted_zero (by simp) (by simp)⟩

end Verif.Proofs
