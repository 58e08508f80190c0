import Verif.Proofs.Parallel
import Verif.Props.Collision
import Verif.Props.Stderr

/-! # No key is made from another (C117) -/

namespace Verif.Props

open Verif.Model Verif.Model.Cli Verif.Spec Verif.Spec.OpenPGP Verif.Proofs Verif.Instances Verif.Armor

/-- The keys that a command with these settings derives. `convert` derives none; `recover` none with an index above
65535. -/
def Derives (settings : List (Bytes × Value)) : Cmd → Part → Prop
  | .generate, p => AskedFor (text settings "only" []) 0 0 0 p
  | .recover, p => number settings "enc-index" ≤ 65535 ∧ number settings "auth-index" ≤ 65535 ∧
      number settings "sig-index" ≤ 65535 ∧ AskedFor (text settings "only" []) (number settings "enc-index")
        (number settings "auth-index") (number settings "sig-index") p
  | _, _ => False

theorem means_settings {args : List Bytes} {cmd : Cmd} {s : List (Bytes × FlagValue)} (hm : Means args (.run cmd s)) :
    ∃ rest positional, CommandLine (options cmd) (settingsOf s) positional rest := by
  obtain ⟨-, -, rest, positional, -, -, -, -, hp⟩ := run_parsed hm
  exact ⟨rest, positional, (c63_accepted cmd _ s _).1 hp⟩

/-- Primitives that agree on the programs that a command line can start agree on the process. -/
theorem process_congr {F : Fmt} {os : OsText} {L : WordList} {C C' : Crypto} {env : Env} {args : List Bytes}
    (h : ∀ cmd s, Means args (.run cmd s) → program L C' env s cmd = program L C env s cmd ∧
      programV F L C' env s cmd = programV F L C env s cmd ∧ programE F os L C' env s cmd = programE F os L C env s cmd)
    (prompts : List (ResE Bytes)) (rnd : Bytes) (st : St) :
    mainV F os L C' env args prompts rnd = mainV F os L C env args prompts rnd ∧
      main L C' env args st = main L C env args st := by
  constructor
  · have : runCommandV F env.columns .root (fun _ rest => rootExecuteV F os L C' env prompts rnd rest) args =
        runCommandV F env.columns .root (fun _ rest => rootExecuteV F os L C env prompts rnd rest) args := by
      refine runCommandV_congr F _ _ fun s r hne hp => ?_
      rw [parseArgsE_ok] at hp
      cases no_settings hp
      cases r with
      | nil => rfl
      | cons name rest =>
        unfold rootExecuteV
        dsimp only
        by_cases hn : name = str "help"
        · rw [if_pos hn, if_pos hn]
        · rw [if_neg hn, if_neg hn]
          cases hs : subcommands name with
          | none => rfl
          | some cmd =>
            dsimp only
            refine runCommandV_congr F _ _ fun s r hne' hp' => ?_
            rw [parseArgsE_ok] at hp'
            obtain ⟨-, h2, h3⟩ := h cmd s (.positional hne ((c63_accepted .root args [] _).1 hp)
              (.run ((subcommands_iff name cmd).1 hs) hne' ((c63_accepted cmd rest s r).1 hp')))
            show DoneV.mk _ _ = DoneV.mk _ _
            rw [h2, h3]
    unfold mainV
    rw [this]
  · obtain ⟨r, hr⟩ := c58_total args
    rw [c58_status _ _ _ _ _ _ hr, c58_status _ _ _ _ _ _ hr]
    cases r with
    | usage => rfl
    | nothing => rfl
    | run cmd s => simp only [answer, (h cmd s hr).1]

/-- The whole process depends on HKDF only at the labels of the keys it is asked for: if another HKDF gives the same
there, everything written and done is the same, and the exit status. -/
theorem c117_run (F : Fmt) (os : OsText) (L : WordList) (C : Crypto) (h : Bytes → Bytes → Nat → Bytes) (env : Env)
    (args : List Bytes)
    (hh : ∀ cmd s, Means args (.run cmd s) → ∀ k : KeyId, Derives (settingsOf s) cmd k.part →
      ∀ root, h root k.label 32 = C.hkdfExpand root k.label 32)
    (prompts : List (ResE Bytes)) (rnd : Bytes) (st : St) :
    mainV F os L { C with hkdfExpand := h } env args prompts rnd = mainV F os L C env args prompts rnd ∧
      main L { C with hkdfExpand := h } env args st = main L C env args st := by
  refine process_congr (fun cmd s hm => ?_) prompts rnd st
  have hd := hh cmd s hm
  obtain ⟨rest, positional, hcl⟩ := means_settings hm
  cases cmd with
  | root => exact ⟨rfl, rfl, rfl⟩
  | generate =>
    have ho := c63_generate _ _ _ hcl
    have hk : ∀ k : KeyId, AskedFor (generateOptions s).key.only 0 0 0 k.part → ∀ root,
        h root k.label 32 = C.hkdfExpand root k.label 32 := fun k hk => hd k (by rw [ho] at hk; exact hk)
    exact ⟨generate_otherwise L env _ hk, generateV_otherwise F L env _ _ hk, generateE_otherwise F os L env _ hk⟩
  | recover =>
    have ho := c63_recover _ _ _ hcl
    have hk : RecoverAgrees C h (recoverOptions s) := by
      intro h1 h2 h3 k hk
      rw [ho] at h1 h2 h3 hk
      exact hd k ⟨h1, h2, h3, hk⟩
    exact ⟨recover_otherwise L env _ hk, recoverV_otherwise F L env _ _ hk, recoverE_otherwise F os L env _ hk⟩
  | convert =>
    have hp : (otherwise C h).toPhraseCrypto = C.toPhraseCrypto := rfl
    exact ⟨convert_phrase hp L env _, convertV_phrase hp L env _ _, convertE_phrase hp os L env _⟩

/-- `convert` derives no key: it works with Argon2id and the AES of the phrase, and no other primitive. -/
theorem c117_convert (F : Fmt) (os : OsText) (L : WordList) (C C' : Crypto) (h : C'.toPhraseCrypto = C.toPhraseCrypto)
    (env : Env) (args : List Bytes) (hm : ∀ cmd s, Means args (.run cmd s) → cmd = .convert)
    (prompts : List (ResE Bytes)) (rnd : Bytes) (st : St) :
    mainV F os L C' env args prompts rnd = mainV F os L C env args prompts rnd ∧
      main L C' env args st = main L C env args st := by
  refine process_congr (fun cmd s hs => ?_) prompts rnd st
  cases hm cmd s hs
  exact ⟨convert_phrase h L env _, convertV_phrase h L env _ _, convertE_phrase h os L env _⟩

/-- HKDF with another value in one place -/
def Patch (C : Crypto) (root label x : Bytes) : Bytes → Bytes → Nat → Bytes :=
  fun r l n => if r = root ∧ l = label ∧ n = 32 then x else C.hkdfExpand r l n

/-- A key that no run was asked for could be anything: for every 32 bytes there are primitives that make it of these,
and leave every other key of the phrase and every such run as they are, whatever its options, input and random bytes. -/
theorem c117_others {C : Crypto} (hC : C.Lawful) (k : KeyId) (hk : k.Fits) (x : Bytes) (hx : x.length = 32) :
    ∃ C' : Crypto, C'.Lawful ∧ k.secret C' = x ∧
      (∀ part, (KeyId.mk k.seed k.second part).Fits → part ≠ k.part →
        (KeyId.mk k.seed k.second part).secret C' = (KeyId.mk k.seed k.second part).secret C) ∧
      ∀ (F : Fmt) (os : OsText) (L : WordList) (env : Env) (args : List Bytes),
        (∀ cmd s, Means args (.run cmd s) → ¬ Derives (settingsOf s) cmd k.part) →
        ∀ prompts rnd st, mainV F os L C' env args prompts rnd = mainV F os L C env args prompts rnd ∧
          main L C' env args st = main L C env args st := by
  refine ⟨{ C with hkdfExpand := Patch C (Spec.rootKey C k.seed k.second) k.label x }, ?_, ?_, ?_, ?_⟩
  · refine { hC with hkdf_length := fun r l n => ?_ }
    show (Patch _ _ _ _ r l n).length = n
    unfold Patch
    split
    · rename_i he
      rw [hx, he.2.2]
    · exact hC.hkdf_length r l n
  · rw [secret_eq]
    exact if_pos ⟨rfl, rfl, rfl⟩
  · intro part hf hne
    rw [secret_eq, secret_eq]
    refine if_neg fun he => hne (label_inj hf hk he.2.1)
  · intro F os L env args hd prompts rnd st
    refine c117_run F os L C _ env args (fun cmd s hm j hj root => if_neg fun he => ?_) prompts rnd st
    have hs : j.index < 2 ^ 16 := by
      obtain ⟨js, jt, jp⟩ := j
      cases cmd with
      | generate =>
        cases hj <;> exact Nat.two_pow_pos 16
      | recover =>
        obtain ⟨h1, h2, h3, h4⟩ := hj
        dsimp only at h4
        cases h4 <;> simp only [KeyId.index] <;> omega
      | root => exact hj.elim
      | convert => exact hj.elim
    have hp : j.part = k.part := by
      have := label_inj (a := ⟨k.seed, k.second, j.part⟩) (b := k) ⟨hk.1, hk.2.1, hs⟩ hk he.2.1
      exact this
    rw [hp] at hj
    exact hd cmd s hm hj

/-- The keys that were asked for are in the output: if two runs that differ in HKDF alone print the same, the subkeys
asked for have the same secrets (the encryption subkey the same scalar), and the master key the same point, and the same
secret if it was asked for. -/
theorem c117_matters {C : Crypto} (hC : C.Lawful) {h : Bytes → Bytes → Nat → Bytes}
    (hC' : Crypto.Lawful { C with hkdfExpand := h }) {seed second : Nat} {o o' : Output}
    (ho : Printed C seed second o) (ho' : Printed { C with hkdfExpand := h } seed second o') (htext : o.text = o'.text)
    (hpw : o.password = o'.password) (hw : o.wanted = o'.wanted) (hm : o.master = o'.master) :
    (∀ i, o.wanted.signing = some i → (KeyId.mk seed second (.signing i)).secret { C with hkdfExpand := h } =
      (KeyId.mk seed second (.signing i)).secret C) ∧
    (∀ i, o.wanted.authentication = some i → (KeyId.mk seed second (.authentication i)).secret { C with hkdfExpand := h } =
      (KeyId.mk seed second (.authentication i)).secret C) ∧
    (∀ i, o.wanted.encryption = some i → clamped ((KeyId.mk seed second (.encryption i)).secret { C with hkdfExpand := h }) =
      clamped ((KeyId.mk seed second (.encryption i)).secret C)) ∧
    C.ed25519Pub ((KeyId.mk seed second .master).secret { C with hkdfExpand := h }) =
      C.ed25519Pub ((KeyId.mk seed second .master).secret C) ∧
    (o.master → (KeyId.mk seed second .master).secret { C with hkdfExpand := h } =
      (KeyId.mk seed second .master).secret C) := by
  obtain ⟨key, hd, hc⟩ := printed_contains hC ho
  obtain ⟨key', hd', hc'⟩ := printed_contains hC' ho'
  rw [← htext, hd] at hd'
  cases hd'
  rw [← hw, ← hpw, ← hm] at hc'
  obtain ⟨k, subs, i1, i2, -, -, -, i3, -, i4, i5, -⟩ := hc.imported
  obtain ⟨k', subs', j1, j2, -, -, -, j3, -, j4, j5, -⟩ := hc'.imported
  have e : importKey { C with hkdfExpand := h } key = importKey C key := importKey_otherwise C h key
  rw [e, i1] at j1
  cases j1
  have e : unlockSubkey { C with hkdfExpand := h } o.password = unlockSubkey C o.password := rfl
  rw [e, i4] at j4
  cases j4
  have hperm := i5.symm.trans j5
  have l1 : ∀ j : KeyId, (j.secret C).length = 32 := secret_length hC
  have l2 : ∀ j : KeyId, (j.secret { C with hkdfExpand := h }).length = 32 := secret_length hC'
  have back : ∀ s : SubkeyInfo, s ∈ wantedSubkeys C seed second o.wanted →
      (∃ i, o.wanted.encryption = some i ∧ encryptionSubkey { C with hkdfExpand := h } seed second o.wanted.expires i = s) ∨
      (∃ i, o.wanted.authentication = some i ∧
        authenticationSubkey { C with hkdfExpand := h } seed second o.wanted.expires i = s) ∨
      ∃ i, o.wanted.signing = some i ∧ signingSubkey { C with hkdfExpand := h } seed second o.wanted.expires i = s := by
    intro s hs
    have := hperm.mem_iff.1 hs
    simp only [wantedSubkeys, List.mem_append, Option.mem_toList, Option.map_eq_some_iff] at this
    rcases this with (h1 | h1) | h1
    · exact .inl h1
    · exact .inr (.inl h1)
    · exact .inr (.inr h1)
  refine ⟨fun i hi => ?_, fun i hi => ?_, fun i hi => ?_, ?_, fun hma => ?_⟩
  · rcases back (signingSubkey C seed second o.wanted.expires i) (by simp [wantedSubkeys, hi]) with
      ⟨j, -, hj⟩ | ⟨j, -, hj⟩ | ⟨j, hj, hj'⟩
    · exact absurd (congrArg (fun s => s.binding.flags) hj) (by
        simp [encryptionSubkey, signingSubkey])
    · exact absurd (congrArg (fun s => s.binding.flags) hj) (by
        simp [authenticationSubkey, signingSubkey])
    · cases hi.symm.trans hj
      have := congrArg SubkeyInfo.secret hj'
      exact num_inj (by rw [l1, l2]) (Secret.clear.inj this)
  · rcases back (authenticationSubkey C seed second o.wanted.expires i) (by simp [wantedSubkeys, hi]) with
      ⟨j, -, hj⟩ | ⟨j, hj, hj'⟩ | ⟨j, -, hj⟩
    · exact absurd (congrArg (fun s => s.binding.flags) hj) (by
        simp [encryptionSubkey, authenticationSubkey])
    · cases hi.symm.trans hj
      have := congrArg SubkeyInfo.secret hj'
      exact num_inj (by rw [l1, l2]) (Secret.clear.inj this)
    · exact absurd (congrArg (fun s => s.binding.flags) hj) (by
        simp [authenticationSubkey, signingSubkey])
  · rcases back (encryptionSubkey C seed second o.wanted.expires i) (by simp [wantedSubkeys, hi]) with
      ⟨j, hj, hj'⟩ | ⟨j, -, hj⟩ | ⟨j, -, hj⟩
    · cases hi.symm.trans hj
      have := congrArg SubkeyInfo.secret hj'
      exact Secret.clear.inj this
    · exact absurd (congrArg (fun s => s.binding.flags) hj) (by
        simp [encryptionSubkey, authenticationSubkey])
    · exact absurd (congrArg (fun s => s.binding.flags) hj) (by
        simp [encryptionSubkey, signingSubkey])
  · exact congrArg PublicKey.point (j2.symm.trans i2)
  · have h1 := i3 hma
    have h2 := j3 hma
    have e : openSecret { C with hkdfExpand := h } o.password k.secret = openSecret C o.password k.secret := rfl
    rw [e, h1] at h2
    exact (num_inj ((l1 ⟨seed, second, .master⟩).trans (l2 ⟨seed, second, .master⟩).symm) (Option.some.inj h2)).symm

/-! ## examples -/

theorem cycle_means : Means (str "recover" :: cycleArgs) (.run .recover cycleSettings) :=
  .positional (rest := str "recover" :: cycleArgs) (by decide) ((c63_accepted .root _ [] _).1 (by decide +kernel))
    (.run .recover (by decide) ((c63_accepted .recover _ cycleSettings []).1 (by decide +kernel)))

/-- `recover -only signing -sig-index 1` derives no encryption subkey, -/
theorem cycle_derives (i : Nat) : ¬ Derives (settingsOf cycleSettings) .recover (.encryption i) := by
  rintro ⟨-, -, -, h⟩
  cases h with
  | encryption hp hi =>
    obtain ⟨m, subkeys, h1, -, h2⟩ := only_of_parts hp
    rw [show decodeOnlyKeyTypes (text (settingsOf cycleSettings) "only" []) = .ok (false, some [str "signing"]) by
      decide +kernel] at h1
    cases h1
    have := (h2 { Spec.noOptions with subkeys := some [str "signing"] } rfl "encryption" (by simp)).2 hi
    exact absurd (this _ rfl) (by decide)

/-- so whoever has its output, and that of `convert`, knows nothing about the encryption subkeys. -/
example (seed : Nat) (hs : seed < 2 ^ 128) (i : Nat) (hi : i < 2 ^ 16) (x : Bytes) (hx : x.length = 32) :
    ∃ C' : Crypto, C'.Lawful ∧ subkeySeed C' seed 1700000000 "encryption" i = x ∧
      masterSeed C' seed 1700000000 = masterSeed toyCrypto seed 1700000000 ∧
      ∀ (F : Fmt) (os : OsText) (L : WordList) (env : Env) prompts rnd,
        mainV F os L C' env (str "recover" :: cycleArgs) prompts rnd =
          mainV F os L toyCrypto env (str "recover" :: cycleArgs) prompts rnd ∧
        mainV F os L C' env [str "convert"] prompts rnd = mainV F os L toyCrypto env [str "convert"] prompts rnd := by
  have hk : (KeyId.mk seed 1700000000 (.encryption i)).Fits := ⟨hs, by show 1700000000 < 2 ^ 32; norm_num, hi⟩
  obtain ⟨C', h1, h2, h3, h4⟩ := c117_others toyCrypto_lawful _ hk x hx
  refine ⟨C', h1, h2, h3 .master ⟨hs, hk.2.1, Nat.two_pow_pos 16⟩ (by rintro ⟨⟩), fun F os L env prompts rnd => ⟨?_, ?_⟩⟩
  · refine (h4 F os L env _ (fun cmd s hm => ?_) prompts rnd ⟨[], [], []⟩).1
    cases c58_unique _ _ _ hm cycle_means
    exact cycle_derives i
  · refine (h4 F os L env _ (fun cmd s hm => ?_) prompts rnd ⟨[], [], []⟩).1
    cases c58_unique _ _ _ hm (.positional (rest := [str "convert"]) (by decide)
      ((c63_accepted .root _ [] _).1 (by decide +kernel))
      (.run (settings := []) (positional := []) .convert (by decide) ((c63_accepted .convert _ [] []).1 (by decide +kernel))))
    exact id

/-- `convert` with another SHA-1 -/
example (F : Fmt) (os : OsText) (L : WordList) (env : Env) (prompts : List (ResE Bytes)) (rnd : Bytes) (st : St) :
    mainV F os L { toyCrypto with sha1 := fun _ => [] } env [str "convert"] prompts rnd =
      mainV F os L toyCrypto env [str "convert"] prompts rnd :=
  (c117_convert F os L toyCrypto { toyCrypto with sha1 := fun _ => [] } rfl env [str "convert"] (fun cmd s hm => by
    cases c58_unique _ _ _ hm (.positional (rest := [str "convert"]) (by decide)
      ((c63_accepted .root _ [] _).1 (by decide +kernel))
      (.run (settings := []) (positional := []) .convert (by decide) ((c63_accepted .convert _ [] []).1 (by decide +kernel))))
    rfl) prompts rnd st).1

/-- HKDF gives 32 times 9 for the signing subkey with index 1 of this seed. -/
def otherSigning (seed : Nat) : Bytes → Bytes → Nat → Bytes :=
  Patch wideCrypto (Spec.rootKey wideCrypto seed 1700000000) (subkeyInfo "signing" 1) (List.replicate 32 9)

theorem generate_means : Means (str "generate" :: [str "-out-word-file=new"])
    (.run .generate [(str "out-word-file", .string (str "new"))]) :=
  .positional (rest := str "generate" :: [str "-out-word-file=new"]) (by decide)
    ((c63_accepted .root _ [] _).1 (by decide +kernel))
    (.run .generate (by decide) ((c63_accepted .generate _ [(str "out-word-file", .string (str "new"))] []).1 (by decide +kernel)))

theorem any_printed (C : Crypto) {e rnd : Bytes} (he : e.length = 16) (hr : 99 ≤ rnd.length) :
    Printed C (valueOfBytes e) 1700000000 (generated (leaves toyWordList C armorEnv
      (str "generate" :: [str "-out-word-file=new"]) [] (e ++ rnd)).stdout) := by
  have hcl : CommandLine (options .generate) (settingsOf [(str "out-word-file", .string (str "new"))]) []
      [str "-out-word-file=new"] := (c63_accepted .generate _ _ _).1 (by decide +kernel)
  have htyped : Typed false false none none := ⟨rfl, rfl, by rintro p ⟨⟩, by rintro p ⟨⟩⟩
  have := Printed.generate (C := C) (seed := valueOfBytes e) (second := 1700000000) toyWordList_lawful (env := armorEnv)
    goArmor_lawful sampleFS_wf (by decide) hcl generate_asks (by decide) (by decide) (by decide)
    (rnd := e ++ rnd) (e := e) (rnd' := rnd) (.system he rfl) hr htyped (fun _ => ⟨by decide +kernel, rfl⟩) (by decide) rfl
    (by decide)
  exact this

/-- `generate` prints the same key with it: the subkeys are those with index 0, and they are the same. -/
example (e rnd : Bytes) (he : e.length = 16) (hr : 99 ≤ rnd.length) :
    let C' : Crypto := { wideCrypto with hkdfExpand := otherSigning (valueOfBytes e) }
    let start : St := ⟨[], e ++ rnd, []⟩
    main toyWordList C' armorEnv (str "generate" :: [str "-out-word-file=new"]) start =
      main toyWordList wideCrypto armorEnv (str "generate" :: [str "-out-word-file=new"]) start ∧
    (KeyId.mk (valueOfBytes e) 1700000000 (.signing 1)).secret C' = List.replicate 32 9 ∧
    (KeyId.mk (valueOfBytes e) 1700000000 (.signing 0)).secret C' =
      (KeyId.mk (valueOfBytes e) 1700000000 (.signing 0)).secret wideCrypto := by
  generalize hg : valueOfBytes e = seed
  intro C' start
  have hl : C'.Lawful := by
    refine { wideCrypto_lawful with hkdf_length := fun r l n => ?_ }
    show (Patch _ _ _ _ r l n).length = n
    unfold Patch
    split
    · rename_i he
      rw [List.length_replicate, he.2.2]
    · exact wideCrypto_lawful.hkdf_length r l n
  have run := (c117_run sampleFmt sampleOs toyWordList wideCrypto (otherSigning seed) armorEnv
    (str "generate" :: [str "-out-word-file=new"]) (fun cmd s hm k hk root => if_neg fun he => by
      cases c58_unique _ _ _ hm generate_means
      obtain ⟨ks, kt, kp⟩ := k
      have := he.2.1
      cases hk <;> simp only [KeyId.label] at this <;> exact absurd this (by decide +kernel))
    [] [] start).2
  refine ⟨run, ?_, ?_⟩
  · rw [secret_eq]
    exact if_pos ⟨rfl, rfl, rfl⟩
  · have h1 := any_printed wideCrypto he hr
    have h2 := any_printed C' he hr
    rw [hg] at h1 h2
    unfold leaves at h1 h2
    rw [show main toyWordList C' armorEnv (str "generate" :: [str "-out-word-file=new"]) ⟨[], e ++ rnd, []⟩ = _ from run] at h2
    generalize ((atStart armorEnv.fs).run _).stdout = t at h1 h2
    exact (c117_matters wideCrypto_lawful hl h1 h2 rfl rfl rfl rfl).1 0 rfl

end Verif.Props
