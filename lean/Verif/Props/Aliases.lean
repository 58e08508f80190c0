import Verif.Proofs.Aliases
import Verif.Props.Renaming

/-! # What is shown of a phrase's password (C123) -/

namespace Verif.Props

open Verif.Model Verif.Model.Cli Verif.Spec Verif.Spec.OpenPGP Verif.Proofs Verif.Instances Verif.Armor

/-- `generate`: with an alias for the phrase's password, and Argon2id that knows the aliases, everything written and done
is the same, and the exit status. The answer before it, the password of the key, is left as it is. -/
theorem c123_generate (π : Aliases) (C : Crypto) (F : Fmt) (os : OsText) (L : WordList) (env : Env) (args : List Bytes)
    (n : Nat) (h : ∀ cmd s, Means args (.run cmd s) → cmd = .generate ∧
      n = if switchedOn (settingsOf s) "encrypt-keys" false then 1 else 0)
    (prompts : List (ResE Bytes)) (rnd : Bytes) :
    mainV F os L (aliased π C) env args (prompts.take n ++ (prompts.drop n).map π.answer) rnd =
      mainV F os L C env args prompts rnd := by
  refine process_same rfl fun cmd s hm => ?_
  obtain ⟨rfl, hn⟩ := h cmd s hm
  obtain ⟨rest', positional, hcl⟩ := means_settings hm
  have e1 : n = keyQuestions (generateOptions s).key.encryptKeys := by
    rw [hn, c63_generate _ _ _ hcl]
    rfl
  subst e1
  constructor
  · show (generateAndPrintKeyV F L (aliased π C) env (generateOptions s) _
        ⟨(keep π _ prompts).map ResE.plain, rnd, []⟩).2.events = _
    rw [keep_plain]
    exact (generateV_aliased π L env F (generateOptions s) (verboseOption s) (prompts.map ResE.plain) rnd []).2.1
  · have := (generateE_aliased (C := C) π L env F os (generateOptions s) prompts rnd []).1
    rw [mapOutE_id] at this
    exact this

/-- `convert`: all that is entered are passwords of phrases. -/
theorem c123_convert (π : Aliases) (C : Crypto) (F : Fmt) (os : OsText) (L : WordList) (env : Env) (args : List Bytes)
    (h : ∀ cmd s, Means args (.run cmd s) → cmd = .convert) (prompts : List (ResE Bytes)) (rnd : Bytes) :
    mainV F os L (aliased π C) env args (prompts.map π.answer) rnd = mainV F os L C env args prompts rnd := by
  refine process_same rfl fun cmd s hm => ?_
  obtain rfl := h cmd s hm
  constructor
  · show (decodeAndConvertPhraseV L (aliased π C) env (convertOptions s) _
        ⟨(keep π 0 prompts).map ResE.plain, rnd, []⟩).2.events = _
    rw [keep_plain]
    exact (convertV_aliased π L env os (convertOptions s) (verboseOption s) (prompts.map ResE.plain) rnd []).2.1
  · have := (convertE_aliased (C := C) π L env os (convertOptions s) prompts rnd []).1
    rw [mapOutE_id] at this
    exact this

/-- `recover`: aliases are entered as often as the password of the phrase was asked for; what comes after is the password
of the key. -/
theorem c123_recover (π : Aliases) (C : Crypto) (F : Fmt) (os : OsText) (L : WordList) (env : Env) (args : List Bytes)
    (h : ∀ cmd s, Means args (.run cmd s) → cmd = .recover) (prompts : List (ResE Bytes)) (rnd : Bytes) (k : Nat)
    (hk : k = decryptions (mainV F os L C env args prompts rnd).1) :
    mainV F os L (aliased π C) env args ((prompts.take k).map π.answer ++ prompts.drop k) rnd =
      mainV F os L C env args prompts rnd := by
  refine process_same rfl fun cmd s hm => ?_
  obtain rfl := h cmd s hm
  obtain ⟨-, -, texts, ht, -⟩ := c106_run F os L C env args .recover s hm prompts rnd
  rw [ht, decryptions_append, decryptions_err, Nat.add_zero] at hk
  exact recover_aliased π L env F os (recoverOptions s) (verboseOption s) prompts rnd k hk

/-- Two passwords exchanged -/
def exchangedPasswords (p p' : Bytes) (h : p ≠ []) (h' : p' ≠ []) : Aliases where
  perm := Equiv.swap p p'
  empty := Equiv.swap_apply_of_ne_of_ne h.symm h'.symm

/-- An answer at a prompt, the two passwords exchanged -/
def exchangeAnswer (p p' : Bytes) : ResE Bytes → ResE Bytes
  | .ok q => .ok (if q = p then p' else if q = p' then p else q)
  | .err e => .err e
  | .panic e => .panic e

theorem answer_exchange {p p' : Bytes} (h : p ≠ []) (h' : p' ≠ []) :
    (exchangedPasswords p p' h h').answer = exchangeAnswer p p' := by
  funext r
  cases r with
  | ok q =>
    show ResE.ok (Equiv.swap p p' q) = _
    rw [Equiv.swap_apply_def]
    rfl
  | _ => rfl

/-- Whatever was seen of a phrase's password, it could have been any other: for every two passwords there are primitives
with which they have changed places, in all runs at once. They differ from the given ones in what Argon2id makes of these
two, and only where it makes 17 bytes. -/
theorem c123_passwords {C : Crypto} (hC : C.Lawful) {p p' : Bytes} (h : p ≠ []) (h' : p' ≠ []) :
    ∃ C' : Crypto, C'.Lawful ∧ { C' with argon2id := C.argon2id } = C ∧
      (∀ q s t m th n, n ≠ 17 ∨ q ≠ p ∧ q ≠ p' → C'.argon2id q s t m th n = C.argon2id q s t m th n) ∧
      ∀ (F : Fmt) (os : OsText) (L : WordList) (env : Env) (args : List Bytes) (prompts : List (ResE Bytes)) (rnd : Bytes)
        (cmd : Cmd) (s : List (Bytes × FlagValue)), Means args (.run cmd s) →
        ∃ before during : Nat,
          before = (if cmd = .generate ∧ switchedOn (settingsOf s) "encrypt-keys" false = true then 1 else 0) ∧
          (cmd = .recover → during = decryptions (mainV F os L C env args prompts rnd).1) ∧
          (cmd ≠ .recover → during = prompts.length) ∧
          mainV F os L C' env args
              (prompts.take before ++ ((prompts.drop before).take during).map (exchangeAnswer p p') ++
                (prompts.drop before).drop during) rnd =
            mainV F os L C env args prompts rnd := by
  refine ⟨aliased (exchangedPasswords p p' h h') C, aliased_lawful _ hC, rfl, fun q s t m th n hq => ?_,
    fun F os L env args prompts rnd cmd s hm => ?_⟩
  · show (if n = 17 then C.argon2id ((Equiv.swap p p').symm q) s t m th n else C.argon2id q s t m th n) = _
    split
    · next hn =>
      obtain hq | ⟨h1, h2⟩ := hq
      · exact absurd hn hq
      · rw [Equiv.symm_swap, Equiv.swap_apply_of_ne_of_ne h1 h2]
    · rfl
  · rw [← answer_exchange h h']
    have all : ∀ n, (prompts.drop n).take prompts.length = prompts.drop n :=
      fun n => List.take_of_length_le (by simp)
    have none : ∀ n, (prompts.drop n).drop prompts.length = [] := fun n => List.drop_of_length_le (by simp)
    cases cmd with
    | root =>
      cases hm with
      | positional _ _ ha => cases ha with
        | run hn _ _ => cases hn
    | generate =>
      refine ⟨_, prompts.length, rfl, (by rintro ⟨⟩), fun _ => rfl, ?_⟩
      rw [all, none, List.append_nil]
      refine c123_generate _ C F os L env args _ (fun cmd' s' hm' => ?_) prompts rnd
      cases c58_unique _ _ _ hm' hm
      exact ⟨rfl, by simp⟩
    | convert =>
      refine ⟨0, prompts.length, (by simp), (by rintro ⟨⟩), fun _ => rfl, ?_⟩
      rw [all, none, List.append_nil]
      exact c123_convert _ C F os L env args (fun cmd' s' hm' => by cases c58_unique _ _ _ hm' hm; rfl) prompts rnd
    | recover =>
      refine ⟨0, _, (by simp), fun _ => rfl, fun hne => absurd rfl hne, ?_⟩
      exact c123_recover _ C F os L env args (fun cmd' s' hm' => by cases c58_unique _ _ _ hm' hm; rfl) prompts rnd _ rfl

/-! ## examples -/

/-- `hunter2` and `correct horse` exchanged -/
def twoPasswords : Aliases := exchangedPasswords (str "hunter2") (str "correct horse") (by decide) (by decide)

theorem twoPasswords_answer : twoPasswords.answer (.ok (str "hunter2")) = .ok (str "correct horse") :=
  congrArg ResE.ok (Equiv.swap_apply_left _ _)

/-- The phrase encrypted with the one password is shown as with the other. -/
example (rnd : Bytes) :
    mainV sampleFmt sampleOs toyWordList (aliased twoPasswords toyCrypto) sampleEnv [str "generate", str "-encrypt-phrase"]
        [.ok (str "correct horse")] rnd =
      mainV sampleFmt sampleOs toyWordList toyCrypto sampleEnv [str "generate", str "-encrypt-phrase"]
        [.ok (str "hunter2")] rnd := by
  have := c123_generate twoPasswords toyCrypto sampleFmt sampleOs toyWordList sampleEnv
    [str "generate", str "-encrypt-phrase"] 0 (fun cmd s hm => by
      cases c58_unique _ _ _ hm (encryptPhrase_means (cmd := .generate) (by simp))
      exact ⟨rfl, by decide +kernel⟩) [.ok (str "hunter2")] rnd
  rwa [show ([.ok (str "hunter2")] : List (ResE Bytes)).take 0 ++
    (([.ok (str "hunter2")] : List (ResE Bytes)).drop 0).map twoPasswords.answer = [.ok (str "correct horse")] from
      congrArg (· :: []) twoPasswords_answer] at this

example (rnd : Bytes) :
    mainV sampleFmt sampleOs toyWordList (aliased twoPasswords toyCrypto) encryptedEnv [str "convert", str "-encrypt-phrase"]
        ([.ok (str "abc"), .ok (str "hunter2")].map twoPasswords.answer) rnd =
      mainV sampleFmt sampleOs toyWordList toyCrypto encryptedEnv [str "convert", str "-encrypt-phrase"]
        [.ok (str "abc"), .ok (str "hunter2")] rnd :=
  c123_convert twoPasswords toyCrypto sampleFmt sampleOs toyWordList encryptedEnv _ (fun cmd s hm => by
      cases c58_unique _ _ _ hm (encryptPhrase_means (cmd := .convert) (by simp)); rfl) _ rnd

/-- With no prompt answered `recover` asks once for the phrase's password. -/
example : decryptions (mainV sampleFmt sampleOs toyWordList toyCrypto encryptedEnv [str "recover"] [] []).1 = 1 := by
  decide +kernel

/-- A wrong password, then another: `recover` asks again, and so it does with the aliases. -/
example (rnd : Bytes) (p : ResE Bytes) : ∃ k, k = decryptions
      (mainV sampleFmt sampleOs toyWordList toyCrypto encryptedEnv [str "recover"] [.ok (str "hunter2"), p] rnd).1 ∧
    mainV sampleFmt sampleOs toyWordList (aliased twoPasswords toyCrypto) encryptedEnv [str "recover"]
        (([.ok (str "hunter2"), p].take k).map twoPasswords.answer ++ [.ok (str "hunter2"), p].drop k) rnd =
      mainV sampleFmt sampleOs toyWordList toyCrypto encryptedEnv [str "recover"] [.ok (str "hunter2"), p] rnd :=
  ⟨_, rfl, c123_recover twoPasswords toyCrypto sampleFmt sampleOs toyWordList encryptedEnv _ (fun cmd s hm => by
      cases c58_unique _ _ _ hm recover_means; rfl) _ rnd _ rfl⟩

end Verif.Props
