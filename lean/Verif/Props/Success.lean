import Verif.Proofs.Success
import Verif.Proofs.Words
import Verif.Props.Failure

/-!
# A command succeeds exactly when nothing stands in its way (C92)

`Verif.Spec.Success` lists what must hold. The hypothesis on the prompts is what a call of userInputPassword
can return (C53): a password of at least one character, or one of three errors.
-/

namespace Verif.Props

open Verif.Model Verif.Model.Cli Verif.Proofs Verif.Spec Verif.Instances

theorem outcome_ok {x : Prog Unit} {prompts : List (Res Bytes)} {rnd : Bytes} :
    x.outcome prompts rnd = .ok () ↔ Succ x ⟨prompts, rnd, []⟩ (fun _ _ => True) := by
  unfold Prog.outcome Succ
  rcases x ⟨prompts, rnd, []⟩ with ⟨o, st⟩
  constructor
  · rintro h
    dsimp only at h
    subst h
    exact ⟨(), st, rfl, trivial⟩
  · rintro ⟨u, st', h, -⟩
    cases h
    rfl

theorem asked_password {b : Bool} {typed : List Bytes} {prompts rest : List (Res Bytes)}
    (ha : Asked b typed) (hp : prompts = typed.map .ok ++ rest) (hps : ∀ r ∈ prompts, PromptResult r) :
    b = decide (typed.headD [] ≠ []) := by
  unfold Asked at ha
  cases b
  · rw [if_neg (by simp), List.length_eq_zero_iff] at ha
    subst ha
    rfl
  · rw [if_pos rfl] at ha
    obtain ⟨p, rfl⟩ := List.length_eq_one_iff.1 ha
    have := hps (.ok p) (by rw [hp]; simp)
    cases this with
    | password h => simpa using h

theorem takes_encrypted {L : WordList} {C : Crypto} (hC : C.Lawful) (n off : Nat)
    (hn : n < 2 ^ 128) (ho : off < 2 ^ 31) (pw : Bytes) (hpw : pw ≠ []) :
    Takes (encodeMnemonicEncrypted L C.toPhraseCrypto ⟨0, n⟩ off pw) 3 := by
  intro rnd
  refine ⟨fun h => ?_, fun h => c09_short_random L C.toPhraseCrypto n off pw hpw rnd h⟩
  match rnd, h with
  | a :: b :: c :: rest, _ =>
    exact ⟨_, rest, (c02_encrypted_layout L hC.phrase n off hn ho pw hpw a b c rest).1, rfl⟩

theorem makes_phrase {L : WordList} (hL : L.Lawful) {C : Crypto} (hC : C.Lawful) {n : Nat} {s : Seed}
    (hs : newSeed 0 (n : Int) = .ok s) {now : Int} {o : Option KeyOptions} {mnk : Mnemonikey}
    (h : new C s now o = .ok mnk) :
    (∃ ws, mnk.encodeMnemonicPlaintext L = .ok ws) ∧
      ∀ pw, pw ≠ [] → Takes (mnk.encodeMnemonicEncrypted L C pw) 3 := by
  obtain ⟨⟨ws, hw, -⟩, -⟩ := phrase_holds hL hC hs h
  refine ⟨⟨ws, hw⟩, fun pw hpw => ?_⟩
  have hseed := new_seed hC hs h
  obtain ⟨second, e, h1, h2, h3, rfl, hx2, hm⟩ := new_shape hC hs h
  have ho : mnk.creationOffset = second - 1672531200 := by
    rw [hm]; exact creationOffset_eq (n : Int) _ second h1 h2
  have ht := takes_encrypted (L := L) hC n (second - 1672531200) (by simpa using hx2) (by omega) pw hpw
  unfold Mnemonikey.encodeMnemonicEncrypted
  rw [hseed, ho]
  exact ht

theorem c92_generate {L : WordList} (hL : L.Lawful) {C : Crypto} (hC : C.Lawful) (env : Env)
    (opts : GenerateOptions) (prompts : List (Res Bytes)) (hps : ∀ r ∈ prompts, PromptResult r)
    (rnd : Bytes) :
    (generateAndPrintKey L C env opts).outcome prompts rnd = .ok () ↔
      GenerateSucceeds env opts prompts rnd := by
  rw [outcome_ok]
  unfold generateAndPrintKey
  rw [succ_bind, succ_lift]
  constructor
  · rintro ⟨ttl, ht, h⟩
    rw [succ_bind, succ_lift] at h
    obtain ⟨⟨m, subkeys⟩, ho, h⟩ := h
    dsimp only at h
    rw [succ_bind, seed_bytes] at h
    obtain ⟨e, left, hb, h⟩ := h
    have hs := seed_new e (seed_length hb)
    rw [succ_bind, succ_lift] at h
    obtain ⟨mnk, hn, h⟩ := h
    obtain ⟨htt, hnow⟩ := (new_ok hC hs).1 ⟨mnk, hn⟩
    obtain ⟨part, hparts, hm, hsel⟩ := good_only ho
    rw [succ_bind, succ_keyPassword] at h
    obtain ⟨forKey, rest, ha, hp, h⟩ := h
    dsimp only at hp h
    have hprot := asked_password ha hp hps
    rw [succ_bind, succ_export hC hs hn hm (hsel _ rfl) true hprot] at h
    obtain ⟨hk, key, left', hl, -, h⟩ := h
    obtain ⟨hplain, henc⟩ := makes_phrase hL hC hs hn
    dsimp only at hk hl h
    rw [succ_bind] at h
    change Succ _ _ (fun ws st' => Succ (generateEnd env opts.outputWordFile key ws) st' (fun _ _ => True)) at h
    rw [succ_words (st := ⟨rest, left', []⟩) hplain henc
      (fun r hr => hps r (by rw [hp]; exact List.mem_append_right _ hr)) (fun ws st' => succ_end)] at h
    obtain ⟨⟨forPhrase, more, ha2, hp2⟩, hr2, hend⟩ := h
    dsimp only at hp2 hr2
    exact ⟨hnow, ⟨part, e, left, ⟨good_ttl.1 ⟨ttl, ht, htt⟩, hparts⟩, hb, by omega⟩,
      ⟨forKey, forPhrase, more, ha, ha2, by rw [hp, hp2, List.map_append, List.append_assoc]⟩, hend.1, hend.2⟩
  · rintro ⟨hnow, ⟨part, e, left, ⟨htt, hparts⟩, hb, hr⟩, ⟨forKey, forPhrase, more, ha, ha2, hp⟩, hsave, hshow⟩
    have hs := seed_new e (seed_length hb)
    obtain ⟨ttl, ht, htt⟩ := good_ttl.2 htt
    obtain ⟨m, subkeys, ho, hm, hsel⟩ := only_of_parts hparts
    obtain ⟨mnk, hn⟩ := (new_ok hC (o := generatedOptions opts.key ttl subkeys) hs).2 ⟨htt, hnow⟩
    rw [List.map_append, List.append_assoc] at hp
    have hprot := asked_password ha hp hps
    obtain ⟨hplain, henc⟩ := makes_phrase hL hC hs hn
    refine ⟨ttl, ht, ?_⟩
    rw [succ_bind, succ_lift]
    refine ⟨(m, subkeys), ho, ?_⟩
    dsimp only
    rw [succ_bind, seed_bytes]
    refine ⟨e, left, hb, ?_⟩
    rw [succ_bind, succ_lift]
    refine ⟨mnk, hn, ?_⟩
    rw [succ_bind, succ_keyPassword]
    refine ⟨forKey, _, ha, hp, ?_⟩
    dsimp only
    rw [succ_bind, succ_export hC hs hn hm (hsel _ rfl) true hprot]
    obtain ⟨key, left', h1, h2⟩ := (takes_export hC hs hn hm (hsel _ rfl) true (forKey.headD []) left).1
      (by rw [← hprot]; omega)
    rw [← hprot] at h2
    refine ⟨by dsimp only; omega, key, left', h2, h1, ?_⟩
    dsimp only
    rw [succ_bind]
    change Succ _ _ (fun ws st' => Succ (generateEnd env opts.outputWordFile key ws) st' (fun _ _ => True))
    rw [succ_words (st := ⟨forPhrase.map Res.ok ++ more, left', []⟩) hplain henc
      (fun r hr => hps r (by rw [hp]; exact List.mem_append_right _ hr)) (fun ws st' => succ_end)]
    exact ⟨⟨forPhrase, more, ha2, rfl⟩, by dsimp only; omega, hsave, hshow⟩

theorem c92_recover {L : WordList} (hL : L.Lawful) {C : Crypto} (hC : C.Lawful) (env : Env)
    (opts : RecoverOptions) (prompts : List (Res Bytes)) (hps : ∀ r ∈ prompts, PromptResult r)
    (rnd : Bytes) :
    (recoverAndPrintKey L C env opts).outcome prompts rnd = .ok () ↔
      RecoverSucceeds L (offer L) (indexOf L) C.toPhraseCrypto env opts prompts rnd := by
  have inTime : ∀ dm : DecodedMnemonic, dm.creationOffset < 2 ^ 31 → 1672531200 * 10 ^ 9 ≤ dm.creation ∧
      dm.creation ≤ (1672531200 + (2 ^ 31 - 1)) * 10 ^ 9 := by
    intro dm hd
    rw [creation_eq dm (1672531200 + dm.creationOffset) (by omega) (by omega) (by omega)]
    omega
  rw [outcome_ok]
  unfold recoverAndPrintKey
  rw [succ_bind, succ_lift]
  constructor
  · rintro ⟨ttl, ht, h⟩
    dsimp only at h
    split at h
    · obtain ⟨a, h1, -⟩ := succ_lift.1 h
      cases h1
    rename_i hi
    unfold maxSubkeyIndex at hi
    rw [succ_bind, succ_lift] at h
    obtain ⟨⟨m, subkeys⟩, ho, h⟩ := h
    dsimp only at h
    rw [succ_bind] at h
    obtain ⟨⟨seed, dm⟩, st1, hd, h⟩ := h
    obtain ⟨words, unlocking, hw, hu, hp, hr, n, rfl, hn, hoff⟩ := decode_unlocks hL hC hd
    have hs : newSeed 0 (n : Int) = .ok ⟨0, n⟩ := (newSeed_ok_iff _ _ _).2 ⟨rfl, by simpa using hn, rfl⟩
    dsimp only at h hp hr hoff
    rw [succ_bind, succ_lift] at h
    obtain ⟨mnk, hnew, h⟩ := h
    obtain ⟨htt, -⟩ := (new_ok hC hs).1 ⟨mnk, hnew⟩
    obtain ⟨part, hparts, hm, hsel⟩ := good_only ho
    rw [succ_bind, succ_keyPassword] at h
    obtain ⟨forKey, rest, ha, hp2, h⟩ := h
    have hprot := asked_password ha hp2 (fun r hr => hps r (by rw [hp]; exact List.mem_append_right _ hr))
    rw [succ_bind, succ_export hC hs hnew hm (hsel _ rfl) _ hprot] at h
    obtain ⟨hk, -⟩ := h
    dsimp only at hk
    rw [hr] at hk
    exact ⟨by omega, ⟨part, ⟨good_ttl.1 ⟨ttl, ht, htt⟩, hparts⟩, hk⟩, words, unlocking, forKey, rest, (gets_iff hL).1 hw, hu, ha,
      by rw [hp, hp2, List.map_append, List.append_assoc]⟩
  · rintro ⟨hi, ⟨part, ⟨htt, hparts⟩, hr⟩, words, unlocking, forKey, more, hw, hu, ha, hp⟩
    obtain ⟨ttl, ht, htt⟩ := good_ttl.2 htt
    obtain ⟨m, subkeys, ho, hm, hsel⟩ := only_of_parts hparts
    rw [List.map_append, List.append_assoc] at hp
    have hprot := asked_password ha rfl (fun r hr => hps r (by rw [hp]; exact List.mem_append_right _ hr))
    refine ⟨ttl, ht, ?_⟩
    dsimp only
    rw [if_neg (by unfold maxSubkeyIndex; omega), succ_bind, succ_lift]
    refine ⟨(m, subkeys), ho, ?_⟩
    dsimp only
    rw [succ_bind]
    obtain ⟨⟨seed, dm⟩, hd⟩ := unlocks_decode hL hC ((gets_iff hL).2 hw) hu (forKey.map .ok ++ more) rnd []
    rw [← hp] at hd
    refine ⟨_, _, hd, ?_⟩
    obtain ⟨-, -, -, -, -, -, n, e, hn, hoff⟩ := decode_unlocks hL hC hd
    dsimp only at e hoff ⊢
    subst e
    have hs : newSeed 0 (n : Int) = .ok ⟨0, n⟩ := (newSeed_ok_iff _ _ _).2 ⟨rfl, by simpa using hn, rfl⟩
    obtain ⟨mnk, hnew⟩ := (new_ok hC (o := optionsFor opts.key opts.encIndex opts.authIndex opts.sigIndex ttl
      subkeys) hs).2 ⟨htt, inTime dm hoff⟩
    rw [succ_bind, succ_lift]
    refine ⟨mnk, hnew, ?_⟩
    rw [succ_bind, succ_keyPassword]
    refine ⟨forKey, more, ha, rfl, ?_⟩
    dsimp only
    rw [succ_bind, succ_export hC hs hnew hm (hsel _ rfl) _ hprot]
    obtain ⟨key, left', h1, h2⟩ := (takes_export hC hs hnew hm (hsel _ rfl) opts.selfCert (forKey.headD []) rnd).1
      (by rw [← hprot]; omega)
    rw [← hprot] at h2
    exact ⟨hr, key, left', h2, h1, (), _, printKey_run _ _, trivial⟩

theorem c92_convert {L : WordList} (hL : L.Lawful) {C : Crypto} (hC : C.Lawful) (env : Env)
    (opts : ConvertOptions) (prompts : List (Res Bytes)) (hps : ∀ r ∈ prompts, PromptResult r)
    (rnd : Bytes) :
    (decodeAndConvertPhrase L C env opts).outcome prompts rnd = .ok () ↔
      ConvertSucceeds L (offer L) (indexOf L) C.toPhraseCrypto env opts prompts rnd := by
  constructor
  · intro h
    have hfile := (c81_convert hL hC env opts prompts hps rnd).2.2.2 h
    rw [outcome_ok] at h
    unfold decodeAndConvertPhrase at h
    rw [succ_bind] at h
    obtain ⟨⟨seed, dm⟩, st1, hd, h⟩ := h
    obtain ⟨words, unlocking, hw, hu, hp, hr, n, rfl, hn, hoff⟩ := decode_unlocks hL hC hd
    have hs : newSeed 0 (n : Int) = .ok ⟨0, n⟩ := (newSeed_ok_iff _ _ _).2 ⟨rfl, by simpa using hn, rfl⟩
    obtain ⟨ws, -, hplain, -⟩ := c01_plaintext_round_trip hL 0 n (by omega) ⟨0, n⟩ hs _ hoff
    dsimp only at h hp hr hoff
    simp only [hfile, if_true] at h
    rw [succ_bind, succ_words ⟨ws, hplain⟩ (fun pw hpw => takes_encrypted hC n _ hn hoff pw hpw)
      (fun r hr => hps r (by rw [hp]; exact List.mem_append_right _ hr)) (fun ws st' => succ_print)] at h
    obtain ⟨⟨forPhrase, more, ha2, hp2⟩, hr2, hend⟩ := h
    rw [hr] at hr2
    exact ⟨hfile, hr2, ⟨words, unlocking, forPhrase, more, (gets_iff hL).1 hw, hu, ha2,
      by rw [hp, hp2, List.map_append, List.append_assoc]⟩, hend⟩
  · rintro ⟨hfile, hr, ⟨words, unlocking, forPhrase, more, hw, hu, ha, hp⟩, hshow⟩
    rw [List.map_append, List.append_assoc] at hp
    rw [outcome_ok]
    unfold decodeAndConvertPhrase
    rw [succ_bind]
    obtain ⟨⟨seed, dm⟩, hd⟩ := unlocks_decode hL hC ((gets_iff hL).2 hw) hu (forPhrase.map .ok ++ more) rnd []
    rw [← hp] at hd
    refine ⟨_, _, hd, ?_⟩
    obtain ⟨-, -, -, -, -, -, n, e, hn, hoff⟩ := decode_unlocks hL hC hd
    dsimp only at e hoff ⊢
    subst e
    have hs : newSeed 0 (n : Int) = .ok ⟨0, n⟩ := (newSeed_ok_iff _ _ _).2 ⟨rfl, by simpa using hn, rfl⟩
    obtain ⟨ws, -, hplain, -⟩ := c01_plaintext_round_trip hL 0 n (by omega) ⟨0, n⟩ hs _ hoff
    simp only [hfile, if_true]
    rw [succ_bind, succ_words ⟨ws, hplain⟩ (fun pw hpw => takes_encrypted hC n _ hn hoff pw hpw)
      (fun r hr => hps r (by rw [hp]; exact List.mem_append_right _ hr)) (fun ws st' => succ_print)]
    exact ⟨⟨forPhrase, more, ha, rfl⟩, hr, hshow⟩

/-- The process that runs a command exits with status 0 exactly if the command succeeds. -/
theorem c92_process {L : WordList} (hL : L.Lawful) {C : Crypto} (hC : C.Lawful) (env : Env) (args : List Bytes)
    (cmd : Cmd) (settings : List (Bytes × FlagValue)) (h : Means args (.run cmd settings))
    (prompts : List (Res Bytes)) (hps : ∀ r ∈ prompts, PromptResult r) (rnd : Bytes) :
    let succeeds := (main L C env args ⟨prompts, rnd, []⟩).2.1 = .exited 0
    (cmd = .generate → (succeeds ↔ GenerateSucceeds env (generateOptions settings) prompts rnd)) ∧
    (cmd = .recover → (succeeds ↔
      RecoverSucceeds L (offer L) (indexOf L) C.toPhraseCrypto env (recoverOptions settings) prompts rnd)) ∧
    (cmd = .convert → (succeeds ↔
      ConvertSucceeds L (offer L) (indexOf L) C.toPhraseCrypto env (convertOptions settings) prompts rnd)) := by
  have key : (main L C env args ⟨prompts, rnd, []⟩).2.1 = .exited 0 ↔
      (program L C env settings cmd).outcome prompts rnd = .ok () := by
    have hsh : ∀ code st, code ≠ 0 → (shown env cmd code st).2.1 ≠ .exited 0 := by
      intro code st hc
      unfold shown
      split
      · simpa using hc
      · simp
    rw [c58_status L C env _ args _ h]
    unfold Prog.outcome
    simp only [answer]
    generalize program L C env settings cmd ⟨prompts, rnd, []⟩ = p
    obtain ⟨o, st⟩ := p
    cases o with
    | ok u => simp
    | err e =>
      simp only [reduceCtorEq, iff_false]
      cases e <;> first | exact hsh 1 st (by decide) | simp
    | panic p => simp
    | waits c => simp
    | loops => simp
  refine ⟨?_, ?_, ?_⟩
  · rintro rfl
    exact key.trans (c92_generate hL hC env _ prompts hps rnd)
  · rintro rfl
    exact key.trans (c92_recover hL hC env _ prompts hps rnd)
  · rintro rfl
    exact key.trans (c92_convert hL hC env _ prompts hps rnd)

/-! Examples -/

/-- A key with two parts under a password -/
def twoParts : GenerateOptions :=
  { key := { sampleFlags with encryptKeys := true, only := str "signing,encryption" }
    outputWordFile := str "new", encryptPhrase := true, unsafeEntropy := [] }

theorem twoParts_random {part : String → Prop} (h : Parts twoParts.key.only part) :
    randomForKey true part = 48 := by
  obtain ⟨m, subkeys, h1, h2, h3⟩ := only_of_parts h
  have e : decodeOnlyKeyTypes twoParts.key.only = .ok (false, some [str "signing", str "encryption"]) := by decide
  rw [e] at h1
  cases h1
  have h3 := h3 { noOptions with subkeys := some [str "signing", str "encryption"] } rfl
  have p0 : ¬ part "master" := fun h => by have := h2.2 h; cases this
  have p1 : part "encryption" := (h3 _ (by simp)).1 (by decide)
  have p2 : ¬ part "authentication" := fun h => absurd ((h3 _ (by simp)).2 h) (by decide)
  have p3 : part "signing" := (h3 _ (by simp)).1 (by decide)
  unfold randomForKey
  simp [p0, p1, p2, p3]

theorem twoParts_good : ∃ part, GoodFlags twoParts.key part := by
  obtain ⟨part, h, -⟩ := good_only (show decodeOnlyKeyTypes twoParts.key.only =
    .ok (false, some [str "signing", str "encryption"]) by decide)
  exact ⟨part, good_ttl.1 ⟨63072000 * 10 ^ 9, by decide +kernel, by decide⟩, h⟩

/-- Two passwords typed: 16 random bytes for the seed, 24 for each of the two parts and 3 for the phrase are
enough, and none of them can be spared. An aborted prompt or the name of an existing file makes it fail. -/
example :
    let run (file : Bytes) prompts k := (generateAndPrintKey toyWordList toyCrypto sampleEnv
      { twoParts with outputWordFile := file }).outcome prompts (List.replicate k 7)
    run (str "new") [.ok [1], .ok [2], .err .aborted] 67 = .ok () ∧
    run (str "new") [.ok [1], .ok [2], .err .aborted] 66 ≠ .ok () ∧
    run (str "new") [.ok [1], .err .aborted] 67 ≠ .ok () ∧
    run (str "old") [.ok [1], .ok [2]] 67 ≠ .ok () := by
  have pw : ∀ b : Byte, PromptResult (.ok [b]) := fun b => .password (by simp)
  have ab : PromptResult (.err .aborted) := .failed (by simp)
  have ps1 : ∀ r ∈ [Res.ok [1], .ok [2], .err .aborted], PromptResult r := by
    intro r hr
    simp only [List.mem_cons, List.not_mem_nil, or_false] at hr
    rcases hr with rfl | rfl | rfl
    · exact pw 1
    · exact pw 2
    · exact ab
  have iff := fun file prompts hps k => c92_generate toyWordList_lawful toyCrypto_lawful sampleEnv
    { twoParts with outputWordFile := file } prompts hps (List.replicate k 7)
  dsimp only
  refine ⟨(iff _ _ ps1 _).2 ?_, fun h => ?_, fun h => ?_, fun h => ?_⟩
  · obtain ⟨part, hg⟩ := twoParts_good
    exact ⟨by decide, ⟨part, List.replicate 16 7, List.replicate 51 7, hg, .system (by simp) rfl,
      by rw [show twoParts.key.encryptKeys = true from rfl, twoParts_random hg.only]; decide⟩,
      ⟨[[1]], [[2]], [.err .aborted], rfl, rfl, rfl⟩, fun _ => ⟨rfl, by decide, rfl, rfl⟩, fun h => by cases h⟩
  · obtain ⟨-, ⟨part, e, left, hg, hs, hr⟩, -⟩ := (iff _ _ ps1 _).1 h
    have hl : left.length = 50 := by
      have hs : SeedBytes sampleEnv (List.replicate 66 7) [] e left := hs
      generalize hu : ([] : Bytes) = u at hs
      cases hs with
      | system he hr =>
        have := congrArg List.length hr
        simp only [List.length_replicate, List.length_append] at this
        omega
      | stdin => cases hu
      | file hne => exact absurd hu.symm hne
    rw [show ({ twoParts with outputWordFile := str "new" } : GenerateOptions).key.encryptKeys = true from rfl,
      twoParts_random hg.only, hl] at hr
    exact absurd hr (by decide)
  · obtain ⟨-, -, ⟨k, p, more, hk, hp, e⟩, -⟩ := (iff _ _ (fun r hr => ps1 r (by
      simp only [List.mem_cons, List.not_mem_nil, or_false] at hr ⊢
      rcases hr with rfl | rfl <;> simp)) _).1 h
    obtain ⟨a, rfl⟩ := List.length_eq_one_iff.1 hk
    obtain ⟨b, rfl⟩ := List.length_eq_one_iff.1 hp
    simp at e
  · obtain ⟨-, -, -, hs, -⟩ := (iff _ _ (fun r hr => ps1 r (by
      simp only [List.mem_cons, List.not_mem_nil, or_false] at hr ⊢
      rcases hr with rfl | rfl <;> simp)) _).1 h
    exact absurd (hs (by decide)).2.1 (by decide)

/-- The encrypted phrase of a sample run, entered line by line -/
def typedEnv : Env := { sampleEnv with stdin := sampleEncrypted.flatMap (· ++ [10]), columns := 17 }

theorem typed_words : Gets toyWordList (offer toyWordList) typedEnv ⟨true, []⟩ sampleEncrypted :=
  (gets_iff toyWordList_lawful).1 (by decide +kernel)

theorem typed_unlocks :
    Unlocks (indexOf toyWordList) toyCrypto.toPhraseCrypto sampleEncrypted [[2], [1]] := by
  refine .encrypted (wrong := [[2]]) (right := [1]) (seed := 9341084582143408800955381380479911687)
    (offset := 27468800) ?_
    ⟨52006880893628896709768386229699380622, 460551, 16, by decide +kernel, by decide +kernel⟩
  intro p hp s o h
  rw [List.mem_singleton] at hp
  subst hp
  obtain ⟨e, salt, v, hr, hd⟩ := h
  have : readPhrase (indexOf toyWordList) sampleEncrypted =
      .ok (.encrypted 52006880893628896709768386229699380622 460551 16 27468800) := by decide +kernel
  rw [this] at hr
  cases hr
  rw [show decryptSeed toyCrypto.toPhraseCrypto [2] 52006880893628896709768386229699380622 460551 16 27468800 =
    none by decide +kernel] at hd
  cases hd

theorem typed_prompts : ∀ r ∈ [Res.ok [2], .ok [1], .ok [3]], PromptResult r := by
  intro r hr
  simp only [List.mem_cons, List.not_mem_nil, or_false] at hr
  rcases hr with rfl | rfl | rfl <;> exact .password (by simp)

/-- Three passwords typed, a wrong one and the right one for the phrase, and one for the key: recover needs 48
random bytes for two parts, convert 3, whatever they are. -/
example :
    (∀ rnd : Bytes, 48 ≤ rnd.length → (recoverAndPrintKey toyWordList toyCrypto typedEnv
      { key := twoParts.key, input := ⟨true, []⟩, selfCert := false, encIndex := 65535, authIndex := 0
        sigIndex := 1 }).outcome [.ok [2], .ok [1], .ok [3]] rnd = .ok ()) ∧
    (∀ rnd : Bytes, 3 ≤ rnd.length ↔ (decodeAndConvertPhrase toyWordList toyCrypto typedEnv
      { input := ⟨true, []⟩, outputWordFile := [], encryptPhrase := true }).outcome
        [.ok [2], .ok [1], .ok [3]] rnd = .ok ()) := by
  constructor
  · intro rnd hr
    refine (c92_recover toyWordList_lawful toyCrypto_lawful typedEnv _ _ typed_prompts rnd).2 ?_
    obtain ⟨part, hg⟩ := twoParts_good
    exact ⟨by decide, ⟨part, hg, by
      rw [show twoParts.key.encryptKeys = true from rfl, twoParts_random hg.only]; exact hr⟩,
      sampleEncrypted, [[2], [1]], [[3]], [], typed_words, typed_unlocks, rfl, rfl⟩
  · intro rnd
    rw [c92_convert toyWordList_lawful toyCrypto_lawful typedEnv _ _ typed_prompts rnd]
    exact ⟨fun h => ⟨rfl, h, ⟨sampleEncrypted, [[2], [1]], [[3]], [], typed_words, typed_unlocks, rfl, rfl⟩,
      by decide⟩, fun h => h.random⟩

/-- `convert -simple -encrypt-phrase` at the level of the process -/
example (rnd : Bytes) :
    (main toyWordList toyCrypto typedEnv [str "convert", str "-simple", str "-encrypt-phrase"]
      ⟨[.ok [2], .ok [1], .ok [3]], rnd, []⟩).2.1 = .exited 0 ↔ 3 ≤ rnd.length := by
  have hm : Means [str "convert", str "-simple", str "-encrypt-phrase"]
      (.run .convert [(str "simple", .bool true), (str "encrypt-phrase", .bool true)]) :=
    .positional (by decide) (.positional _ ((classify_positional _).1 (by decide)))
      (.run (positional := []) .convert (by decide)
        ((c63_accepted .convert _ _ _).1 (by decide +kernel)))
  rw [(c92_process toyWordList_lawful toyCrypto_lawful typedEnv _ _ _ hm _ typed_prompts rnd).2.2 rfl]
  exact ⟨fun h => h.random, fun h => ⟨rfl, h,
    ⟨sampleEncrypted, [[2], [1]], [[3]], [], typed_words, typed_unlocks, rfl, rfl⟩, by decide⟩⟩

end Verif.Props
