import Verif.Spec.Transcript
import Verif.Proofs.PhraseScreen

/-! # Transcripts of programs, part by part -/

namespace Verif.Proofs

open Verif.Model Verif.Model.Cli Verif.Spec

/-- Whatever happens, what is seen of the program is the beginning of one of the transcripts; all of it if the
program ends well, and then one prompt has been answered for each password asked for. -/
def Plays {α : Type} (x : ProgV α) (T : List Ev → Prop) : Prop :=
  ∀ st, ∃ t s, T t ∧ (x st).2.events.filter seen = st.events.filter seen ++ s ∧ s <+: t ∧
    ∀ a, (x st).1 = .ok a → s = t ∧ (x st).2.prompts = st.prompts.drop (asked t)

theorem plays_mono {α : Type} {x : ProgV α} {T U : List Ev → Prop} (h : Plays x T) (hU : ∀ t, T t → U t) :
    Plays x U := by
  intro st
  obtain ⟨t, s, ht, h⟩ := h st
  exact ⟨t, s, hU t ht, h⟩

theorem asked_append (t u : List Ev) : asked (t ++ u) = asked t + asked u := List.countP_append

theorem plays_bind {α β : Type} {x : ProgV α} {f : α → ProgV β} {T U : List Ev → Prop} (hx : Plays x T)
    (hf : ∀ a, Plays (f a) U) (hU : ∃ u, U u) : Plays (x >>= f) (fun v => ∃ t u, T t ∧ U u ∧ v = t ++ u) := by
  intro st
  obtain ⟨t, s, ht, hs, hp, hok⟩ := hx st
  obtain ⟨u0, hu0⟩ := hU
  show ∃ t s, _ ∧ List.filter seen (ProgV.bind x f st).2.events = _ ∧ _ ∧
    ∀ a, (ProgV.bind x f st).1 = _ → _ ∧ (ProgV.bind x f st).2.prompts = _
  unfold ProgV.bind
  rcases hxs : x st with ⟨r, st'⟩
  rw [hxs] at hs hok
  cases r with
  | ok a =>
    obtain ⟨u, s', hu, hs', hp', hok'⟩ := hf a st'
    obtain ⟨rfl, hd⟩ := hok a rfl
    refine ⟨s ++ u, s ++ s', ⟨s, u, ht, hu, rfl⟩, ?_, ?_, ?_⟩
    · dsimp only at hs ⊢
      rw [hs', hs, List.append_assoc]
    · exact (List.prefix_append_right_inj s).2 hp'
    · intro b hb
      obtain ⟨rfl, hd'⟩ := hok' b hb
      refine ⟨rfl, ?_⟩
      dsimp only at hd ⊢
      rw [hd', hd, List.drop_drop, asked_append]
  | err e => exact ⟨t ++ u0, s, ⟨t, u0, ht, hu0, rfl⟩, hs, hp.trans (List.prefix_append _ _), by simp⟩
  | panic p => exact ⟨t ++ u0, s, ⟨t, u0, ht, hu0, rfl⟩, hs, hp.trans (List.prefix_append _ _), by simp⟩
  | waits c => exact ⟨t ++ u0, s, ⟨t, u0, ht, hu0, rfl⟩, hs, hp.trans (List.prefix_append _ _), by simp⟩
  | loops => exact ⟨t ++ u0, s, ⟨t, u0, ht, hu0, rfl⟩, hs, hp.trans (List.prefix_append _ _), by simp⟩

/-- With one transcript for the first part -/
theorem plays_then {α β : Type} {x : ProgV α} {f : α → ProgV β} {t : List Ev} {U : List Ev → Prop}
    (hx : Plays x (· = t)) (hf : ∀ a, Plays (f a) U) (hU : ∃ u, U u) :
    Plays (x >>= f) (fun v => ∃ u, U u ∧ v = t ++ u) :=
  plays_mono (plays_bind hx hf hU) (by rintro _ ⟨t, u, rfl, hu, rfl⟩; exact ⟨u, hu, rfl⟩)

/-- With one transcript for both parts -/
theorem plays_seq {α β : Type} {x : ProgV α} {f : α → ProgV β} {t u : List Ev}
    (hx : Plays x (· = t)) (hf : ∀ a, Plays (f a) (· = u)) : Plays (x >>= f) (· = t ++ u) :=
  plays_mono (plays_then hx hf ⟨u, rfl⟩) (by rintro _ ⟨u, rfl, rfl⟩; rfl)

/-- A first part that is not seen -/
theorem plays_after {α β : Type} {x : ProgV α} {f : α → ProgV β} {U : List Ev → Prop}
    (hx : Plays x (· = [])) (hf : ∀ a, Plays (f a) U) (hU : ∃ u, U u) : Plays (x >>= f) U :=
  plays_mono (plays_then hx hf hU) (by rintro _ ⟨u, hu, rfl⟩; exact hu)

theorem plays_pure {α : Type} (a : α) : Plays (pure a : ProgV α) (· = []) := by
  intro st
  exact ⟨[], [], rfl, by simp [pure], List.prefix_refl _, by simp [pure, asked]⟩

/-- A program that does nothing and reads no prompt -/
theorem plays_silent {α : Type} {x : Prog α}
    (h : ∀ st, ((x st).2.acts.map Ev.act).filter seen = (st.acts.map Ev.act).filter seen ∧
      (x st).2.prompts = st.prompts) : Plays (silent x) (· = []) := by
  intro st
  obtain ⟨ha, hp⟩ := h ⟨st.prompts, st.rnd, []⟩
  refine ⟨[], [], rfl, ?_, List.prefix_refl _, ?_⟩
  · unfold silent
    dsimp only
    rw [List.filter_append, ha]
    simp
  · intro a _
    exact ⟨rfl, hp⟩

theorem plays_lift {α : Type} (r : Res α) : Plays (silent (lift r)) (· = []) := by
  apply plays_silent
  intro st
  unfold lift
  cases r <;> exact ⟨rfl, rfl⟩

theorem plays_random {α : Type} (f : Bytes → Res (α × Bytes)) : Plays (silent (random f)) (· = []) := by
  apply plays_silent
  intro st
  unfold random
  rcases f st.rnd with ⟨a, rnd⟩ | e | p <;> exact ⟨rfl, rfl⟩

theorem plays_export (C : Crypto) (mnk : Mnemonikey) (master selfCert : Bool) (password : Bytes) :
    Plays (silent (exportKey C mnk master selfCert password)) (· = []) := by
  unfold exportKey
  split <;> exact plays_random _

theorem plays_seedOf (env : Env) (file : Bytes) : Plays (silent (seedOf env file)) (· = []) := by
  unfold seedOf
  split
  · exact plays_lift _
  · exact plays_random _

theorem plays_event (e : Ev) (he : seen e = true) (hp : ∀ p c, e ≠ .password p c) : Plays (event e) (· = [e]) := by
  intro st
  refine ⟨[e], [e], rfl, ?_, List.prefix_refl _, fun a _ => ⟨rfl, ?_⟩⟩
  · simp [event, he]
  · cases e with
    | password p c => exact absurd rfl (hp p c)
    | act a => simp [event, asked]
    | err t => simp [event, asked]
    | words b => simp [event, asked]

theorem plays_eprint (text : Bytes) : Plays (eprint text) (· = [.err text]) :=
  plays_event _ rfl (by simp)

theorem asked_errs (texts : List Bytes) : asked (texts.map .err) = 0 := by
  unfold asked
  rw [List.countP_eq_zero]
  simp

theorem seen_errs (texts : List Bytes) : (texts.map Ev.err).filter seen = texts.map .err := by
  rw [List.filter_eq_self]
  intro e he
  obtain ⟨t, -, rfl⟩ := List.mem_map.1 he
  rfl

theorem plays_eprints (texts : List Bytes) : Plays (eprints texts) (· = texts.map .err) := by
  intro st
  refine ⟨_, texts.map .err, rfl, ?_, List.prefix_refl _, fun a _ => ⟨rfl, ?_⟩⟩
  · simp only [eprints, List.filter_append, seen_errs]
  · rw [asked_errs]; rfl

theorem plays_askPassword (prompt : Bytes) (confirm : Bool) :
    Plays (askPassword prompt confirm) (· = [.password prompt confirm]) := by
  intro st
  refine ⟨_, [.password prompt confirm], rfl, ?_, List.prefix_refl _, ?_⟩
  · show ((askPassword prompt confirm st).2.events).filter seen = _
    unfold askPassword
    show (ProgV.bind (event (.password prompt confirm)) (fun _ => silent (userInputPassword confirm)) st).2.events.filter seen = _
    unfold ProgV.bind event silent userInputPassword
    rcases st with ⟨_ | ⟨_ | _ | _, rest⟩, rnd, ev⟩ <;> simp [seen]
  · intro a ha
    refine ⟨rfl, ?_⟩
    revert ha
    unfold askPassword
    show (ProgV.bind (event (.password prompt confirm)) (fun _ => silent (userInputPassword confirm)) st).1 = .ok a →
      (ProgV.bind (event (.password prompt confirm)) (fun _ => silent (userInputPassword confirm)) st).2.prompts = _
    unfold ProgV.bind event silent userInputPassword
    rcases st with ⟨_ | ⟨_ | _ | _, rest⟩, rnd, ev⟩ <;> simp [asked]

theorem unseen_writes (bs : Bytes) : ((bs.map Act.write).map Ev.act).filter seen = [] := by
  simp [List.filter_eq_nil_iff, seen]

theorem unseen_stdout (bs : Bytes) : ((bs.map Act.stdout).map Ev.act).filter seen = [] := by
  simp [List.filter_eq_nil_iff, seen]

theorem plays_save (env : Env) (words : List Bytes) (file : Bytes) :
    Plays (silent (save env words file)) (· = [.act (.openTrunc file 0o600)]) := by
  have h : ∀ st, (save env words file st).2.prompts = st.prompts ∧
      (save env words file st).2.acts = st.acts ++ (saveMnemonic env.fs env.save words file).1 ∧
      ∀ a, (save env words file st).1 = .ok a → (saveMnemonic env.fs env.save words file).2 = .ok () := by
    intro st
    unfold save
    show (Prog.bind (emit _) (fun _ => lift _) st).2.prompts = _ ∧ (Prog.bind (emit _) (fun _ => lift _) st).2.acts = _ ∧
      ∀ a, (Prog.bind (emit _) (fun _ => lift _) st).1 = .ok a → _
    unfold Prog.bind emit lift
    rcases (saveMnemonic env.fs env.save words file).2 with a | e | p <;> simp
  have hacts : ((saveMnemonic env.fs env.save words file).1.map Ev.act).filter seen <+: [.act (.openTrunc file 0o600)] ∧
      ((saveMnemonic env.fs env.save words file).2 = .ok () →
        ((saveMnemonic env.fs env.save words file).1.map Ev.act).filter seen = [.act (.openTrunc file 0o600)]) := by
    unfold saveMnemonic
    by_cases h1 : env.save.statFails = true
    · simp [h1]
    · by_cases h2 : (env.fs.dir file).isSome = true
      · simp [h1, h2]
      · by_cases h3 : env.save.openFails = true
        · simp [h1, h2, h3]
        · simp only [h1, h2, h3, Bool.false_eq_true, if_false]
          cases env.save.writeFails with
          | none =>
            dsimp only
            rw [List.map_cons, List.filter_cons_of_pos (by rfl), unseen_writes]
            simp
          | some n =>
            dsimp only
            rw [List.map_cons, List.filter_cons_of_pos (by rfl), unseen_writes]
            simp
  intro st
  obtain ⟨hp, ha, hok⟩ := h ⟨st.prompts, st.rnd, []⟩
  refine ⟨_, ((saveMnemonic env.fs env.save words file).1.map Ev.act).filter seen, rfl, ?_, hacts.1, ?_⟩
  · show (silent (save env words file) st).2.events.filter seen = _
    unfold silent
    dsimp only
    rw [ha, List.filter_append]
    simp
  · intro a hr
    exact ⟨hacts.2 (hok a hr), hp⟩

theorem plays_printKeyV (armored : Bytes) : Plays (printKeyV armored) (· = coloured) := by
  have h : Plays (silent (printKey armored)) (· = []) := by
    apply plays_silent
    intro st
    refine ⟨?_, rfl⟩
    simp only [printKey, emit, List.map_append, List.filter_append]
    simp [seen]
  exact plays_seq (plays_eprint magentaStart) fun _ => plays_after h (fun _ => plays_eprint colorEnd) ⟨_, rfl⟩

/-- A part that is only there under a condition -/
theorem plays_if {α : Type} {c : Prop} [Decidable c] {x y : ProgV α} {T U : List Ev → Prop} (hx : c → Plays x T)
    (hy : ¬ c → Plays y U) : Plays (if c then x else y) (if c then T else U) := by
  by_cases h : c
  · rw [if_pos h, if_pos h]; exact hx h
  · rw [if_neg h, if_neg h]; exact hy h

theorem plays_keyPassword (b : Bool) :
    Plays (if b then askPassword keyPasswordPrompt true else pure [] : ProgV Bytes) (· = keyPrompt b) := by
  cases b
  · exact plays_pure _
  · exact plays_askPassword _ _

theorem plays_phrase (b : Bool) (f : Bytes → Bytes → Res (List Bytes × Bytes)) (g : Res (List Bytes)) :
    Plays (if b then do
      let phrasePassword ← askPassword phrasePasswordPrompt true
      silent (random (f phrasePassword))
    else silent (lift g) : ProgV (List Bytes)) (· = phrasePrompt b) := by
  cases b
  · exact plays_lift _
  · exact plays_seq (u := []) (plays_askPassword _ _) fun _ => plays_random _

/-- What printMnemonic writes, in a terminal of that width -/
def shownTexts (columns : Nat) (words : List Bytes) : List Bytes :=
  match justifyTerminalWidth 19 columns 0 notice with
  | some (.ok out) => phraseTexts words out
  | _ => phraseHeader :: phraseRows 0 words ++ [phraseAdvice]

theorem plays_printMnemonicV (env : Env) (words : List Bytes) : Plays (printMnemonicV env words)
    (· = .act (.showPhrase words) :: (shownTexts env.columns words).map .err) := by
  have start : ∀ {x : ProgV Unit}, Plays x (· = []) → Plays (do
      event (.act (.showPhrase words))
      eprint phraseHeader
      eprints (phraseRows 0 words)
      eprint phraseAdvice
      x) (· = .act (.showPhrase words) :: (phraseHeader :: phraseRows 0 words ++ [phraseAdvice]).map .err) := by
    intro x hx
    refine plays_mono (plays_seq (plays_event (.act (.showPhrase words)) rfl (by simp)) fun _ =>
      plays_seq (plays_eprint _) fun _ => plays_seq (plays_eprints _) fun _ => plays_seq (plays_eprint _) fun _ => hx) ?_
    rintro _ rfl
    simp
  unfold shownTexts
  rcases h : justifyTerminalWidth 19 env.columns 0 notice with _ | out | e | p
  · unfold printMnemonicV
    rw [h]
    exact start fun st => ⟨[], [], rfl, by simp, List.prefix_refl _, by simp⟩
  · intro st
    rw [printMnemonicV_ok h words st]
    refine ⟨_, _, rfl, ?_, List.prefix_refl _, fun a _ => ⟨rfl, ?_⟩⟩
    · dsimp only
      rw [List.filter_append, List.filter_cons_of_pos rfl, seen_errs]
    · have : asked (Ev.act (.showPhrase words) :: (phraseTexts words out).map .err) = 0 := by
        unfold asked; rw [List.countP_cons_of_neg (by simp)]; exact asked_errs _
      rw [this]
      rfl
  · unfold printMnemonicV
    rw [h]
    exact start fun st => ⟨[], [], rfl, by simp [bind, ProgV.bind, silent, lift], List.prefix_refl _,
      by simp [bind, ProgV.bind, silent, lift]⟩
  · unfold printMnemonicV
    rw [h]
    exact start fun st => ⟨[], [], rfl, by simp [bind, ProgV.bind, silent, lift], List.prefix_refl _,
      by simp [bind, ProgV.bind, silent, lift]⟩

/-- The end of generate, by whether there is a word file -/
def GenerateEnd (columns : Nat) (opts : GenerateOptions) (t : List Ev) : Prop :=
  if opts.outputWordFile ≠ [] then t = [.act (.openTrunc opts.outputWordFile 0o600)] ++ coloured
  else ∃ words : List Bytes, t = coloured ++ .act (.showPhrase words) :: (shownTexts columns words).map .err

theorem generateEnd_nonempty (columns : Nat) (opts : GenerateOptions) : ∃ t, GenerateEnd columns opts t := by
  unfold GenerateEnd
  split
  · exact ⟨_, rfl⟩
  · exact ⟨_, [], rfl⟩

theorem plays_generate (F : Fmt) (L : WordList) (C : Crypto) (env : Env) (opts : GenerateOptions) :
    Plays (generateAndPrintKeyV F L C env opts false)
      (fun t => ∃ u, GenerateEnd env.columns opts u ∧ t = beforeKey opts ++ u) := by
  obtain ⟨u0, hu0⟩ := generateEnd_nonempty env.columns opts
  unfold generateAndPrintKeyV
  refine plays_after (plays_lift _) (fun ttl => plays_after (plays_lift _) (fun ⟨master, subkeys⟩ => ?_)
    ⟨_, u0, hu0, rfl⟩) ⟨_, u0, hu0, rfl⟩
  dsimp only
  have hend : ∀ (mnk : Mnemonikey) (key : Bytes) (words : List Bytes), Plays
      (if opts.outputWordFile ≠ [] then do
          silent (save env words opts.outputWordFile)
          if false = true then do
              eprint (str "Generated OpenPGP private key with " ++ formatInt entropyBitCount ++ str " bits of entropy:\n")
              printKeyDebugInfo F C mnk
              eprintln []
              printKeyV (env.armor key)
              if opts.outputWordFile = [] then printMnemonicV env words else pure ()
            else do
              printKeyV (env.armor key)
              if opts.outputWordFile = [] then printMnemonicV env words else pure ()
        else
          if false = true then do
            eprint (str "Generated OpenPGP private key with " ++ formatInt entropyBitCount ++ str " bits of entropy:\n")
            printKeyDebugInfo F C mnk
            eprintln []
            printKeyV (env.armor key)
            if opts.outputWordFile = [] then printMnemonicV env words else pure ()
          else do
            printKeyV (env.armor key)
            if opts.outputWordFile = [] then printMnemonicV env words else pure () : ProgV Unit) (GenerateEnd env.columns opts) := by
    intro mnk key words
    by_cases hout : opts.outputWordFile = []
    · simp only [hout, ne_eq, not_true_eq_false, if_false, if_true, Bool.false_eq_true]
      refine plays_mono (plays_then (plays_printKeyV _) (fun _ => plays_printMnemonicV env words) ⟨_, rfl⟩) ?_
      rintro _ ⟨_, rfl, rfl⟩
      unfold GenerateEnd
      rw [if_neg (by simpa using hout)]
      exact ⟨words, rfl⟩
    · simp only [hout, ne_eq, not_false_eq_true, if_false, if_true, Bool.false_eq_true]
      refine plays_mono (plays_seq (plays_save env words _) fun _ => plays_seq (u := []) (plays_printKeyV _)
        fun _ => plays_pure ()) ?_
      rintro _ rfl
      unfold GenerateEnd
      rw [if_pos hout]
      rfl
  have hmain : Plays (do
      let seed ← silent (seedOf env opts.unsafeEntropy)
      let mnk ← silent (lift (new C seed env.now (some
        { name := trimSpace opts.key.name, email := trimSpace opts.key.email, ttl := ttl,
          encryptionSubkeyIndex := 0, authenticationSubkeyIndex := 0, signingSubkeyIndex := 0,
          subkeys := subkeys })))
      let password ← (if opts.key.encryptKeys then askPassword keyPasswordPrompt true else pure [] : ProgV Bytes)
      let key ← silent (exportKey C mnk master true password)
      let words ← (if opts.encryptPhrase then do
          let phrasePassword ← askPassword phrasePasswordPrompt true
          silent (random (mnk.encodeMnemonicEncrypted L C phrasePassword))
        else silent (lift (mnk.encodeMnemonicPlaintext L)) : ProgV (List Bytes))
      if opts.outputWordFile ≠ [] then silent (save env words opts.outputWordFile)
      if false = true then do
        eprint (str "Generated OpenPGP private key with " ++ formatInt entropyBitCount ++ str " bits of entropy:\n")
        printKeyDebugInfo F C mnk
        eprintln []
      printKeyV (env.armor key)
      if opts.outputWordFile = [] then printMnemonicV env words : ProgV Unit)
      (fun t => ∃ u, GenerateEnd env.columns opts u ∧
        t = keyPrompt opts.key.encryptKeys ++ (phrasePrompt opts.encryptPhrase ++ u)) := by
    refine plays_after (plays_seedOf _ _) (fun seed => plays_after (plays_lift _) (fun mnk => ?_)
      ⟨_, u0, hu0, rfl⟩) ⟨_, u0, hu0, rfl⟩
    refine plays_mono (plays_then (plays_keyPassword _) (fun password => plays_after (plays_export _ _ _ _ _) (fun key =>
      plays_then (plays_phrase _ _ _) (fun words => hend mnk key words) ⟨u0, hu0⟩) ⟨_, u0, hu0, rfl⟩) ⟨_, u0, hu0, rfl⟩) ?_
    rintro _ ⟨_, ⟨u, hu, rfl⟩, rfl⟩
    exact ⟨u, hu, rfl⟩
  by_cases hun : opts.unsafeEntropy = []
  · rw [if_neg (by simpa using hun)]
    refine plays_mono hmain ?_
    rintro _ ⟨u, hu, rfl⟩
    exact ⟨u, hu, by simp [beforeKey, hun]⟩
  · rw [if_pos hun]
    refine plays_mono (plays_then (plays_eprint _) (fun _ => hmain) ⟨_, u0, hu0, rfl⟩) ?_
    rintro _ ⟨_, ⟨u, hu, rfl⟩, rfl⟩
    refine ⟨u, hu, ?_⟩
    unfold beforeKey
    rw [if_neg hun]
    simp only [List.append_assoc]
    congr 3

/-! ## recover and convert -/

theorem plays_askWords (env : Env) (input : InputFlags) (h : input.inputWordFile = []) :
    Plays (askWordsV env input) (· = wordsPrompt input env.rawError) := by
  unfold askWordsV
  refine plays_mono (plays_seq (plays_eprints _) fun _ => plays_event (.words (byLine env input)) rfl (by simp)) ?_
  rintro _ rfl
  unfold wordsPrompt rawWarnings byLine
  cases input.simple
  · cases env.rawError <;> simp [h]
  · simp [h]

theorem asked_decryption (n : Nat) : asked (decryption n) = n + 1 := by
  unfold decryption
  rw [asked_append]
  show _ + 1 = _
  congr 1
  induction n with
  | zero => rfl
  | succ n ih =>
    rw [List.replicate_succ, List.flatten_cons, asked_append, ih]
    show 1 + n = n + 1
    omega

theorem decryption_succ (n : Nat) : decryption (n + 1) =
    [.password decryptPrompt false, .err (red (str "failed to decrypt entropy: incorrect password") ++ str "\n")] ++
      decryption n := by
  unfold decryption
  rw [List.replicate_succ, List.flatten_cons, List.append_assoc]
  congr 1

theorem plays_passwordLoop (C : Crypto) (dm : DecodedMnemonic) : ∀ prompts : List (Res Bytes), ∃ n,
    let r := passwordLoopV C dm prompts
    r.2.2.filter seen = decryption n ∧ ∀ a, r.1 = .ok a → r.2.1 = prompts.drop (n + 1)
  | [] => ⟨0, rfl, by simp [passwordLoopV]⟩
  | .err e :: rest => ⟨0, rfl, by simp [passwordLoopV]⟩
  | .panic p :: rest => ⟨0, rfl, by simp [passwordLoopV]⟩
  | .ok password :: rest => by
    obtain ⟨n, h1, h2⟩ := plays_passwordLoop C dm rest
    rw [passwordLoopV]
    split
    · refine ⟨n + 1, ?_, fun a ha => h2 a ha⟩
      dsimp only
      rw [List.filter_append, h1, decryption_succ]
      rfl
    · exact ⟨0, rfl, by simp⟩
    · exact ⟨0, rfl, by simp⟩
    · exact ⟨0, rfl, by simp⟩

theorem plays_askSeed (C : Crypto) (dm : DecodedMnemonic) :
    Plays (askSeedV C dm) (fun t => ∃ wrong : Option Nat, t = (wrong.map decryption).getD []) := by
  intro st
  unfold askSeedV
  split
  · obtain ⟨n, h1, h2⟩ := plays_passwordLoop C dm st.prompts
    refine ⟨decryption n, decryption n, ⟨some n, rfl⟩, ?_, List.prefix_refl _, fun a ha => ⟨rfl, ?_⟩⟩
    · dsimp only at h1 ⊢
      rw [List.filter_append, h1]
    · rw [asked_decryption]
      exact h2 a ha
  · rename_i henc
    have hs : Plays (silent (askSeed C dm)) (· = []) := by
      intro st
      have hp : ∀ ps, (seedLoop C dm ps).2 = ps := by
        intro ps
        unfold seedLoop
        rw [if_neg henc]
        split <;> rfl
      refine ⟨[], [], rfl, by simp [silent, askSeed], List.prefix_refl _, fun a _ => ⟨rfl, ?_⟩⟩
      simp [silent, askSeed, hp, asked]
    obtain ⟨t, s, rfl, h⟩ := hs st
    exact ⟨[], s, ⟨none, rfl⟩, h⟩

theorem plays_decode (L : WordList) (C : Crypto) (env : Env) (input : InputFlags) :
    Plays (decodeMnemonicFromInputV L C env input false)
      (fun t => ∃ wrong, t = entered input env.rawError wrong) := by
  have hmain : Plays (do
      let words ← silent (lift (inputWords L env input))
      let dm ← silent (lift (decodeMnemonic L words))
      if false = true then do
        eprintln (str "Decoded mnemonic recovery phrase:")
        printDebugInfo (phraseDebugInfo dm)
        eprintln []
      let seed ← askSeedV C dm
      pure (seed, dm) : ProgV (Seed × DecodedMnemonic))
      (fun t => ∃ wrong : Option Nat, t = (wrong.map decryption).getD []) := by
    refine plays_after (plays_lift _) (fun words => plays_after (plays_lift _) (fun dm => ?_) ⟨_, none, rfl⟩) ⟨_, none, rfl⟩
    rw [if_neg (by simp)]
    refine plays_mono (plays_bind (plays_askSeed C dm) (fun seed => plays_pure _) ⟨_, rfl⟩) ?_
    rintro _ ⟨_, _, ⟨wrong, rfl⟩, rfl, rfl⟩
    exact ⟨wrong, by simp⟩
  unfold decodeMnemonicFromInputV
  by_cases h : input.inputWordFile = []
  · rw [if_pos h]
    refine plays_mono (plays_then (plays_askWords env input h) (fun _ => hmain) ⟨_, none, rfl⟩) ?_
    rintro _ ⟨_, ⟨wrong, rfl⟩, rfl⟩
    exact ⟨wrong, rfl⟩
  · rw [if_neg h]
    refine plays_mono hmain ?_
    rintro _ ⟨wrong, rfl⟩
    exact ⟨wrong, by simp [entered, wordsPrompt, h]⟩

theorem plays_fail {α : Type} (e : Err) (T : List Ev → Prop) (hT : ∃ t, T t) : Plays (silent (lift (.err e)) : ProgV α) T := by
  intro st
  obtain ⟨t, ht⟩ := hT
  exact ⟨t, [], ht, by simp [silent, lift], List.nil_prefix, by simp [silent, lift]⟩

theorem plays_recover (F : Fmt) (L : WordList) (C : Crypto) (env : Env) (opts : RecoverOptions) :
    Plays (recoverAndPrintKeyV F L C env opts false) (fun t => ∃ wrong, t = recovered opts env.rawError wrong) := by
  unfold recoverAndPrintKeyV
  refine plays_after (plays_lift _) (fun ttl => ?_) ⟨_, none, rfl⟩
  split
  · exact plays_fail _ _ ⟨_, none, rfl⟩
  · refine plays_after (plays_lift _) (fun ⟨master, subkeys⟩ => ?_) ⟨_, none, rfl⟩
    dsimp only
    refine plays_mono (plays_bind (plays_decode L C env opts.input) (fun ⟨seed, dm⟩ =>
      plays_after (plays_lift _) (fun mnk => plays_seq (u := coloured) (plays_keyPassword _) (fun password =>
        plays_after (plays_export _ _ _ _ _) (fun key => ?_) ⟨_, rfl⟩)) ⟨_, rfl⟩) ⟨_, rfl⟩) ?_
    · rw [if_neg (by simp)]
      exact plays_printKeyV _
    · rintro _ ⟨_, _, ⟨wrong, rfl⟩, rfl, rfl⟩
      exact ⟨wrong, by simp [recovered]⟩

/-- The end of convert, by whether there is a word file -/
def ConvertEnd (columns : Nat) (opts : ConvertOptions) (t : List Ev) : Prop :=
  if opts.input.inputWordFile ≠ [] then t = [.act (.openTrunc opts.input.inputWordFile 0o600)]
  else ∃ words : List Bytes, t = .act (.showPhrase words) :: (shownTexts columns words).map .err

theorem convertEnd_nonempty (columns : Nat) (opts : ConvertOptions) : ∃ t, ConvertEnd columns opts t := by
  unfold ConvertEnd
  split
  · exact ⟨_, rfl⟩
  · exact ⟨_, [], rfl⟩

theorem plays_convert (L : WordList) (C : Crypto) (env : Env) (opts : ConvertOptions) :
    Plays (decodeAndConvertPhraseV L C env opts false)
      (fun t => ∃ wrong u, ConvertEnd env.columns opts u ∧ t = beforePhrase opts env.rawError wrong ++ u) := by
  obtain ⟨u0, hu0⟩ := convertEnd_nonempty env.columns opts
  unfold decodeAndConvertPhraseV
  refine plays_mono (plays_bind (plays_decode L C env opts.input) (fun ⟨seed, dm⟩ =>
    plays_then (plays_phrase _ _ _) (fun words => ?_) ⟨u0, hu0⟩) ⟨_, u0, hu0, rfl⟩) ?_
  · by_cases h : opts.input.inputWordFile = []
    · rw [if_pos h]
      refine plays_mono (plays_printMnemonicV env words) ?_
      rintro _ rfl
      unfold ConvertEnd
      rw [if_neg (by simpa using h)]
      exact ⟨words, rfl⟩
    · rw [if_neg h]
      refine plays_mono (plays_save env words _) ?_
      rintro _ rfl
      unfold ConvertEnd
      rw [if_pos h]
  · rintro _ ⟨_, _, ⟨wrong, rfl⟩, ⟨u, hu, rfl⟩, rfl⟩
    exact ⟨wrong, u, hu, by simp [beforePhrase]⟩

end Verif.Proofs
