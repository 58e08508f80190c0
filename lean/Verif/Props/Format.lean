import Verif.Props.Verbose
import Verif.Props.Help
import Verif.Props.Messages
import Verif.Proofs.Format
import Verif.Proofs.Quoted

/-! # C95, C96: dates and quotes -/

namespace Verif.Props

open Verif.Model Verif.Model.Cli Verif.Proofs Verif.Spec Verif.Instances

/-! ## C95 -/

/-- For every second until the end of the year 9999, the date that Go writes denotes this second. -/
theorem c95_date (second : Nat) (h : second < 253402300800) (nano : Nat) (hn : nano < 1000000000) :
    Denotes (rfc3339 ((second : Int) * 1000000000 + nano)) second :=
  rfc3339_denotes second h nano hn

example : rfc3339 (1709210096 * 1000000000) = str "2024-02-29T12:34:56Z" := by decide +kernel

/-- A date denotes one second, and a second has one date. -/
theorem c95_unique (t u : Bytes) (a b : Nat) (ht : Denotes t a) (hu : Denotes u b) : t = u ↔ a = b :=
  ⟨fun e => denotes_second ht (e ▸ hu), fun e => denotes_text ht (e ▸ hu)⟩

/-- The years of creation that a phrase can hold: from the first second of 2023 to 2091-01-19. -/
theorem c95_epoch : Denotes (str "2023-01-01T00:00:00Z") 1672531200 ∧
    Denotes (str "2091-01-19T03:14:07Z") (1672531200 + 2 ^ 31 - 1) := by
  have h1 := c95_date 1672531200 (by decide) 0 (by decide)
  have h2 := c95_date (1672531200 + 2 ^ 31 - 1) (by decide) 0 (by decide)
  have e1 : rfc3339 (((1672531200 : Nat) : Int) * 1000000000 + ((0 : Nat) : Int)) = str "2023-01-01T00:00:00Z" := by
    decide +kernel
  have e2 : rfc3339 (((1672531200 + 2 ^ 31 - 1 : Nat) : Int) * 1000000000 + ((0 : Nat) : Int)) =
      str "2091-01-19T03:14:07Z" := by
    decide +kernel
  rw [e1] at h1
  rw [e2] at h2
  exact ⟨h1, h2⟩

theorem goFmt_rows {isPrint : Nat → Bool} (hp : PrintLawful isPrint) (C : Crypto) (seed second : Nat) (w : Wanted)
    (hs : second < 2 ^ 32) (hd : ∀ d, w.expires = some d → d < 2 ^ 32) :
    KeyRows C seed second w (keyTable C (goFmt isPrint).quote
      (fun second => (goFmt isPrint).time (second * 10 ^ 9)) seed second w) := by
  have key : ∀ n : Nat, n < 253402300800 → Denotes ((goFmt isPrint).time ((n : Int) * 10 ^ 9)) n := fun n hn => by
    have := rfc3339_denotes n hn 0 (by decide)
    rwa [show ((n : Int) * 1000000000 + ((0 : Nat) : Int)) = (n : Int) * 10 ^ 9 by norm_num] at this
  refine ⟨_, _, rfl, goQuote_quoted hp _, key second (by omega), fun d hd' => ?_⟩
  have := hd d hd'
  exact key (second + d) (by omega)

theorem asked_expires {f : KeyFlags} {enc auth sig : Nat} {w : Wanted} {master : Prop}
    (h : AsksFor f enc auth sig w master) : ∀ d, w.expires = some d → d < 2 ^ 32 := by
  intro d hd
  have he := h.expires
  rw [hd] at he
  generalize hx : some d = x at he
  generalize f.ttl = t at he
  cases he with
  | absent => cases hx
  | zero _ => cases hx
  | after _ _ hlt =>
    cases hx
    exact hlt

/-- The table of C80 with Go's formatting: the dates in it denote the second in which the key was created and the
one at which it expires, and the user ID can be read back. -/
theorem c95_generate {isPrint : Nat → Bool} (hp : PrintLawful isPrint) {L : WordList} (hL : L.Lawful) {C : Crypto}
    (hC : C.Lawful) (env : Env) (opts : GenerateOptions) {w : Wanted} {master : Prop}
    (hask : AsksFor opts.key 0 0 0 w master) (hu : w.userID.length < 2 ^ 32)
    (hnow : 1672531200 * 10 ^ 9 ≤ env.now) (hnow' : env.now ≤ (1672531200 + 2 ^ 31 - 1) * 10 ^ 9)
    {rnd e rnd' : Bytes} (hseed : SeedBytes env rnd opts.unsafeEntropy e rnd') (hrnd : 99 ≤ rnd'.length)
    {keyPw phrasePw : Option Bytes} (htyped : Typed opts.key.encryptKeys opts.encryptPhrase keyPw phrasePw)
    (more : List (Res Bytes))
    (hsave : opts.outputWordFile ≠ [] → env.fs.read opts.outputWordFile = none ∧
      env.save = ⟨false, false, none⟩)
    (hshow : opts.outputWordFile = [] → 17 ≤ env.columns) :
    let run v := generateAndPrintKeyV (goFmt isPrint) L C env opts v
      ⟨keyPw.toList.map .ok ++ phrasePw.toList.map .ok ++ more, rnd, []⟩
    ∃ before texts after rows, (∀ v, (run v).1 = .ok ()) ∧
      (run false).2.events = before ++ after ∧ (run true).2.events = before ++ texts.map .err ++ after ∧
      Tells texts rows ∧ KeyRows C (valueOfBytes e) (env.now / 10 ^ 9).toNat w rows := by
  obtain ⟨before, texts, after, h1, h2, h3, h4⟩ := c80_generate (goFmt isPrint) hL hC env opts hask hu hnow hnow' hseed
    hrnd htyped more hsave hshow
  exact ⟨before, texts, after, _, h1, h2, h3, h4, goFmt_rows hp C _ _ w (by omega) (asked_expires hask)⟩

/-- The same for recover -/
theorem c95_recover {isPrint : Nat → Bool} (hp : PrintLawful isPrint) {L : WordList} (hL : L.Lawful) {C : Crypto}
    (hC : C.Lawful) (env : Env) (opts : RecoverOptions) {w : Wanted} {master : Prop}
    (hask : AsksFor opts.key opts.encIndex opts.authIndex opts.sigIndex w master)
    (henc : opts.encIndex ≤ 65535) (hauth : opts.authIndex ≤ 65535) (hsig : opts.sigIndex ≤ 65535)
    (hu : w.userID.length < 2 ^ 32) {words : List Bytes} (hin : Gets L (offer L) env opts.input words)
    {phrasePw keyPw : Option Bytes} {seed offset : Nat}
    (hholds : Holds (indexOf L) C.toPhraseCrypto words phrasePw seed offset)
    (wrong : List Bytes) (hwrong : ∀ p ∈ wrong, WrongPassword L C words p)
    (hkey : keyPw.isSome = opts.key.encryptKeys)
    (hgood : ∀ p, keyPw = some p → p ≠ [] ∧ p.length ≤ 65011704)
    (more : List (Res Bytes)) {rnd : Bytes} (hrnd : 96 ≤ rnd.length) :
    let run v := recoverAndPrintKeyV (goFmt isPrint) L C env opts v
      ⟨wrong.map .ok ++ phrasePw.toList.map .ok ++ keyPw.toList.map .ok ++ more, rnd, []⟩
    ∃ before phrase between key after rows, (∀ v, (run v).1 = .ok ()) ∧
      (run false).2.events = before ++ between ++ after ∧
      (run true).2.events = before ++ phrase.map .err ++ between ++ key.map .err ++ after ∧
      Tells phrase (phraseTable phrasePw.isSome) ∧ Tells key rows ∧ KeyRows C seed (1672531200 + offset) w rows := by
  obtain ⟨before, phrase, between, key, after, h1, h2, h3, h4, h5⟩ := c80_recover (goFmt isPrint) hL hC env opts hask henc
    hauth hsig hu hin hholds wrong hwrong hkey hgood more hrnd
  have ho : offset < 2 ^ 31 := by
    cases phrasePw with
    | none => exact (decode_of_read hL (show readPhrase (indexOf L) words = .ok (.plaintext seed offset) from hholds)).2.2
    | some p =>
      obtain ⟨e, salt, v, hr, -⟩ := hholds
      have : _ ∧ _ := (decode_of_read hL hr).2
      omega
  exact ⟨before, phrase, between, key, after, _, h1, h2, h3, h4, h5,
    goFmt_rows hp C _ _ w (by omega) (asked_expires hask)⟩

/-! ## C96 -/

/-- Go's `%q`: for every text, the text in quotes stands for it and for nothing else, and a terminal shows it without
obeying anything in it. -/
theorem c96_quoted {isPrint : Nat → Bool} (hp : PrintLawful isPrint) (s : Bytes) :
    Quoted (goQuote isPrint s) s ∧ Harmless (goQuote isPrint s) ∧ ∀ s', Quoted (goQuote isPrint s) s' → s' = s :=
  ⟨goQuote_quoted hp s, quoted_harmless (goQuote_quoted hp s), fun _ h => quoted_value h (goQuote_quoted hp s)⟩

/-- What C88 assumes of it -/
theorem c96_plain {isPrint : Nat → Bool} (hp : PrintLawful isPrint) : QuotesPlainly (goQuote isPrint) := fun s hs => by
  rw [goQuote, quoteLoop_plain hp s.length s (Nat.le_refl _) hs]

theorem harmless_bytes {t : Bytes} (h : Harmless t) : ∀ b ∈ t, 0x20 ≤ b ∧ b ≠ 0x7F := by
  obtain ⟨cs, hcs, rfl⟩ := h
  intro b hb
  obtain ⟨c, hc, hbc⟩ := List.mem_flatMap.1 hb
  obtain ⟨hs, hn⟩ := hcs c hc
  have hlt : c < 0x110000 := by unfold Scalar at hs; omega
  have key : ∀ n : Nat, n < 256 → 0x20 ≤ n → n ≠ 0x7F → 0x20 ≤ UInt8.ofNat n ∧ UInt8.ofNat n ≠ 0x7F := by
    decide +kernel
  unfold Control at hn
  unfold utf8 at hbc
  by_cases a1 : c < 0x80
  · rw [if_pos a1, List.mem_singleton] at hbc
    rw [hbc]
    exact key c (by omega) (by omega) (by omega)
  rw [if_neg a1] at hbc
  by_cases a2 : c < 0x800
  · rw [if_pos a2] at hbc
    simp only [List.mem_cons, List.not_mem_nil, or_false] at hbc
    rcases hbc with rfl | rfl <;> exact key _ (by omega) (by omega) (by omega)
  rw [if_neg a2] at hbc
  by_cases a3 : c < 0x10000
  · rw [if_pos a3] at hbc
    simp only [List.mem_cons, List.not_mem_nil, or_false] at hbc
    rcases hbc with rfl | rfl | rfl <;> exact key _ (by omega) (by omega) (by omega)
  rw [if_neg a3] at hbc
  simp only [List.mem_cons, List.not_mem_nil, or_false] at hbc
  rcases hbc with rfl | rfl | rfl | rfl <;> exact key _ (by omega) (by omega) (by omega)

theorem option_harmless {cmd : Cmd} {name : Bytes} {k : Kind} (h : options cmd name = some k) : Harmless name := by
  have hf : formal cmd name ≠ none := by
    intro e
    rw [← kinds_formal] at h
    simp [kinds, e] at h
  obtain ⟨e, he, rfl⟩ := ((c88_options cmd).2.1 name).2 hf
  have : ∀ e ∈ entries cmd, ∀ b ∈ e.name, 0x20 ≤ b ∧ b < 0x7F := by
    cases cmd <;> decide +kernel
  exact harmless_ascii (this e he)

/-- What is said of a malformed command line is harmless, whatever values it has, unless it repeats an argument or
the name of an option that does not exist. -/
theorem c96_refused {isPrint : Nat → Bool} (hp : PrintLawful isPrint) (cmd : Cmd) (args : List Bytes) (message : Bytes)
    (h : Refused (options cmd) (goQuote isPrint) args message) :
    Harmless message ∨ (∃ a ∈ args, message = str "bad flag syntax: " ++ a) ∨
    ∃ a ∈ args, ∃ name, name <:+: a ∧ options cmd name = none ∧
      message = str "flag provided but not defined: -" ++ name := by
  have hq : ∀ v, Harmless (goQuote isPrint v) := fun v => quoted_harmless (goQuote_quoted hp v)
  have up : ∀ {a : Bytes} {args : List Bytes} {message : Bytes},
      (Harmless message ∨ (∃ a ∈ args, message = str "bad flag syntax: " ++ a) ∨
        ∃ a ∈ args, ∃ name, name <:+: a ∧ options cmd name = none ∧
          message = str "flag provided but not defined: -" ++ name) →
      Harmless message ∨ (∃ b ∈ a :: args, message = str "bad flag syntax: " ++ b) ∨
        ∃ b ∈ a :: args, ∃ name, name <:+: b ∧ options cmd name = none ∧
          message = str "flag provided but not defined: -" ++ name := by
    intro a args message h
    rcases h with h | ⟨b, hb, h⟩ | ⟨b, hb, h⟩
    · exact .inl h
    · exact .inr (.inl ⟨b, List.mem_cons_of_mem _ hb, h⟩)
    · exact .inr (.inr ⟨b, List.mem_cons_of_mem _ hb, h⟩)
  have hwhy : ∀ {v why : Bytes}, NoNumber v why → Harmless why := fun h => by
    cases h <;> exact harmless_ascii (by decide +kernel)
  induction h with
  | @badSyntax dash t args h => exact .inr (.inl ⟨_, List.mem_cons_self, by rw [List.append_assoc]⟩)
  | @unknown dash name v args _ _ _ _ _ hk _ _ =>
    exact .inr (.inr ⟨_, List.mem_cons_self, name, ⟨dash, v, rfl⟩, hk, rfl⟩)
  | boolean _ hk _ =>
    exact .inl (harmless_append (harmless_append (harmless_append (harmless_append (harmless_ascii (by decide +kernel))
      (hq _)) (harmless_ascii (by decide +kernel))) (option_harmless hk)) (harmless_ascii (by decide +kernel)))
  | noValue _ hk _ => exact .inl (harmless_append (harmless_ascii (by decide +kernel)) (option_harmless hk))
  | number _ hk hw =>
    exact .inl (harmless_append (harmless_append (harmless_append (harmless_append (harmless_append
      (harmless_ascii (by decide +kernel)) (hq _)) (harmless_ascii (by decide +kernel))) (option_harmless hk))
      (harmless_ascii (by decide +kernel))) (hwhy hw))
  | numberNext _ hk hw =>
    exact .inl (harmless_append (harmless_append (harmless_append (harmless_append (harmless_append
      (harmless_ascii (by decide +kernel)) (hq _)) (harmless_ascii (by decide +kernel))) (option_harmless hk))
      (harmless_ascii (by decide +kernel))) (hwhy hw))
  | equals _ _ _ _ ih => exact up ih
  | switch _ _ _ ih => exact up ih
  | next _ _ _ _ _ ih => exact up (up ih)

/-- The texts that come from outside are harmless. -/
structure Outside (os : OsText) (prompts : List (ResE Bytes)) : Prop where
  random : Harmless os.random
  entropyOpen : Harmless os.entropyOpen
  stat : Harmless os.stat
  write : Harmless os.write
  wordOpen : Harmless os.wordOpen
  prompts : ∀ e, .err e ∈ prompts → Harmless e.text

theorem dec_harmless (n : Nat) : Harmless (dec n) := harmless_ascii fun b hb => printing_formatInt (n : Int) b hb

theorem flagText_harmless {quote : Bytes → Bytes} (hq : ∀ v, Harmless (quote v)) {f : KeyFlags} {e : Err} {t : Bytes}
    (h : FlagText quote f e t) : Harmless t := by
  cases h <;> exact harmless_append (harmless_ascii (by decide +kernel)) (hq _)

theorem newText_harmless {e : Err} {t : Bytes} (h : NewText e t) : Harmless t := by
  cases h <;> exact harmless_ascii (by decide +kernel)

theorem exportText_harmless {os : OsText} (ho : Harmless os.random) {e : Err} {t : Bytes} (h : ExportText os e t) :
    Harmless t := by
  have hn : ∀ what ∈ packetNames, ∀ b ∈ what, 0x20 ≤ b ∧ b < 0x7F := by decide
  cases h with
  | salt hw => exact harmless_append (harmless_append (harmless_append (harmless_ascii (by decide +kernel)) (harmless_ascii (hn _ hw)))
      (harmless_ascii (by decide +kernel))) ho
  | iv hw => exact harmless_append (harmless_append (harmless_append (harmless_ascii (by decide +kernel)) (harmless_ascii (hn _ hw)))
      (harmless_ascii (by decide +kernel))) ho

theorem saveText_harmless {os : OsText} {prompts : List (ResE Bytes)} (ho : Outside os prompts) {file : Bytes}
    (hf : Harmless file) {e : Err} {t : Bytes} (h : SaveText os file e t) : Harmless t := by
  cases h with
  | «exists» => exact harmless_append (harmless_append (harmless_ascii (by decide +kernel)) hf) (harmless_ascii (by decide +kernel))
  | inaccessible => exact harmless_append (harmless_append (harmless_append (harmless_ascii (by decide +kernel)) hf)
      (harmless_ascii (by decide +kernel))) ho.stat
  | write => exact harmless_append (harmless_ascii (by decide +kernel)) ho.write

theorem inputText_harmless {os : OsText} {prompts : List (ResE Bytes)} (ho : Outside os prompts) {file : Bytes}
    (hf : Harmless file) {n v : Nat} {e : Err} {t : Bytes} (h : InputText os file n v e t) : Harmless t := by
  cases h with
  | «open» _ => exact ho.wordOpen
  | badWord _ => exact harmless_append (harmless_append (harmless_ascii (by decide +kernel)) hf) (harmless_ascii (by decide +kernel))
  | noWords _ => exact harmless_append (harmless_ascii (by decide +kernel)) hf
  | count _ _ =>
    have h1 : Harmless (str "found only ") := harmless_ascii (by decide +kernel)
    have h2 : Harmless (str " words in word file ") := harmless_ascii (by decide +kernel)
    have h3 : Harmless (str ", expected ") := harmless_ascii (by decide +kernel)
    have h4 : Harmless (str " words for version ") := harmless_ascii (by decide +kernel)
    have h5 : Harmless (str " phrase") := harmless_ascii (by decide +kernel)
    have a := harmless_append (harmless_append (harmless_append h1 (dec_harmless n)) h2) hf
    exact harmless_append (harmless_append (harmless_append (harmless_append (harmless_append a h3)
      (dec_harmless (wordsWanted v))) h4) (dec_harmless v)) h5
  | version _ => exact harmless_append (harmless_ascii (by decide +kernel)) (dec_harmless _)
  | format _ => exact harmless_ascii (by decide +kernel)
  | keys _ => exact harmless_ascii (by decide +kernel)
  | lines _ => exact harmless_ascii (by decide +kernel)
  | aborted _ => exact harmless_ascii (by decide +kernel)
  | checksum => exact harmless_ascii (by decide +kernel)
  | size => exact harmless_ascii (by decide +kernel)
  | word => exact harmless_ascii (by decide +kernel)

/-- The name of the word file, if the command takes one -/
def wordFile (settings : List (Bytes × FlagValue)) : Cmd → Bytes
  | .root => []
  | .generate => (generateOptions settings).outputWordFile
  | .recover => (recoverOptions settings).input.inputWordFile
  | .convert => (convertOptions settings).input.inputWordFile

/-- The error of a command is harmless, whatever its other options and the files it reads hold, if the name of the
word file and the texts of the operating system are. -/
theorem c96_error {isPrint : Nat → Bool} (hp : PrintLawful isPrint) (os : OsText) {L : WordList} (hL : L.Lawful)
    {C : Crypto} (hC : C.Lawful) (env : Env) (cmd : Cmd) (settings : List (Bytes × FlagValue))
    (prompts : List (ResE Bytes)) (hps : ∀ r ∈ prompts, PromptAnswer r) (rnd : Bytes) (ho : Outside os prompts)
    (hf : Harmless (wordFile settings cmd)) (e : GoErr)
    (h : (programE (goFmt isPrint) os L C env settings cmd ⟨prompts, rnd, []⟩).1 = .err e) : Harmless e.text := by
  have hq : ∀ v, Harmless ((goFmt isPrint).quote v) := fun v => quoted_harmless (goQuote_quoted hp v)
  cases cmd with
  | root => cases h
  | generate =>
    have := (c86_generate _ os hL hC env _ prompts hps rnd e h).2
    obtain ⟨kind, text⟩ := e
    dsimp only at this ⊢
    clear h
    cases this with
    | flags h => exact flagText_harmless hq h
    | noEntropyFile _ _ => exact harmless_append (harmless_ascii (by decide +kernel)) ho.entropyOpen
    | random _ => exact harmless_append (harmless_ascii (by decide +kernel)) ho.random
    | entropyEmpty _ _ => exact harmless_ascii (by decide +kernel)
    | entropyShort _ _ _ _ => exact harmless_ascii (by decide +kernel)
    | new h => exact newText_harmless h
    | prompt h => exact ho.prompts _ h
    | «export» _ h => exact exportText_harmless ho.random h
    | phrase _ => exact ho.random
    | save _ h => exact saveText_harmless ho hf h
  | recover =>
    obtain ⟨-, n, v, this, -⟩ := c86_recover _ os hL hC env _ prompts hps rnd e h
    obtain ⟨kind, text⟩ := e
    dsimp only at this ⊢
    clear h
    cases this with
    | flags h => exact flagText_harmless hq h
    | index => exact harmless_ascii (by decide +kernel)
    | input h => exact inputText_harmless ho hf h
    | prompt h => exact ho.prompts _ h
    | new h => exact harmless_append (harmless_ascii (by decide +kernel)) (newText_harmless h)
    | «export» _ h => exact exportText_harmless ho.random h
  | convert =>
    obtain ⟨-, n, v, this, -⟩ := c86_convert os hL hC env _ prompts hps rnd e h
    obtain ⟨kind, text⟩ := e
    dsimp only at this ⊢
    clear h
    cases this with
    | input h => exact inputText_harmless ho hf h
    | prompt h => exact ho.prompts _ h
    | phrase _ => exact ho.random
    | save _ h => exact saveText_harmless ho hf h

/-- `c96_error` for the whole process: what it says at its end -/
theorem c96_process {isPrint : Nat → Bool} (hp : PrintLawful isPrint) (os : OsText) {L : WordList} (hL : L.Lawful)
    {C : Crypto} (hC : C.Lawful) (env : Env) (args : List Bytes) (prompts : List (ResE Bytes))
    (hps : ∀ r ∈ prompts, PromptAnswer r) (rnd : Bytes) (ho : Outside os prompts)
    (hf : ∀ cmd settings, Means args (.run cmd settings) → Harmless (wordFile settings cmd)) :
    let r := mainE (goFmt isPrint) os L C env args ⟨prompts, rnd, []⟩
    r.2.2.1 = .exited 1 → ∃ text, Harmless text ∧ r.2.1 = str "ERROR: " ++ text ++ str "\n" := by
  dsimp only
  intro h
  obtain ⟨text, hr, ht⟩ := (c86_stderr (goFmt isPrint) os L C env args ⟨prompts, rnd, []⟩).2 h
  refine ⟨text, ?_, ht⟩
  cases hr with
  | missing _ => exact harmless_ascii (by decide +kernel)
  | unknown _ _ _ =>
    exact harmless_append (harmless_ascii (by decide +kernel)) (quoted_harmless (goQuote_quoted hp _))
  | failed hm he => exact c96_error hp os hL hC env _ _ prompts hps rnd ho (hf _ _ hm) _ he

/-- The name of an option that does not exist, a malformed argument and the name of a word file are repeated as they
are, with all their control characters: such messages are not harmless. -/
theorem c96_raw (isPrint : Nat → Bool) :
    (∃ args message, Refused (options .generate) (goQuote isPrint) args message ∧ 0x1B ∈ message ∧ ¬ Harmless message) ∧
    (∃ args message, Refused (options .generate) (goQuote isPrint) args message ∧
      (∃ a ∈ args, message = str "bad flag syntax: " ++ a) ∧ ¬ Harmless message) ∧
    ∃ settings e, (programE (goFmt isPrint) sampleOs toyWordList toyCrypto
      { sampleEnv with fs := { dir := fun _ => some 0, data := fun _ => [], next := 1 } }
      settings .recover ⟨[], [], []⟩).1 = .err e ∧ ¬ Harmless e.text := by
  have bad : ∀ {t : Bytes}, 0x1B ∈ t → ¬ Harmless t := fun h hh => absurd (harmless_bytes hh _ h).1 (by decide)
  refine ⟨⟨[str "-" ++ str "\x1b[2J" ++ []], _, .unknown (.inl rfl) (by decide) (by decide) (by decide) (.inl rfl)
      (by decide) (by decide) (by decide), by decide, bad (by decide)⟩,
    ⟨[str "---" ++ str "\x1b[2J"], _, .badSyntax (.inl rfl), ⟨_, List.mem_cons_self, by rw [List.append_assoc]⟩,
      bad (by decide)⟩, [(str "in-word-file", .string (str "\x1b[2J"))],
      ⟨.fileNoWords, str "found only no words in word file \x1b[2J"⟩, by rfl, bad (by decide +kernel)⟩

/-! ## Examples -/

/-- Only ASCII is printable -/
def asciiPrint (c : Nat) : Bool := 0x20 ≤ c && c < 0x7F

theorem asciiPrint_lawful : PrintLawful asciiPrint :=
  ⟨fun c h => by unfold asciiPrint at h; unfold Control; simp at h; omega, fun c h1 h2 => by
    unfold asciiPrint; simp; omega⟩

/-- Quotes, a line feed, an escape sequence, characters of two to four bytes, and bytes that are no characters: a
surrogate, an overlong zero, a character cut off -/
example : goQuote asciiPrint (str "say \"hi\"\n\x1b[2J" ++ [0xC3, 0xA9, 0xE2, 0x80, 0xA8, 0xF0, 0x9F, 0x98, 0x80] ++
      [0xED, 0xA0, 0x80, 0xC0, 0x80, 0xE2, 0x82]) =
    str "\"say \\\"hi\\\"\\n\\x1b[2J\\u00e9\\u2028\\U0001f600\\xed\\xa0\\x80\\xc0\\x80\\xe2\\x82\"" := by
  decide +kernel

/-- With é printable -/
example : goQuote (fun c => asciiPrint c || c = 0xE9) (str "né\x7f") = str "\"né\\x7f\"" := by decide +kernel

/-- The first and the last day of a leap year, the days around 1 March of 2100, which is none, the last second -/
example : [1704067199, 1704067200, 1735689599, 1735689600, 4107542399, 4107542400, 253402300799].map
      (fun s => rfc3339 (s * 1000000000)) =
    [str "2023-12-31T23:59:59Z", str "2024-01-01T00:00:00Z", str "2024-12-31T23:59:59Z", str "2025-01-01T00:00:00Z",
      str "2100-02-28T23:59:59Z", str "2100-03-01T00:00:00Z", str "9999-12-31T23:59:59Z"] := by
  decide +kernel

/-- generate with both passwords, a name and email, an expiry and two subkeys. What `c95_recover` assumes is what
`c80_recover` does. -/
example : ∃ before texts after rows,
    (generateAndPrintKeyV (goFmt asciiPrint) toyWordList toyCrypto sampleEnv
      { key := sampleKeyFlags, outputWordFile := [], encryptPhrase := true, unsafeEntropy := [] } true
      ⟨(some (str "key password")).toList.map .ok ++ (some (str "phrase password")).toList.map .ok ++ [],
        List.replicate 115 7, []⟩).2.events = before ++ texts.map .err ++ after ∧
      Tells texts rows ∧
      KeyRows toyCrypto (valueOfBytes (List.replicate 16 7)) (sampleEnv.now / 10 ^ 9).toNat (sampleWanted 0 0) rows := by
  obtain ⟨before, texts, after, rows, -, -, h, h', h''⟩ := c95_generate asciiPrint_lawful toyWordList_lawful
    toyCrypto_lawful sampleEnv
    { key := sampleKeyFlags, outputWordFile := [], encryptPhrase := true, unsafeEntropy := [] }
    (sample_asks 0 0 0) (by decide) (by decide) (by decide)
    (.system (rnd := List.replicate 115 7) (e := List.replicate 16 7) (rest := List.replicate 99 7) rfl rfl)
    (by decide) (keyPw := some (str "key password")) (phrasePw := some (str "phrase password"))
    ⟨rfl, rfl, by rintro p ⟨⟩; decide, by rintro p ⟨⟩; decide⟩ [] (fun h => absurd rfl h) (by decide)
  beta_reduce at h
  exact ⟨before, texts, after, rows, h, h', h''⟩

/-- A number with an escape sequence in it: the message is harmless. -/
example : ∃ message, Refused (options .recover) (goQuote asciiPrint) [str "-enc-index=\x1b[2J"] message ∧
    Harmless message := by
  have h := (c89_refused (goFmt asciiPrint) .recover [str "-enc-index=\x1b[2J"]
    (str "invalid value \"\\x1b[2J\" for flag -enc-index: parse error")).1 (by decide +kernel)
  exact ⟨_, h, harmless_ascii (by decide +kernel)⟩

/-- An unknown subcommand -/
example : Outside sampleOs saidPrompts ∧
    (mainE (goFmt asciiPrint) sampleOs toyWordList toyCrypto sampleEnv [str "\x1b[2J"] ⟨saidPrompts, [], []⟩).2.1 =
      str "ERROR: incorrect usage: unknown subcommand \"\\x1b[2J\"\n" := by
  refine ⟨⟨harmless_ascii (by decide +kernel), harmless_ascii (by decide +kernel), harmless_ascii (by decide +kernel),
    harmless_ascii (by decide +kernel), harmless_ascii (by decide +kernel), fun e he => ?_⟩, by decide +kernel⟩
  simp only [saidPrompts, List.mem_cons, List.not_mem_nil, or_false, reduceCtorEq, false_or] at he
  cases he
  exact harmless_ascii (by decide +kernel)

end Verif.Props
