import Verif.Proofs.PhraseScreen
import Verif.Proofs.Output
import Verif.Props.SimpleScreen
import Verif.Props.Convert

/-! # C79 A phrase can be read off the screen -/

namespace Verif.Props

open Verif.Model Verif.Model.Cli Verif.Proofs Verif.Spec Verif.Spec.Term Verif.Instances

theorem complete_words {L : WordList} (hL : L.Lawful) {words : List Bytes} (hc : Complete L.word words) :
    (∀ w ∈ words, ∀ b ∈ w, Printing b) ∧ (∀ w ∈ words, ∀ b ∈ w, b ≠ 0x20) ∧ words.length ≤ 16 := by
  obtain ⟨h1, w, rest, -, hn⟩ := hc
  refine ⟨?_, ?_, ?_⟩
  · intro x hx b hb
    obtain ⟨j, hj, rfl⟩ := h1 x hx
    exact printing_az (hL.word_az j hj b hb)
  · intro x hx b hb e
    obtain ⟨j, hj, rfl⟩ := h1 x hx
    have := hL.word_az j hj b hb
    rw [e] at this
    exact absurd this (by decide)
  · generalize words.length = n at hn
    cases hn <;> omega

/-- printMnemonic writes texts after which a screen with room shows the words. -/
theorem c79_shown {L : WordList} (hL : L.Lawful) (env : Env) (hcol : 17 ≤ env.columns) : ∃ texts : List Bytes → List Bytes,
    (∀ words st, printMnemonicV env words st = (.ok (), { st with
      events := st.events ++ Ev.act (.showPhrase words) :: (texts words).map .err })) ∧
    ∀ (words : List Bytes) (t : Term), Complete L.word words → Room t words →
      ShowsPhrase t (t.feed (sent (texts words))) words := by
  obtain ⟨out, h1, h2⟩ := notice_text hcol
  refine ⟨fun words => phraseTexts words out, printMnemonicV_ok h1, ?_⟩
  rintro words t hc ⟨he, hf, ht, hb, hbl, hw⟩
  obtain ⟨hpr, hns, hlen⟩ := complete_words hL hc
  have hl : ∀ j (hj : j < words.length), (numberedRow (j + 1) words[j]).length < t.width := by
    intro j hj
    rw [(label_length (by omega) _).1]
    exact hw _ (List.getElem_mem hj)
  obtain ⟨a1, a2, a3, row, a4, a5, a6, a7⟩ := phrase_screen h2 he hf ht hb hbl hpr hl
  refine ⟨a1, a3, row, a4, a5, ?_, a6, a7⟩
  apply List.ext_getElem
  · simp [wordsFrom]
  · intro i _ hi
    simp only [wordsFrom, List.getElem_map, List.getElem_range]
    exact wordAt_row (a6 i hi) (by omega) (hns _ (List.getElem_mem hi)) (by rw [a2]; exact hw _ (List.getElem_mem hi))

/-- The texts that follow the words of a phrase in a list of events -/
theorem last_texts {env : Env} {texts : List Bytes → List Bytes}
    (h : ∀ words st, printMnemonicV env words st = (.ok (), { st with
      events := st.events ++ Ev.act (.showPhrase words) :: (texts words).map .err })) (words : List Bytes) :
    Adds (printMnemonicV env words) (PhraseLast texts) := by
  intro st
  rw [h]
  refine ⟨_, rfl, ?_⟩
  intro pre ws post e
  cases pre with
  | nil =>
    simp only [List.nil_append, List.cons.injEq, Ev.act.injEq, Act.showPhrase.injEq] at e
    rw [← e.1, e.2]
  | cons x pre =>
    simp only [List.cons_append, List.cons.injEq] at e
    have : Ev.act (.showPhrase ws) ∈ (texts words).map Ev.err := by rw [e.2]; simp
    simp at this

/-- The words shown by some actions -/
def phrasesOf : List Act → List (List Bytes)
  | [] => []
  | .showPhrase ws :: as => ws :: phrasesOf as
  | _ :: as => phrasesOf as

theorem run_shown : ∀ (as : List Act) (w : World), (w.run as).shown = w.shown ++ phrasesOf as
  | [], w => (List.append_nil _).symm
  | a :: as, w => by
    have h : w.run (a :: as) = (w.step a).run as := rfl
    rw [h, run_shown as]
    cases a with
    | showPhrase ws => simp [phrasesOf, World.step]
    | openTrunc p perm => simp only [phrasesOf, World.step]; split <;> rfl
    | write b => simp only [phrasesOf, World.step]; split <;> rfl
    | stdout b => rfl

theorem mem_phrasesOf : ∀ {as : List Act} {ws : List Bytes}, ws ∈ phrasesOf as → Act.showPhrase ws ∈ as
  | .showPhrase x :: as, ws, h => by
    rcases List.mem_cons.1 h with rfl | h
    · simp
    · exact List.mem_cons_of_mem _ (mem_phrasesOf h)
  | .openTrunc _ _ :: as, ws, h => List.mem_cons_of_mem _ (mem_phrasesOf (as := as) h)
  | .write _ :: as, ws, h => List.mem_cons_of_mem _ (mem_phrasesOf (as := as) h)
  | .stdout _ :: as, ws, h => List.mem_cons_of_mem _ (mem_phrasesOf (as := as) h)

theorem acts_shown {es : List Ev} {fs : FS} {words : List Bytes}
    (h : ((atStart fs).run (es.filterMap actOf)).shown = [words]) : Ev.act (.showPhrase words) ∈ es := by
  rw [run_shown] at h
  have hm : words ∈ phrasesOf (es.filterMap actOf) := by
    have h' : phrasesOf (es.filterMap actOf) = [words] := h
    rw [h']; simp
  obtain ⟨e, he, ha⟩ := List.mem_filterMap.1 (mem_phrasesOf hm)
  cases e with
  | act a =>
    cases ha
    exact he
  | _ => cases ha

/-- generate with the options and passwords of C70 and without an output file shows, as the last thing it does,
words that can be read off the screen, and these hold the seed and the creation time of the key it has printed. With
C73, who types what they read into recover gets the key back. -/
theorem c79_generate (F : Fmt) {L : WordList} (hL : L.Lawful) {C : Crypto} (hC : C.Lawful) (env : Env)
    (hwf : env.fs.Wf) (opts : GenerateOptions) (verbose : Bool) {w : Wanted} {master : Prop}
    (hask : AsksFor opts.key 0 0 0 w master) (hu : w.userID.length < 2 ^ 32)
    (hnow : 1672531200 * 10 ^ 9 ≤ env.now) (hnow' : env.now ≤ (1672531200 + 2 ^ 31 - 1) * 10 ^ 9)
    {rnd e rnd' : Bytes} (hseed : SeedBytes env rnd opts.unsafeEntropy e rnd') (hrnd : 99 ≤ rnd'.length)
    {keyPw phrasePw : Option Bytes} (htyped : Typed opts.key.encryptKeys opts.encryptPhrase keyPw phrasePw)
    (hout : opts.outputWordFile = []) (hshow : 17 ≤ env.columns) :
    let r := generateAndPrintKeyV F L C env opts verbose
      ⟨keyPw.toList.map .ok ++ phrasePw.toList.map .ok, rnd, []⟩
    ∃ words before texts, r.1 = .ok () ∧
      r.2.events = before ++ Ev.act (.showPhrase words) :: texts.map .err ∧
      Complete L.word words ∧
      Holds (indexOf L) C.toPhraseCrypto words phrasePw (valueOfBytes e) ((env.now / 10 ^ 9).toNat - 1672531200) ∧
      ∀ t, Room t words → ShowsPhrase t (t.feed (sent texts)) words := by
  obtain ⟨hok, key, words, -, -, hc, hh, -, h4⟩ := c70_generate hL hC env hwf opts hask hu hnow hnow' hseed hrnd
    htyped [] (fun h => absurd hout h) (fun _ => hshow)
  obtain ⟨h5, -⟩ := h4 hout
  rw [List.append_nil] at hok h5
  obtain ⟨texts, t1, t2⟩ := c79_shown hL env hshow
  obtain ⟨r1, r2⟩ := refines_generate F L C env opts verbose ⟨keyPw.toList.map .ok ++ phrasePw.toList.map .ok, rnd, []⟩
  obtain ⟨es, e1, e2⟩ := generate_last F L C env opts verbose (last_texts t1)
    ⟨keyPw.toList.map .ok ++ phrasePw.toList.map .ok, rnd, []⟩
  rw [List.nil_append] at e1
  dsimp only
  have hmem : Ev.act (.showPhrase words) ∈ es := by
    refine acts_shown (fs := env.fs) ?_
    have : es.filterMap actOf = (generateAndPrintKey L C env opts).acts
        (keyPw.toList.map .ok ++ phrasePw.toList.map .ok) rnd := by
      rw [← e1]
      exact congrArg St.acts r2
    rw [this, h5]
  obtain ⟨pre, post, rfl⟩ := List.append_of_mem hmem
  have hp := e2 pre words post rfl
  subst hp
  exact ⟨words, pre, texts words, r1.trans hok, e1, hc, hh, fun t ht => t2 words t hc ht⟩

/-- The same for a phrase that convert shows. -/
theorem c79_convert {L : WordList} (hL : L.Lawful) {C : Crypto} (hC : C.Lawful) (env : Env)
    (opts : ConvertOptions) (verbose : Bool) {words : List Bytes} (hin : Gets L (offer L) env opts.input words)
    (hfile : opts.input.inputWordFile = []) {phrasePw newPw : Option Bytes} {seed offset : Nat}
    (hholds : Holds (indexOf L) C.toPhraseCrypto words phrasePw seed offset)
    (wrong : List Bytes) (hwrong : ∀ p ∈ wrong, WrongPassword L C words p)
    (hnew : newPw.isSome = opts.encryptPhrase) (hgood : newPw ≠ some [])
    {rnd : Bytes} (hrnd : 3 ≤ rnd.length) (hcol : 17 ≤ env.columns) :
    let r := decodeAndConvertPhraseV L C env opts verbose
      ⟨wrong.map .ok ++ phrasePw.toList.map .ok ++ newPw.toList.map .ok, rnd, []⟩
    ∃ words' before texts, r.1 = .ok () ∧
      r.2.events = before ++ Ev.act (.showPhrase words') :: texts.map .err ∧
      Complete L.word words' ∧ Holds (indexOf L) C.toPhraseCrypto words' newPw seed offset ∧
      ∀ t, Room t words' → ShowsPhrase t (t.feed (sent texts)) words' := by
  obtain ⟨hok, words', h5, hc, hh⟩ := c72_convert hL hC env opts hin hfile hholds wrong hwrong hnew hgood [] hrnd hcol
  rw [List.append_nil] at hok h5
  obtain ⟨texts, t1, t2⟩ := c79_shown hL env hcol
  generalize wrong.map Res.ok ++ phrasePw.toList.map Res.ok ++ newPw.toList.map Res.ok = prompts at hok h5 ⊢
  obtain ⟨r1, r2⟩ := refines_convert L C env opts verbose ⟨prompts, rnd, []⟩
  obtain ⟨es, e1, e2⟩ := convert_last L C env opts verbose (last_texts t1) ⟨prompts, rnd, []⟩
  rw [List.nil_append] at e1
  dsimp only
  have hmem : Ev.act (.showPhrase words') ∈ es := by
    refine acts_shown (fs := env.fs) ?_
    have : es.filterMap actOf = (decodeAndConvertPhrase L C env opts).acts prompts rnd := by
      rw [← e1]
      exact congrArg St.acts r2
    rw [this, h5]
  obtain ⟨pre, post, rfl⟩ := List.append_of_mem hmem
  have hp := e2 pre words' post rfl
  subst hp
  exact ⟨words', pre, texts words', r1.trans hok, e1, hc, hh, fun t ht => t2 words' t hc ht⟩

/-! ## examples -/

/-- There is room for a phrase on an empty terminal. -/
example : Room (emptyTerm 80 24) ((List.range 14).map toyWord) ∧
    Complete toyWordList.word ((List.range 14).map toyWord) := by
  refine ⟨⟨rfl, rfl, by decide, by decide, fun _ _ _ => rfl, by decide +kernel⟩, ?_, ?_⟩
  · intro w hw
    obtain ⟨j, hj, rfl⟩ := List.mem_map.1 hw
    exact ⟨j, by have := List.mem_range.1 hj; omega, rfl⟩
  · exact ⟨_, _, rfl, .plaintext 0 rfl⟩

/-- generate with both passwords, -verbose and a name and email -/
example (F : Fmt) : ∃ words before texts,
    (generateAndPrintKeyV F toyWordList toyCrypto sampleEnv
      { key := sampleKeyFlags, outputWordFile := [], encryptPhrase := true, unsafeEntropy := [] } true
      ⟨(some (str "key password")).toList.map .ok ++ (some (str "phrase password")).toList.map .ok,
        List.replicate 115 7, []⟩).2.events =
        before ++ Ev.act (.showPhrase words) :: texts.map .err ∧
      ∀ t, Room t words → ShowsPhrase t (t.feed (sent texts)) words := by
  obtain ⟨words, before, texts, -, h, -, -, h'⟩ := c79_generate F toyWordList_lawful toyCrypto_lawful sampleEnv
    sampleFS_wf
    { key := sampleKeyFlags, outputWordFile := [], encryptPhrase := true, unsafeEntropy := [] } true
    (sample_asks 0 0 0) (by decide) (by decide) (by decide)
    (.system (rnd := List.replicate 115 7) (e := List.replicate 16 7) (rest := List.replicate 99 7) rfl rfl)
    (by decide) (keyPw := some (str "key password")) (phrasePw := some (str "phrase password"))
    ⟨rfl, rfl, by rintro p ⟨⟩; decide, by rintro p ⟨⟩; decide⟩ rfl (by decide)
  exact ⟨words, before, texts, h, h'⟩

/-- The first rows of a phrase, as they reach the terminal -/
example : phraseTexts [str "abandon", str "zoo"] [] = [
    str "\nThis is the mnemonic phrase which can be used to recover the private key:\n\n",
    str "1:   \x1b[1m\x1b[35mabandon\x1b[39m\x1b[22m\n",
    str "2:   \x1b[1m\x1b[35mzoo\x1b[39m\x1b[22m\n",
    str "\nSave this phrase in a secure place, preferably offline, on paper.\n\n", [],
    str "\x1b[4mIf you do not save it now, you will \x1b[1mNEVER\x1b[22m see this phrase again.\n\n\x1b[24m"] := by
  decide +kernel

/-- What the rows look like -/
example : numberedRow 3 (str "zoo") = str "3:   zoo" ∧ numberedRow 16 (str "zoo") = str "16:  zoo" := by
  decide +kernel

end Verif.Props
