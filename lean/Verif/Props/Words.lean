import Verif.Proofs.Words
import Verif.Props.Commands

/-!
# Which words a command reads (C94)

`Verif.Spec.Words` says what becomes of a file, of lines and of keys, including the left arrow, which the other
theorems on the prompts leave out or count only.
-/

namespace Verif.Props

open Verif.Model Verif.Model.Cli Verif.Proofs Verif.Spec Verif.Instances

/-- Every file has one list of words, and the command takes it if it can be a phrase. -/
theorem c94_file {L : WordList} (hL : L.Lawful) (content : Bytes) :
    ∃ ts, WordsIn content ts ∧ (∀ ts', WordsIn content ts' → ts' = ts) ∧
      ∀ ws, readWordFile L (some content) = .ok ws ↔ ws = ts.map L.toLower ∧ Complete L.word ws :=
  ⟨scanWords content, words_iff.2 rfl, fun _ h => (words_iff.1 h).symm, c47_reader hL content⟩

/-- Whatever is typed at the interactive prompt leads to one end: the prompt returns words, is aborted, or fails
because the input ends. -/
theorem c94_keys {L : WordList} (hL : L.Lawful) (keys : Bytes) :
    (∃ r, ByKeys L.word (offer L) keys r ∧ ∀ r', ByKeys L.word (offer L) keys r' → r' = r) ∧
    (∀ ws, userInputMnemonic L keys = .ok ws ↔ ByKeys L.word (offer L) keys (.words ws)) ∧
    (userInputMnemonic L keys = .err .aborted ↔ ByKeys L.word (offer L) keys .aborted) ∧
    (userInputMnemonic L keys = .err .stdinRead ↔ ByKeys L.word (offer L) keys .ended) := by
  refine ⟨?_, fun ws => keys_iff hL keys (.words ws), keys_iff hL keys .aborted, keys_iff hL keys .ended⟩
  obtain ⟨r, -, e⟩ := follows_run hL keys .start .start ⟨rfl, rfl, rfl, .inl ⟨rfl, rfl, by decide⟩⟩ (by decide)
  have e : userInputMnemonic L keys = entryRes r := e
  exact ⟨r, (keys_iff hL keys r).1 e, fun r' h => entryRes_inj (((keys_iff hL keys r').2 h).symm.trans e)⟩

/-- Whatever is typed at the prompt without raw mode leads to one end: the prompt returns words, or fails because
the input ends. -/
theorem c94_lines {L : WordList} (hL : L.Lawful) (input : Bytes) :
    (∃ r, ByLines L.word L.toLower input r ∧ ∀ r', ByLines L.word L.toLower input r' → r' = r) ∧
    (∀ ws, userInputMnemonicSimple L input = .ok ws ↔ ByLines L.word L.toLower input (.words ws)) ∧
    (userInputMnemonicSimple L input = .err .stdinRead ↔ ByLines L.word L.toLower input .ended) := by
  refine ⟨?_, fun ws => lines_iff hL input (.words ws), lines_iff hL input .ended⟩
  have : ∃ r, userInputMnemonicSimple L input = entryRes r := by
    rw [c50_simple hL]
    cases simpleWanted L.word ((scanLines input).map (fun line => L.toLower (trimSpace line))) with
    | none => exact ⟨.ended, rfl⟩
    | some ws => exact ⟨.words ws, rfl⟩
  obtain ⟨r, e⟩ := this
  exact ⟨r, (lines_iff hL input r).1 e, fun r' h => entryRes_inj (((lines_iff hL input r').2 h).symm.trans e)⟩

/-- recover and convert go on with a phrase exactly if these words were got and are the words of the phrase. -/
theorem c94_command {L : WordList} (hL : L.Lawful) (env : Env) (input : InputFlags) (ws : List Bytes) :
    inputWords L env input = .ok ws ↔ Gets L (offer L) env input ws :=
  gets_iff hL

/-! Examples -/

/-- Two words in a file, with an ideographic space, a no-break space and an invalid byte -/
example : WordsIn ([0x20, 0x61, 0xE3, 0x80, 0x80, 0x62, 0xFF, 0xC2, 0xA0]) [[0x61], [0x62, 0xFF]] := by
  refine .next (gap := [0x20]) (w := [0x61]) (c := 0x3000) ⟨[0x20], by decide, by decide⟩ (by simp) ?_ (by decide)
    (by decide) (.next (gap := []) (w := [0x62, 0xFF]) (c := 0xA0) (t := []) ⟨[], by simp, rfl⟩ (by simp) ?_
      (by decide) (by decide) (.none ⟨[], by simp, rfl⟩))
  · unfold Solid; decide +kernel
  · unfold Solid; decide +kernel

/-- A word of 65534 bytes is read if a blank follows, but not if an em space follows: its third byte is beyond the
buffer. -/
example (t : Bytes) (ws : List Bytes) (h : WordsIn t ws) :
    WordsIn (List.replicate 65534 0x61 ++ (utf8 0x20 ++ t)) (List.replicate 65534 0x61 :: ws) ∧
    WordsIn (List.replicate 65534 0x61 ++ (utf8 0x2003 ++ t)) [] := by
  have hc : ∀ b : Byte, b ≠ 0x61 → (List.replicate 65534 (0x61 : Byte)).count b = 0 := fun b hb => by
    rw [List.count_replicate]
    simp [Ne.symm hb]
  have hlen : (List.replicate 65534 (0x61 : Byte)).length = 65534 := List.length_replicate
  generalize List.replicate 65534 (0x61 : Byte) = w at hc hlen
  have solid : ∀ more : Bytes, (∀ c ∈ whiteSpace, ∃ b ∈ utf8 c, b ≠ 0x61 ∧ more.count b < (utf8 c).count b) →
      Solid (w ++ more) := by
    intro more hm c hc' hi
    obtain ⟨b, -, hb, hlt⟩ := hm c hc'
    have := hi.sublist.count_le b
    rw [List.count_append, hc b hb] at this
    omega
  constructor
  · refine .next (gap := []) (w := w) (c := 0x20) ⟨[], by simp, rfl⟩ ?_ ?_ (by decide) ?_ h
    · rintro rfl; cases hlen
    · have := solid [] (by decide)
      rwa [List.append_nil] at this
    · rw [hlen]; decide
  · have e : w ++ (utf8 0x2003 ++ t) = [] ++ ((w ++ [0xE2, 0x80]) ++ ([0x83] ++ t)) := by
      rw [List.nil_append, List.append_assoc]; rfl
    rw [e]
    exact .long ⟨[], by simp, rfl⟩ (solid _ (by decide)) (by rw [List.length_append, hlen]; rfl)

/-- The left arrow, then a word of unknown version and a phrase: the prompt returns 15 words, and recover says that
the version is invalid. Elsewhere the prompt refuses that word. -/
example :
    let keys := [68] ++ toyWord 512 ++ [13] ++ (List.replicate 14 (toyWord 5 ++ [13])).flatten
    ByKeys toyWordList.word (offer toyWordList) keys (.words (toyWord 512 :: List.replicate 14 (toyWord 5))) ∧
    decodeMnemonic toyWordList (toyWord 512 :: List.replicate 14 (toyWord 5)) = .err .invalidVersion ∧
    ByKeys toyWordList.word (offer toyWordList) (toyWord 512 ++ [13]) .ended := by
  refine ⟨((c94_keys toyWordList_lawful _).2.1 _).1 (by decide +kernel), by decide +kernel,
    (c94_keys toyWordList_lawful _).2.2.2.1 (by decide +kernel)⟩

/-- Back and forth: a first word for 16 words is followed by one for 14 after a left arrow, which decides. -/
example :
    let keys := toyWord 256 ++ [13, 68] ++ (List.replicate 14 (toyWord 5 ++ [32])).flatten
    ByKeys toyWordList.word (offer toyWordList) keys (.words (toyWord 256 :: List.replicate 14 (toyWord 5))) :=
  ((c94_keys toyWordList_lawful _).2.1 _).1 (by decide +kernel)

/-- Tabulator, backspace, a key without meaning and CTRL+C -/
example : ByKeys toyWordList.word (offer toyWordList) ([0x61, 9, 127, 0x31, 3]) .aborted :=
  (c94_keys toyWordList_lawful _).2.2.1.1 (by decide +kernel)

/-- Lines in capitals, one that is no word, and no line feed at the end -/
example : ByLines toyWordList.word toyWordList.toLower
    (str "xyz\n  AAF \n" ++ (List.replicate 12 (toyWord 5 ++ [10])).flatten ++ toyWord 5)
    (.words (List.replicate 14 (toyWord 5))) ∧
    ByLines toyWordList.word toyWordList.toLower (str "xyz\n  AAF \n") .ended :=
  ⟨((c94_lines toyWordList_lawful _).2.1 _).1 (by decide +kernel),
    (c94_lines toyWordList_lawful _).2.2.1 (by decide +kernel)⟩

/-- Without -simple on a terminal that has no raw mode -/
example : Gets toyWordList (offer toyWordList)
    { sampleEnv with stdin := (List.replicate 14 (toyWord 5 ++ [10])).flatten, rawError := some (str "no terminal") }
    ⟨false, []⟩ (List.replicate 14 (toyWord 5)) :=
  (c94_command toyWordList_lawful _ _ _).1 (by decide +kernel)

end Verif.Props
