import Verif.Proofs.Obstacle

/-!
# How the steps that read, show or save a phrase end
-/

namespace Verif.Proofs

open Verif.Model Verif.Model.Cli Verif.Spec Verif.Props

/-! ## Making the phrase -/

theorem ends_worded {os : OsText} {b : Bool} {plain : Res (List Bytes)} {enc : Bytes → Bytes → Res (List Bytes × Bytes)}
    (hplain : ∃ ws, plain = .ok ws) (henc : ∀ pw, pw ≠ [] → Takes (enc pw) 3) {st : StE}
    (hps : ∀ r ∈ st.prompts, PromptAnswer r) {f : List Bytes → ProgE Unit} {o : OutcomeE Unit} {next : Ending}
    (hf : ∀ ws st', (f ws st').1 = o ↔ next o) :
    (((if b then (userInputPasswordE true >>= fun p => randomE (fun rnd =>
        explain (enc p rnd) (fun e => if e = .randomRead then os.random else []))) else
      liftE (noError plain) : ProgE (List Bytes)) >>= f) st).1 = o ↔
      Password b st.prompts (fun _ => Worded os b st.rnd.length next) o := by
  have e : ((if b then (userInputPasswordE true >>= fun p => randomE (fun rnd =>
        explain (enc p rnd) (fun e => if e = .randomRead then os.random else []))) else
      liftE (noError plain) : ProgE (List Bytes)) >>= f) =
      (if b then userInputPasswordE true else pure [] : ProgE Bytes) >>= fun p => (if b then randomE (fun rnd =>
        explain (enc p rnd) (fun e => if e = .randomRead then os.random else [])) else
        liftE (noError plain) : ProgE (List Bytes)) >>= f := by
    cases b
    · rfl
    · simp only [if_true, bindE_assoc]
  rw [e]
  refine ends_password hps fun p rest hb _ => ?_
  cases b with
  | false =>
    obtain ⟨ws, rfl⟩ := hplain
    rw [if_neg (by simp)]
    change (f ws _).1 = o ↔ _
    rw [hf]
    constructor
    · exact fun h => .good (by simp [randomForPhrase]) h
    · rintro (⟨h, -⟩ | ⟨-, h⟩)
      · cases h
      · exact h
  | true =>
    have hp : p ≠ [] := by simpa using hb.symm
    rw [if_pos rfl]
    by_cases h3 : 3 ≤ st.rnd.length
    · obtain ⟨ws, left, h1, h2⟩ := (henc p hp st.rnd).1 h3
      rw [bindE_ok (a := ws) (st' := ⟨rest, left, st.acts⟩) (by
        unfold randomE
        dsimp only
        rw [h1]; rfl), hf]
      constructor
      · exact fun h => .good (by simpa [randomForPhrase] using h3) h
      · rintro (⟨-, h⟩ | ⟨-, h⟩)
        · omega
        · exact h
    · rw [bindE_err (e := ⟨.randomRead, os.random⟩) (st' := ⟨rest, st.rnd, st.acts⟩) (by
        unfold randomE
        dsimp only
        rw [(henc p hp st.rnd).2 (by omega)]; rfl)]
      constructor
      · rintro rfl; exact .random rfl (by omega)
      · rintro (⟨-, h⟩ | ⟨h, -⟩)
        · rfl
        · simp [randomForPhrase] at h; omega

/-! ## Showing and saving it -/

theorem ends_displayed {env : Env} {ws : List Bytes} {st : StE} {o : OutcomeE Unit} :
    (noErrorE (printMnemonic env ws) st).1 = o ↔ Displayed env.columns o := by
  obtain ⟨-, h2, h3⟩ := c57_phrase_notice env.columns
  have key : Displayed env.columns (noErrorE (printMnemonic env ws) st).1 := by
    unfold noErrorE
    dsimp only
    by_cases h17 : 17 ≤ env.columns
    · rw [printMnemonic_ok h17 ws]
      exact .good h17
    · unfold printMnemonic
      by_cases hw : 2 ≤ env.columns
      · have : justifyTerminalWidth 19 env.columns 0 notice = none := h2 hw (by omega) 19
        dsimp only
        rw [this]
        exact .loops hw (by omega)
      · have : justifyTerminalWidth 19 env.columns 0 notice = some (.panic .divideByZero) := h3 (by omega) 19
        dsimp only
        rw [this]
        exact .panics (by omega)
  constructor
  · rintro rfl; exact key
  · intro h
    revert key
    generalize (noErrorE (printMnemonic env ws) st).1 = o'
    intro key
    cases key <;> cases h <;> first | rfl | omega

theorem save_outcome (os : OsText) (env : Env) (ws : List Bytes) (file : Bytes) (st : StE) :
    Saved os env file (saveE os env ws file st).1 := by
  have hread : env.fs.read file = none ↔ (env.fs.dir file).isSome = false := by
    unfold FS.read
    cases env.fs.dir file <;> simp
  have he : (saveE os env ws file st).1 = (liftE ((explain (saveMnemonic env.fs env.save ws file).2
      (saveText os file)).wrap (str "failed to write words to file")) st).1 := by
    unfold saveE
    rw [bindE_ok (x := noErrorE (emit _)) (a := ()) (st' := _) rfl]
    unfold liftE
    cases (explain (saveMnemonic env.fs env.save ws file).2 (saveText os file)).wrap
      (str "failed to write words to file") <;> rfl
  rw [he]
  unfold saveMnemonic
  cases hs : env.save.statFails with
  | true =>
    rw [if_pos rfl]
    have e : str "failed to write words to file: failed to write word-file to " =
      str "failed to write words to file" ++ str ": " ++ str "failed to write word-file to " := by decide +kernel
    have := Saved.unknown (os := os) (file := file) hs
    rw [e] at this
    simp only [List.append_assoc] at this
    simpa only [explain, ResE.wrap, liftE, saveText, List.append_assoc] using this
  | false =>
    rw [if_neg (by simp)]
    cases hd : (env.fs.dir file).isSome with
    | true =>
      rw [if_pos rfl]
      have e : str "failed to write words to file: refused to write word-file to " =
        str "failed to write words to file" ++ str ": " ++ str "refused to write word-file to " := by decide +kernel
      have := Saved.exists (os := os) (file := file) hs (fun h => by rw [hread, hd] at h; cases h)
      rw [e] at this
      simp only [List.append_assoc] at this
      simpa only [explain, ResE.wrap, liftE, saveText, List.append_assoc] using this
    | false =>
      rw [if_neg (by simp)]
      have hr := hread.2 hd
      have e : str "failed to write words to file: failed to write words to file: " =
          str "failed to write words to file" ++ str ": " ++ str "failed to write words to file: " := by
        decide +kernel
      cases ho : env.save.openFails with
      | true =>
        rw [if_pos rfl]
        have := Saved.refused (os := os) (file := file) hs hr (.inl ho)
        rw [e] at this
        simp only [List.append_assoc] at this
        simpa only [explain, ResE.wrap, liftE, saveText, List.append_assoc] using this
      | false =>
        rw [if_neg (by simp)]
        cases hw : env.save.writeFails with
        | some k =>
          have := Saved.refused (os := os) (file := file) hs hr (.inr (by simp [hw]))
          rw [e] at this
          simp only [List.append_assoc] at this
          simpa only [explain, ResE.wrap, liftE, saveText, List.append_assoc] using this
        | none => exact .good hs hr ho hw

theorem saved_unique {os : OsText} {env : Env} {file : Bytes} {o o' : OutcomeE Unit} (h : Saved os env file o)
    (h' : Saved os env file o') : o = o' := by
  cases h <;> cases h' <;> simp_all

theorem ends_saved {os : OsText} {env : Env} {ws : List Bytes} {file : Bytes} {st : StE} {o : OutcomeE Unit} :
    (saveE os env ws file st).1 = o ↔ Saved os env file o := by
  have key := save_outcome os env ws file st
  constructor
  · rintro rfl; exact key
  · exact fun h => saved_unique key h

/-- How generate ends, once there are a key and a phrase -/
theorem ends_generated {os : OsText} {env : Env} {out key : Bytes} {ws : List Bytes} {st : StE} {o : OutcomeE Unit} :
    ((do
      if out ≠ [] then saveE os env ws out
      noErrorE (printKey key)
      if out = [] then noErrorE (printMnemonic env ws) : ProgE Unit) st).1 = o ↔
      (if out = [] then Displayed env.columns else Saved os env out) o := by
  by_cases h : out = []
  · simp only [h, ne_eq, not_true, if_true, if_false]
    exact ends_displayed
  · simp only [h, ne_eq, not_false_eq_true, if_true, if_false]
    have key' := save_outcome os env ws out st
    rcases hs : saveE os env ws out st with ⟨o', st'⟩
    rw [hs] at key'
    have : ((saveE os env ws out >>= fun _ => (noErrorE (printKey key) >>= fun _ => pure () : ProgE Unit)) st).1 =
        o' := by
      cases key' with
      | good => rw [bindE_ok hs]; rfl
      | _ => exact bindE_err hs
    change ((saveE os env ws out >>= fun _ => (noErrorE (printKey key) >>= fun _ => pure () : ProgE Unit)) st).1 = o ↔ _
    rw [this]
    exact ⟨fun h => h ▸ key', fun h => saved_unique key' h⟩

/-! ## Reading the words -/

theorem known_iff {L : WordList} (hL : L.Lawful) {w : Bytes} : IsWord L.word w ↔ ∃ i, L.lookup w = some i :=
  ⟨fun ⟨j, hj⟩ => ⟨j, (hL.lookup_iff _ _).mpr hj⟩, fun ⟨j, hj⟩ => ⟨j, (hL.lookup_iff _ _).mp hj⟩⟩

theorem readLoopE_known {L : WordList} (hL : L.Lawful) {path : Bytes} : ∀ (ts acc rest : List Bytes),
    (∀ t ∈ ts, IsWord L.word (L.toLower t)) → acc.length + ts.length ≤ 100 →
    readLoopE L path acc (ts ++ rest) = readLoopE L path (acc ++ ts.map L.toLower) rest
  | [], acc, rest, _, _ => by simp
  | t :: ts, acc, rest, h, hlen => by
    obtain ⟨j, hj⟩ := (known_iff hL).1 (h t List.mem_cons_self)
    simp only [List.length_cons] at hlen
    rw [List.cons_append, readLoopE]
    dsimp only
    rw [hj]
    dsimp only
    rw [if_neg (by simp; omega), readLoopE_known hL ts _ rest (fun x hx => h x (List.mem_cons_of_mem _ hx))
      (by simp; omega)]
    simp

theorem readLoopE_unknown {L : WordList} (hL : L.Lawful) {path w : Bytes} {good rest : List Bytes}
    (hg : good.length ≤ 100) (h : ∀ t ∈ good, IsWord L.word (L.toLower t)) (hw : ¬ IsWord L.word (L.toLower w)) :
    readLoopE L path [] (good ++ w :: rest) =
      .err ⟨.fileBadWord, str "found word in " ++ path ++ str " not present in wordlist"⟩ := by
  rw [readLoopE_known hL good [] _ h (by simpa using hg), readLoopE]
  dsimp only
  rw [known_iff hL] at hw
  cases hl : L.lookup (L.toLower w) with
  | none => rfl
  | some i => exact absurd ⟨i, hl⟩ hw

theorem readLoopE_long {L : WordList} (hL : L.Lawful) {path : Bytes} {ts : List Bytes} (hl : 100 < ts.length)
    (h : ∀ t ∈ ts.take 101, IsWord L.word (L.toLower t)) :
    readLoopE L path [] ts = .err ⟨.fileBadFormat, str "invalid format for word file"⟩ := by
  have e : ts = ts.take 100 ++ ts[100] :: ts.drop 101 := by
    rw [← List.drop_eq_getElem_cons hl, List.take_append_drop]
  have hm : ts[100] ∈ ts.take 101 := List.mem_take_iff_getElem.2 ⟨100, by omega, rfl⟩
  obtain ⟨j, hj⟩ := (known_iff hL).1 (h _ hm)
  have hlen : (ts.take 100).length = 100 := by rw [List.length_take]; omega
  generalize ts[100] = w at e hj
  rw [e, readLoopE_known hL (ts.take 100) [] _ (fun t ht => h t (List.take_subset_take_left _ (by omega) ht))
    (by rw [hlen]; simp), readLoopE]
  dsimp only
  rw [hj]
  dsimp only
  rw [if_pos (by simp; omega)]

theorem readLoopE_all {L : WordList} (hL : L.Lawful) {path : Bytes} {ts : List Bytes} (hl : ts.length ≤ 100)
    (h : ∀ t ∈ ts, IsWord L.word (L.toLower t)) : readLoopE L path [] ts = .ok (ts.map L.toLower) := by
  have := readLoopE_known hL (path := path) ts [] [] h (by simpa using hl)
  rw [List.append_nil] at this
  rw [this]
  rfl

theorem ends_entered {os : OsText} {L : WordList} (hL : L.Lawful) {env : Env} {input : InputFlags}
    {f : List Bytes → ProgE Unit} {st : StE} {o : OutcomeE Unit} {next : List Bytes → Ending}
    (hf : ∀ ws, inputWords L env input = .ok ws → ((f ws st).1 = o ↔ next ws o)) :
    ((liftE (inputWordsE os L env input) >>= f) st).1 = o ↔
      Entered os L (offer L) env input next o := by
  have err : ∀ {e : GoErr}, inputWordsE os L env input = .err e →
      ((liftE (inputWordsE os L env input) >>= f) st).1 = .err e := by
    intro e h
    exact bindE_err (st' := st) (by rw [h]; rfl)
  have good : ∀ {ws}, inputWordsE os L env input = .ok ws →
      (((liftE (inputWordsE os L env input) >>= f) st).1 = o ↔ next ws o) := by
    intro ws h
    rw [bindE_ok (x := liftE (inputWordsE os L env input)) (a := ws) (st' := st) (by rw [h]; rfl)]
    exact hf ws (by rw [← plain_inputWords os, h]; rfl)
  by_cases hfile : input.inputWordFile = []
  · -- typed
    have gets : ∀ {ws}, inputWords L env input = .ok ws → Gets L (offer L) env input ws := (gets_iff hL).1
    have lines_eq : byLine env input = true → inputWords L env input = userInputMnemonicSimple L env.stdin := by
      intro hb
      unfold inputWords
      rw [if_neg (by simp [hfile]), if_pos hb]
    have keys_eq : byLine env input = false → inputWords L env input = userInputMnemonic L env.stdin := by
      intro hb
      unfold inputWords
      rw [if_neg (by simp [hfile]), if_neg (by simp [hb])]
    have lines : ∀ {r}, byLine env input = true → ByLines L.word L.toLower env.stdin r →
        inputWords L env input = entryRes r := fun hb h => (lines_eq hb).trans ((lines_iff hL _ _).2 h)
    have keys : ∀ {r}, byLine env input = false → ByKeys L.word (offer L) env.stdin r →
        inputWords L env input = entryRes r := fun hb h => (keys_eq hb).trans ((keys_iff hL _ _).2 h)
    have lines_end : ∀ {r}, byLine env input = true → inputWords L env input = entryRes r →
        ByLines L.word L.toLower env.stdin r := fun hb h => (lines_iff hL _ _).1 ((lines_eq hb).symm.trans h)
    have keys_end : ∀ {r}, byLine env input = false → inputWords L env input = entryRes r →
        ByKeys L.word (offer L) env.stdin r := fun hb h => (keys_iff hL _ _).1 ((keys_eq hb).symm.trans h)
    have hk : Kinds (fun e => e = .stdinRead ∨ (e = .aborted ∧ byLine env input = false)) (inputWords L env input) := by
      unfold inputWords
      rw [if_neg (by simp [hfile])]
      split
      · exact kinds_mono (kinds_simple _ _ _) fun e h => .inl h
      · rename_i hb
        exact kinds_mono (kinds_keys _ _) fun e h => h.imp id fun h => ⟨h, by simpa using hb⟩
    have hE : inputWordsE os L env input = explain (inputWords L env input)
        (if byLine env input then linesText else keysText) := by
      unfold inputWordsE inputWords
      simp only [hfile, ne_eq, not_true, if_false]
      cases byLine env input <;> rfl
    cases hi : inputWords L env input with
    | ok ws =>
      rw [hi] at hE
      rw [good hE]
      constructor
      · exact fun h => .typed hfile (gets hi) h
      · intro h
        cases h with
        | typed _ h1 h2 => rw [← gets_iff hL, hi] at h1; cases h1; exact h2
        | lines _ h0 h1 => rw [lines h0 h1] at hi; cases hi
        | keys _ h0 h1 => rw [keys h0 h1] at hi; cases hi
        | aborted _ h0 h1 => rw [keys h0 h1] at hi; cases hi
        | _ => contradiction
    | panic p =>
      rcases inputWords_cases hL env input with ⟨ws, h, -⟩ | ⟨e, h, -⟩ <;> rw [h] at hi <;> cases hi
    | err e =>
      rw [hi] at hE hk
      rw [err hE]
      rcases hk with rfl | ⟨rfl, hb⟩
      · cases hb : byLine env input with
        | true =>
          constructor
          · rintro rfl
            rw [if_pos rfl]
            exact .lines hfile hb (lines_end hb hi)
          · intro h
            cases h with
            | typed _ h1 h2 => rw [← gets_iff hL, hi] at h1; cases h1
            | lines _ _ h1 => rfl
            | keys _ h1 _ => exact absurd (hb.symm.trans h1) (by simp)
            | aborted _ h1 _ => exact absurd (hb.symm.trans h1) (by simp)
            | _ => contradiction
        | false =>
          constructor
          · rintro rfl
            exact .keys hfile hb (keys_end hb hi)
          · intro h
            cases h with
            | typed _ h1 h2 => rw [← gets_iff hL, hi] at h1; cases h1
            | lines _ h1 _ => exact absurd (hb.symm.trans h1) (by simp)
            | keys _ _ h1 => rfl
            | aborted _ h0 h1 => rw [keys h0 h1] at hi; cases hi
            | _ => contradiction
      · rw [hb]
        constructor
        · rintro rfl
          exact .aborted hfile hb (keys_end hb hi)
        · intro h
          cases h with
          | typed _ h1 h2 => rw [← gets_iff hL, hi] at h1; cases h1
          | lines _ h1 _ => exact absurd (hb.symm.trans h1) (by simp)
          | keys _ h0 h1 => rw [keys h0 h1] at hi; cases hi
          | aborted _ _ h1 => rfl
          | _ => contradiction
  · -- from a file
    have hE : inputWordsE os L env input = readWordFileE os L input.inputWordFile (env.fs.read input.inputWordFile) := by
      unfold inputWordsE
      rw [if_pos hfile]
    have count : ∀ {content : Bytes}, env.fs.read input.inputWordFile = some content → scanWords content ≠ [] →
        (scanWords content).length ≤ 100 → (∀ w ∈ scanWords content, IsWord L.word (L.toLower w)) →
        inputWordsE os L env input =
          if (scanWords content).length ≠ wordsWanted (announced L ((scanWords content).map L.toLower)) then
            .err ⟨.fileWordCount, str "found only " ++ dec (scanWords content).length ++ str " words in word file " ++
              input.inputWordFile ++ str ", expected " ++
              dec (wordsWanted (announced L ((scanWords content).map L.toLower))) ++ str " words for version " ++
              dec (announced L ((scanWords content).map L.toLower)) ++ str " phrase"⟩
          else .ok ((scanWords content).map L.toLower) := by
      intro content hc hne hlen hw
      rw [hE, hc]
      unfold readWordFileE
      dsimp only
      rw [readLoopE_all hL hlen hw]
      obtain ⟨t, ts, e⟩ := List.exists_cons_of_ne_nil hne
      rw [e]
      change (if (L.toLower t :: ts.map L.toLower).length ≠ mnemonicSize (parseMnemonicVersionRaw L (L.toLower t)).1 then
        ResE.err _ else ResE.ok _) = _
      rw [raw_announced (L.toLower t) (ts.map L.toLower), mnemonicSize_wanted]
      simp only [List.map_cons, List.length_cons, List.length_map]
      rfl
    have complete : ∀ {content : Bytes}, env.fs.read input.inputWordFile = some content →
        Complete L.word ((scanWords content).map L.toLower) →
        inputWordsE os L env input = .ok ((scanWords content).map L.toLower) := by
      intro content hc h
      apply plain_inv
      rw [plain_inputWords]
      unfold inputWords
      rw [if_pos hfile, hc, c47_reader hL]
      exact ⟨rfl, h⟩
    constructor
    · cases hc : env.fs.read input.inputWordFile with
      | none =>
        rw [err (e := ⟨.fileOpen, os.wordOpen⟩) (by rw [hE, hc]; rfl)]
        rintro rfl
        exact .noFile hfile hc
      | some content =>
        by_cases hun : ∃ w ∈ (scanWords content).take 101, ¬ IsWord L.word (L.toLower w)
        · obtain ⟨g, w, r, h1, h2, h3⟩ : ∃ g w r, (scanWords content).take 101 = g ++ w :: r ∧
              (∀ t ∈ g, IsWord L.word (L.toLower t)) ∧ ¬ IsWord L.word (L.toLower w) := by
            obtain ⟨w, hw, hw'⟩ := hun
            clear complete count good err
            generalize (scanWords content).take 101 = l at hw
            induction l with
            | nil => cases hw
            | cons a l ih =>
              by_cases ha : IsWord L.word (L.toLower a)
              · rcases List.mem_cons.1 hw with rfl | hw
                · exact absurd ha hw'
                · obtain ⟨g, w', r, h1, h2, h3⟩ := ih hw
                  refine ⟨a :: g, w', r, by rw [h1]; rfl, ?_, h3⟩
                  intro t ht
                  rcases List.mem_cons.1 ht with rfl | ht
                  · exact ha
                  · exact h2 t ht
              · exact ⟨[], a, l, rfl, by simp, ha⟩
          have hg : g.length ≤ 100 := by
            have := congrArg List.length h1
            rw [List.length_take, List.length_append, List.length_cons] at this
            omega
          have e : scanWords content = g ++ w :: (r ++ (scanWords content).drop 101) := by
            conv_lhs => rw [← List.take_append_drop 101 (scanWords content), h1]
            simp
          rw [err (by
            rw [hE, hc]
            unfold readWordFileE
            dsimp only
            rw [e, readLoopE_unknown hL hg h2 h3]
            rfl)]
          rintro rfl
          exact .unknown hfile hc (words_iff.2 e) hg h2 h3
        · push Not at hun
          by_cases hlen : 100 < (scanWords content).length
          · rw [err (by
              rw [hE, hc]
              unfold readWordFileE
              dsimp only
              rw [readLoopE_long hL hlen hun]
              rfl)]
            rintro rfl
            exact .tooLong hfile hc (words_iff.2 rfl) hlen hun
          · rw [List.take_of_length_le (by omega)] at hun
            by_cases hnil : scanWords content = []
            · rw [err (by
                rw [hE, hc]
                unfold readWordFileE
                dsimp only
                rw [hnil]
                rfl)]
              rintro rfl
              exact .noWords hfile hc (words_iff.2 hnil)
            · have hcount := count hc hnil (by omega) hun
              by_cases hn : (scanWords content).length ≠
                  wordsWanted (announced L ((scanWords content).map L.toLower))
              · rw [if_pos hn] at hcount
                rw [err hcount]
                rintro rfl
                exact .count hfile hc (words_iff.2 rfl) hnil (by omega) hun rfl rfl hn
              · rw [if_neg hn] at hcount
                rw [good hcount]
                intro h
                refine .file hfile hc (words_iff.2 rfl) ?_ h
                have hp : inputWords L env input = .ok ((scanWords content).map L.toLower) := by
                  rw [← plain_inputWords os, hcount]; rfl
                unfold inputWords at hp
                rw [if_pos hfile, hc, c47_reader hL] at hp
                exact hp.2
    · intro h
      cases h with
      | noFile _ hc => exact err (by rw [hE, hc]; rfl)
      | unknown _ hc e hg h2 h3 =>
        exact err (by
          rw [hE, hc]
          unfold readWordFileE
          dsimp only
          rw [words_iff.1 e, readLoopE_unknown hL hg h2 h3]
          rfl)
      | tooLong _ hc hw hlen hun =>
        obtain rfl := words_iff.1 hw
        exact err (by
          rw [hE, hc]
          unfold readWordFileE
          dsimp only
          rw [readLoopE_long hL hlen hun]
          rfl)
      | noWords _ hc hnil =>
        exact err (by
          rw [hE, hc]
          unfold readWordFileE
          dsimp only
          rw [words_iff.1 hnil]
          rfl)
      | count _ hc hw hnil hlen hun e1 e2 hn =>
        obtain rfl := words_iff.1 hw
        subst e1 e2
        have hcount := count hc hnil hlen hun
        rw [if_pos hn] at hcount
        exact err hcount
      | file _ hc hw hcomp h =>
        obtain rfl := words_iff.1 hw
        exact (good (complete hc hcomp)).2 h
      | _ => contradiction

/-! ## Decoding the phrase -/

theorem unreadable_text {L : WordList} {ws : List Bytes} {e : Err} {t : Bytes} (h : Unreadable L ws e t)
    (hr : readPhrase (indexOf L) ws = .error e) : t = decodeText L ws e := by
  cases h with
  | version =>
    unfold decodeText
    cases ws with
    | nil => cases hr
    | cons w ws => rw [List.headD_cons, raw_announced w ws]; rfl
  | _ => rfl

theorem unreadable_error {L : WordList} {ws : List Bytes} {e : Err} (h : readPhrase (indexOf L) ws = .error e) :
    Unreadable L ws e (decodeText L ws e) := by
  have : ∃ t, Unreadable L ws e t := by
    have h' := h
    unfold readPhrase at h
    split at h
    · cases h; exact ⟨_, .size⟩
    · split at h
      · cases h; exact ⟨_, .word⟩
      · rename_i w ws i hi
        dsimp only at h
        split at h
        · cases h; exact ⟨_, .version⟩
        · generalize (if val ((bits 12 i).take 4) = 0 then 14 else 16) = k at h
          split at h
          · cases h; exact ⟨_, .size⟩
          · split at h
            · cases h; exact ⟨_, .word⟩
            · split at h
              · cases h; exact ⟨_, .checksum⟩
              · split at h <;> cases h
  obtain ⟨t, ht⟩ := this
  rw [← unreadable_text ht h]
  exact ht

theorem loopE_wrong {C : Crypto} {dm : DecodedMnemonic} : ∀ (wrong : List Bytes) (rest : List (ResE Bytes)),
    (∀ p ∈ wrong, dm.decryptSeed C.toPhraseCrypto p = .err .mnemonicDecryption) →
    passwordLoopE C dm (wrong.map .ok ++ rest) = passwordLoopE C dm rest
  | [], _, _ => rfl
  | p :: wrong, rest, h => by
    rw [List.map_cons, List.cons_append, passwordLoopE, h p List.mem_cons_self]
    exact loopE_wrong wrong rest fun q hq => h q (List.mem_cons_of_mem _ hq)

/-- The passwords up to the first that is right, or up to an error -/
theorem split_prompts (P : Bytes → Prop) : ∀ (prompts : List (ResE Bytes)), (∀ r ∈ prompts, PromptAnswer r) →
    ∃ (wrong : List Bytes) (rest : List (ResE Bytes)), (∀ p ∈ wrong, P p) ∧ prompts = wrong.map .ok ++ rest ∧
      (rest = [] ∨ (∃ x more, rest = .err x :: more) ∨ ∃ p more, rest = .ok p :: more ∧ ¬ P p)
  | [], _ => ⟨[], [], by simp, rfl, .inl rfl⟩
  | r :: prompts, h => by
    have hr := h r List.mem_cons_self
    cases hr with
    | @failed e he => exact ⟨[], _, by simp, rfl, .inr (.inl ⟨e, prompts, rfl⟩)⟩
    | @password p hp =>
      by_cases hP : P p
      · obtain ⟨wrong, rest, h1, h2, h3⟩ := split_prompts P prompts fun r hr => h r (List.mem_cons_of_mem _ hr)
        refine ⟨p :: wrong, rest, ?_, by rw [h2]; rfl, h3⟩
        intro q hq
        rcases List.mem_cons.1 hq with rfl | hq
        · exact hP
        · exact h1 q hq
      · exact ⟨[], _, by simp, rfl, .inr (.inr ⟨p, prompts, rfl, hP⟩)⟩

theorem split_unique {P : Bytes → Prop} {r r' : List (ResE Bytes)} : ∀ {wrong wrong' : List Bytes},
    (∀ p ∈ wrong, P p) → (∀ p ∈ wrong', P p) →
    (r = [] ∨ (∃ x more, r = .err x :: more) ∨ ∃ p more, r = .ok p :: more ∧ ¬ P p) →
    (r' = [] ∨ (∃ x more, r' = .err x :: more) ∨ ∃ p more, r' = .ok p :: more ∧ ¬ P p) →
    wrong.map .ok ++ r = wrong'.map .ok ++ r' → r = r'
  | [], [], _, _, _, _, h => h
  | a :: wrong, b :: wrong', h1, h2, h3, h4, h => by
    rw [List.map_cons, List.map_cons, List.cons_append, List.cons_append, List.cons.injEq] at h
    exact split_unique (fun q hq => h1 q (List.mem_cons_of_mem _ hq))
      (fun q hq => h2 q (List.mem_cons_of_mem _ hq)) h3 h4 h.2
  | [], b :: wrong', _, h2, h3, _, h => by
    rw [List.map_nil, List.nil_append, List.map_cons, List.cons_append] at h
    rcases h3 with h3 | ⟨x, more, h3⟩ | ⟨p, more, h3, hp⟩
    · rw [h3] at h; cases h
    · rw [h3] at h; cases h
    · rw [h3] at h; cases h
      exact absurd (h2 _ List.mem_cons_self) hp
  | a :: wrong, [], h1, _, _, h4, h => by
    rw [List.map_nil, List.nil_append, List.map_cons, List.cons_append] at h
    rcases h4 with h4 | ⟨x, more, h4⟩ | ⟨p, more, h4, hp⟩
    · rw [h4] at h; cases h
    · rw [h4] at h; cases h
    · rw [h4] at h; cases h
      exact absurd (h1 _ List.mem_cons_self) hp

theorem ends_unlocked {L : WordList} (hL : L.Lawful) {C : Crypto} (hC : C.Lawful) {ws : List Bytes}
    {f : Seed × DecodedMnemonic → ProgE Unit} {st : StE} (hps : ∀ r ∈ st.prompts, PromptAnswer r)
    {o : OutcomeE Unit} {next : List (ResE Bytes) → Ending}
    (hf : ∀ (n : Nat) (dm : DecodedMnemonic) rest, n < 2 ^ 128 → dm.creationOffset < 2 ^ 31 →
      (∀ r ∈ rest, PromptAnswer r) → ((f (⟨0, n⟩, dm) { st with prompts := rest }).1 = o ↔ next rest o)) :
    (((liftE (decodeMnemonicE L ws) >>= fun dm => askSeedE C dm >>= fun seed => pure (seed, dm)) >>= f) st).1 = o ↔
      Unlocked L (indexOf L) C.toPhraseCrypto ws st.prompts next o := by
  obtain ⟨ps, rnd, acts⟩ := st
  dsimp only at hps hf ⊢
  rw [bindE_assoc]
  have hd := decodeMnemonic_spec hL ws
  change decodeMnemonic L ws = toRes (readPhrase (indexOf L) ws) at hd
  cases hr : readPhrase (indexOf L) ws with
  | error e =>
    rw [hr] at hd
    have h1 : decodeMnemonicE L ws = .err ⟨e, decodeText L ws e⟩ := by
      unfold decodeMnemonicE
      rw [hd]; rfl
    rw [bindE_err (e := ⟨e, decodeText L ws e⟩) (st' := ⟨ps, rnd, acts⟩) (by rw [h1]; rfl)]
    constructor
    · rintro rfl
      exact .unreadable hr (unreadable_error hr)
    · intro h
      cases h with
      | unreadable h1 h2 =>
        rw [hr] at h1
        cases h1
        rw [unreadable_text h2 hr]
      | plaintext h => cases hr.symm.trans h
      | waits h => cases hr.symm.trans h
      | failed h => cases hr.symm.trans h
      | right _ h =>
        obtain ⟨_, _, _, h, _⟩ := h
        cases hr.symm.trans h
  | ok c =>
    have hfit := readPhrase_fits hr
    rw [hr] at hd
    have h1 : decodeMnemonicE L ws = .ok (decodedOf c) := by
      unfold decodeMnemonicE
      rw [hd]; rfl
    rw [bindE_ok (x := liftE (decodeMnemonicE L ws)) (a := decodedOf c) (st' := ⟨ps, rnd, acts⟩) (by rw [h1]; rfl)]
    cases c with
    | plaintext s off =>
      have h2 : (decodedOf (.plaintext s off)).decryptSeed C.toPhraseCrypto [] = .ok ⟨0, (s : Int)⟩ :=
        (newSeed_ok_iff 0 s _).mpr ⟨rfl, by simpa using hfit.1, rfl⟩
      have h3 : askSeedE C (decodedOf (.plaintext s off)) ⟨ps, rnd, acts⟩ = (.ok ⟨0, (s : Int)⟩, ⟨ps, rnd, acts⟩) := by
        unfold askSeedE
        rw [if_neg (show ¬ (decodedOf (.plaintext s off)).encrypted = true by simp [decodedOf, DecodedMnemonic.encrypted,
          versionEncrypted])]
        unfold noErrorE askSeed
        dsimp only
        rw [seedLoop_plain rfl h2]
      rw [bindE_assoc, bindE_ok h3]
      change (f (⟨0, (s : Int)⟩, decodedOf (.plaintext s off)) ⟨ps, rnd, acts⟩).1 = o ↔ _
      rw [hf s _ ps hfit.1 hfit.2 hps]
      constructor
      · exact fun h => .plaintext hr h
      · intro h
        cases h with
        | unreadable h1 h2 => cases hr.symm.trans h1
        | plaintext _ h => exact h
        | waits h => cases hr.symm.trans h
        | failed h => cases hr.symm.trans h
        | right _ h =>
          obtain ⟨_, _, _, h, _⟩ := h
          cases hr.symm.trans h
    | encrypted e salt v off =>
      have key : ∀ p, (decodedOf (.encrypted e salt v off)).decryptSeed C.toPhraseCrypto p =
          match Spec.decryptSeed C.toPhraseCrypto p e salt v off with
          | none => .err .mnemonicDecryption
          | some x => .ok ⟨0, x⟩ := fun p => decryptSeed_spec hC.phrase p hfit
      have wrong_iff : ∀ p, (∀ s o, ¬ Holds (indexOf L) C.toPhraseCrypto ws (some p) s o) ↔
          Spec.decryptSeed C.toPhraseCrypto p e salt v off = none := by
        intro p
        constructor
        · intro h
          cases hx : Spec.decryptSeed C.toPhraseCrypto p e salt v off with
          | none => rfl
          | some x => exact absurd ⟨e, salt, v, hr, hx⟩ (h x off)
        · rintro h s o ⟨e', s', v', h1, h2⟩
          cases hr.symm.trans h1
          rw [h] at h2
          cases h2
      have wrong_dec : ∀ p, (∀ s o, ¬ Holds (indexOf L) C.toPhraseCrypto ws (some p) s o) →
          (decodedOf (.encrypted e salt v off)).decryptSeed C.toPhraseCrypto p = .err .mnemonicDecryption := by
        intro p h
        rw [key, (wrong_iff p).1 h]
      have hask : ∀ {prompts' out}, passwordLoopE C (decodedOf (.encrypted e salt v off)) ps = (out, prompts') →
          askSeedE C (decodedOf (.encrypted e salt v off)) ⟨ps, rnd, acts⟩ = (out, ⟨prompts', rnd, acts⟩) := by
        intro prompts' out h
        unfold askSeedE
        rw [if_pos (show (decodedOf (.encrypted e salt v off)).encrypted = true from rfl)]
        dsimp only
        rw [h]
      obtain ⟨wrong, rest, hw, hps', hrest⟩ := split_prompts
        (fun p => ∀ s o, ¬ Holds (indexOf L) C.toPhraseCrypto ws (some p) s o) ps hps
      have uniq : ∀ {wrong' : List Bytes} {rest' : List (ResE Bytes)}, (∀ p ∈ wrong', ∀ s o, ¬ Holds (indexOf L) C.toPhraseCrypto ws (some p) s o) →
          ps = wrong'.map .ok ++ rest' → (rest' = [] ∨ (∃ x more, rest' = .err x :: more) ∨
            ∃ p more, rest' = .ok p :: more ∧
              ¬ ∀ s o, ¬ Holds (indexOf L) C.toPhraseCrypto ws (some p) s o) → rest = rest' := by
        intro wrong' rest' h1 h2 h3
        exact split_unique hw h1 hrest h3 (hps'.symm.trans h2)
      have hloop := loopE_wrong (C := C) (dm := decodedOf (.encrypted e salt v off)) wrong rest
        (fun p hp => wrong_dec p (hw p hp))
      rw [← hps'] at hloop
      have right' : ∀ {p s o}, Holds (indexOf L) C.toPhraseCrypto ws (some p) s o →
          ¬ ∀ s o, ¬ Holds (indexOf L) C.toPhraseCrypto ws (some p) s o := fun h h' => h' _ _ h
      rw [bindE_assoc]
      rcases hrest with rfl | ⟨x, more, rfl⟩ | ⟨p, more, rfl, hp⟩
      · rw [bindE_waits (hask (hloop.trans rfl))]
        constructor
        · rintro rfl
          exact .waits hr hw (by simpa using hps')
        · intro h
          cases h with
          | unreadable h1 h2 => cases hr.symm.trans h1
          | plaintext h => cases hr.symm.trans h
          | waits h => rfl
          | failed _ h1 h2 => cases uniq h1 h2 (.inr (.inl ⟨_, _, rfl⟩))
          | right h1 h2 h3 => cases uniq h1 h3 (.inr (.inr ⟨_, _, rfl, right' h2⟩))
      · rw [bindE_err (hask (hloop.trans rfl))]
        constructor
        · rintro rfl
          exact .failed hr hw hps'
        · intro h
          cases h with
          | unreadable h1 h2 => cases hr.symm.trans h1
          | plaintext h => cases hr.symm.trans h
          | waits _ h1 h2 => cases uniq (rest' := []) h1 (by simpa using h2) (.inl rfl)
          | failed _ h1 h2 => cases uniq h1 h2 (.inr (.inl ⟨_, _, rfl⟩)); rfl
          | right h1 h2 h3 => cases uniq h1 h3 (.inr (.inr ⟨_, _, rfl, right' h2⟩))
      · rw [wrong_iff] at hp
        cases hx : Spec.decryptSeed C.toPhraseCrypto p e salt v off with
        | none => exact absurd hx hp
        | some x =>
          have hkey := key p
          rw [hx] at hkey
          rw [bindE_ok (hask (hloop.trans (by rw [passwordLoopE, hkey])))]
          change (f (⟨0, (x : Int)⟩, decodedOf (.encrypted e salt v off)) ⟨more, rnd, acts⟩).1 = o ↔ _
          rw [hf x _ more (decryptSeed_lt hC.phrase hfit hx) hfit.2.2.2 (fun r hr => hps r (by
            rw [hps']
            exact List.mem_append_right _ (List.mem_cons_of_mem _ hr)))]
          constructor
          · exact fun h => .right hw ⟨e, salt, v, hr, hx⟩ hps' h
          · intro h
            cases h with
            | unreadable h1 h2 => cases hr.symm.trans h1
            | plaintext h => cases hr.symm.trans h
            | waits _ h1 h2 => cases uniq (rest' := []) h1 (by simpa using h2) (.inl rfl)
            | failed _ h1 h2 => cases uniq h1 h2 (.inr (.inl ⟨_, _, rfl⟩))
            | right h1 h2 h3 h4 =>
              cases uniq h1 h3 (.inr (.inr ⟨_, _, rfl, right' h2⟩))
              exact h4

end Verif.Proofs
