import Mathlib.Logic.Relation
import Verif.Spec.Person
import Verif.Props.Session
import Verif.Props.Keyboard

/-!
# C110: from the keys that somebody presses to the key of the phrase

C105 (what the terminal driver makes of keys) and C108 (what the commands make of what they read) together, and then any
history of commands: a key is generated, its phrase converted any number of times, and the key recovered.
-/

namespace Verif.Props

open Verif.Model Verif.Model.Cli Verif.Spec Verif.Proofs Verif.Instances

theorem bytes_of_pieces : ∀ (ps : List Pressed) (line : Bytes), byteByByte (piecesFrom line ps) = deliverFrom line ps
  | [], _ => rfl
  | .key k :: ps, line => bytes_of_pieces ps (press line k)
  | .enter :: ps, line => by
    have ih := bytes_of_pieces ps []
    rw [piecesFrom, deliverFrom, ← ih]
    unfold byteByByte
    rw [List.flatMap_cons, if_neg (by simp)]
    simp
  | .eof :: ps, line => by
    have ih := bytes_of_pieces ps []
    rw [piecesFrom, deliverFrom, ← ih]
    unfold byteByByte
    rw [List.flatMap_cons]

theorem pieces_line (keys : List Stroke) (rest : List Pressed) : ∀ line, piecesFrom line (keys.map .key ++ rest) =
    piecesFrom (keys.foldl press line) rest := by
  induction keys with
  | nil => intro line; rfl
  | cons k keys ih => intro line; exact ih (press line k)

theorem pieces_entering (typed : List (List Stroke)) (rest : List Pressed) :
    piecesOf (entering typed ++ rest) = enteredLines (typed.map edited) ++ piecesOf rest := by
  induction typed with
  | nil => rfl
  | cons keys typed ih =>
    have e : entering (keys :: typed) ++ rest = keys.map .key ++ (.enter :: (entering typed ++ rest)) := by
      simp [entering]
    unfold piecesOf at ih ⊢
    rw [e, pieces_line, piecesFrom, ih]
    rfl

open Classical in
theorem wanted_append {word : Nat → Bytes} {a ws : List Bytes} (b : List Bytes) (h : simpleWanted word a = some ws) :
    simpleWanted word (a ++ b) = some ws := by
  unfold simpleWanted at h ⊢
  simp only at h ⊢
  rw [List.filter_append]
  generalize List.filter _ a = x at h ⊢
  generalize List.filter _ b = y
  have hd : ∀ (q : Bytes → Bool) (w : Bytes) (r : List Bytes), x.dropWhile q = w :: r →
      (x ++ y).dropWhile q = w :: r ++ y := by
    intro q w r h
    have hne : ¬ ∀ z ∈ x, q z = true := fun hall => by
      rw [List.dropWhile_eq_nil_iff.2 hall] at h; cases h
    rw [List.dropWhile_append, if_neg (by rw [h]; simp), h]
  split at h
  · cases h
  · rename_i w r hw
    rw [hd _ w r hw]
    simp only [List.cons_append]
    rw [hw] at h
    generalize (ite (Needs word w 14) 14 16 : Nat) = size at h ⊢
    by_cases hle : size ≤ (w :: r).length
    · rw [if_pos hle] at h
      rw [if_pos (by rw [← List.cons_append, List.length_append]; omega), ← List.cons_append, List.take_append_of_le_length hle]
      exact h
    · rw [if_neg hle] at h; cases h

theorem flatten_entered (ls : List Bytes) : (enteredLines ls).flatten = ls.flatMap (· ++ [0x0A]) := by
  rw [enteredLines, List.flatMap_def]

/-- What the keys enter, the commands read -/
theorem types_enters {L : WordList} (hL : L.Lawful) {env : Env} {input : InputFlags} {words : List Bytes} {keys : Bytes}
    {pressed rest : List Pressed} (h : TypesPhrase L (offer L) env input words keys pressed rest) :
    Enters L (offer L) env input ⟨keys, piecesOf pressed⟩ words (piecesOf rest) := by
  cases h with
  | keys h1 h2 h3 h4 => exact .keys h1 h2 h3 h4
  | lines h1 h2 h3 h4 h5 h6 h7 =>
    rename_i typed trimmed
    have hread : ∀ (ty : List (List Stroke)) (tr : List Bytes), ty <+: typed → List.Forall₂ Trimmed (ty.map edited) tr →
        userInputMnemonicSimple L (enteredLines (ty.map edited)).flatten =
          match simpleWanted L.word (tr.map L.toLower) with
          | none => .err .stdinRead
          | some ws => .ok ws := by
      intro ty tr hty htr
      have := c105_words hL (typed := ty) (fun ks hks => h3 ks (hty.subset hks))
        (fun ks hks => lt_trans (h4 ks (hty.subset hks)) (by norm_num)) htr
      rw [deliver_entering, untilEnd_some, show untilEnd (deliver [.eof]) = [] from rfl, List.append_nil] at this
      rw [flatten_entered]
      exact this
    refine .lines (ls := typed.map edited) h1 h2 (pieces_entering typed rest) ?_ ?_ ?_
    · intro l hl
      obtain ⟨ks, hks, rfl⟩ := List.mem_map.1 hl
      refine ⟨fun hm => edited_sub (P := fun b => b ≠ 0x0A) ks [] (by simp) (h3 ks hks) _ hm rfl, ?_⟩
      exact lt_trans (h4 ks hks) (by norm_num)
    · refine ((c94_lines hL _).2.1 _).1 ?_
      rw [hread typed trimmed List.prefix_rfl h5, h6]
    · intro fewer hp hne
      obtain ⟨j, rfl⟩ : ∃ j, fewer = (typed.take j).map edited := by
        refine ⟨fewer.length, ?_⟩
        rw [List.map_take]
        exact List.prefix_iff_eq_take.1 hp
      have hj : j < typed.length := by
        by_contra hc
        exact hne (by rw [List.take_of_length_le (by omega)])
      refine (c94_lines hL _).2.2.1 ?_
      have h5' : List.Forall₂ Trimmed ((typed.take j).map edited) (trimmed.take j) := by
        rw [List.map_take]
        exact List.forall₂_take j h5
      rw [hread (typed.take j) (trimmed.take j) (List.take_prefix _ _) h5']
      cases hw : simpleWanted L.word ((trimmed.take j).map L.toLower) with
      | none => rfl
      | some ws' =>
        exfalso
        have hlen : trimmed.length = typed.length := by
          have := h5.length_eq
          rw [List.length_map] at this
          exact this.symm
        have := wanted_append (((trimmed.map L.toLower).dropLast).drop j) hw
        have e : (trimmed.take j).map L.toLower = ((trimmed.map L.toLower).dropLast).take j := by
          rw [List.dropLast_eq_take, List.take_take, List.map_take]
          congr 1
          rw [List.length_map]
          omega
        rw [e, List.take_append_drop, h7] at this
        cases this

theorem answers_read {typed : List (List Stroke)} {lines : List Bytes} (h : TypesAnswers typed lines) (rest : List Pressed) :
    PasswordsRead (byteByByte (piecesOf (entering typed ++ rest))) lines (deliver rest) := by
  rw [piecesOf, bytes_of_pieces, ← h.2]
  exact c105_password typed rest h.1

/-- recover: what was typed, however it was corrected, gives the key, with the password entered for it. -/
theorem c110_recover {L : WordList} (hL : L.Lawful) {C : Crypto} (hC : C.Lawful) (env : Env) (opts : RecoverOptions)
    {w : Wanted} {master : Prop} (hask : AsksFor opts.key opts.encIndex opts.authIndex opts.sigIndex w master)
    (henc : opts.encIndex ≤ 65535) (hauth : opts.authIndex ≤ 65535) (hsig : opts.sigIndex ≤ 65535)
    (hu : w.userID.length < 2 ^ 32) {words : List Bytes} {keys : Bytes} {pressed rest : List Pressed}
    {answers : List (List Stroke)}
    (htypes : TypesPhrase L (offer L) env opts.input words keys pressed (entering answers ++ rest))
    {phrasePw keyPw : Option Bytes} {seed offset : Nat}
    (hholds : Holds (indexOf L) C.toPhraseCrypto words phrasePw seed offset)
    (wrong : List (List Bytes × Bytes)) (hwrong : ∀ q ∈ wrong, Accepted false q.1 q.2 ∧ WrongPassword L C words q.2)
    {phraseLines keyLines : List Bytes} (hphrase : AnswersWith false phrasePw phraseLines)
    (hkeyLines : AnswersWith true keyPw keyLines)
    (hanswers : TypesAnswers answers (wrong.flatMap Prod.fst ++ phraseLines ++ keyLines))
    (hkey : keyPw.isSome = opts.key.encryptKeys) (hlen : ∀ p, keyPw = some p → p.length ≤ 65011704)
    {rnd : Bytes} (hrnd : 96 ≤ rnd.length) :
    let r := recoverSession L C env opts ⟨keys, piecesOf pressed⟩ rnd
    r.outcome = .ok () ∧ r.left = deliver rest ∧
    ∃ key, (atStart env.fs).run r.acts = ⟨env.fs, none, env.armor key ++ [0x0A], []⟩ ∧
      Contains C key (keyPw.getD []) seed (1672531200 + offset) w master (opts.selfCert = true) :=
  c108_recover hL hC env opts hask henc hauth hsig hu _ (types_enters hL htypes) hholds wrong hwrong hphrase hkeyLines
    (answers_read hanswers rest) hkey hlen hrnd

theorem types_no_file {L : WordList} {env : Env} {input : InputFlags} {words : List Bytes} {keys : Bytes}
    {pressed rest : List Pressed} (h : TypesPhrase L (offer L) env input words keys pressed rest) :
    input.inputWordFile = [] := by
  cases h with
  | keys h1 => exact h1
  | lines h1 => exact h1

/-- convert: it gives another phrase of the same seed and creation time, with the new password. -/
theorem c110_convert {L : WordList} (hL : L.Lawful) {C : Crypto} (hC : C.Lawful) (env : Env) (opts : ConvertOptions)
    {words : List Bytes} {keys : Bytes} {pressed rest : List Pressed} {answers : List (List Stroke)}
    (htypes : TypesPhrase L (offer L) env opts.input words keys pressed (entering answers ++ rest))
    {phrasePw newPw : Option Bytes} {seed offset : Nat}
    (hholds : Holds (indexOf L) C.toPhraseCrypto words phrasePw seed offset)
    (wrong : List (List Bytes × Bytes)) (hwrong : ∀ q ∈ wrong, Accepted false q.1 q.2 ∧ WrongPassword L C words q.2)
    {phraseLines newLines : List Bytes} (hphrase : AnswersWith false phrasePw phraseLines)
    (hnewLines : AnswersWith true newPw newLines)
    (hanswers : TypesAnswers answers (wrong.flatMap Prod.fst ++ phraseLines ++ newLines))
    (hnew : newPw.isSome = opts.encryptPhrase) {rnd : Bytes} (hrnd : 3 ≤ rnd.length) (hcol : 17 ≤ env.columns) :
    let r := convertSession L C env opts ⟨keys, piecesOf pressed⟩ rnd
    r.outcome = .ok () ∧ r.left = deliver rest ∧
    ∃ words', (atStart env.fs).run r.acts = ⟨env.fs, none, [], [words']⟩ ∧
      Complete L.word words' ∧ Holds (indexOf L) C.toPhraseCrypto words' newPw seed offset :=
  c108_convert hL hC env opts _ (types_enters hL htypes) (types_no_file htypes) hholds wrong hwrong hphrase hnewLines
    (answers_read hanswers rest) hnew hrnd hcol

/-- generate, with entropy of the system or of a file: the key and the words, with the passwords entered. -/
theorem c110_generate {L : WordList} (hL : L.Lawful) {C : Crypto} (hC : C.Lawful) (env : Env) (hwf : env.fs.Wf)
    (opts : GenerateOptions) {w : Wanted} {master : Prop} (hask : AsksFor opts.key 0 0 0 w master)
    (hu : w.userID.length < 2 ^ 32) (hnow : 1672531200 * 10 ^ 9 ≤ env.now)
    (hnow' : env.now ≤ (1672531200 + 2 ^ 31 - 1) * 10 ^ 9) (hstdin : opts.unsafeEntropy ≠ str "-") {rnd e rnd' : Bytes}
    (hseed : SeedBytes env rnd opts.unsafeEntropy e rnd') (hrnd : 99 ≤ rnd'.length)
    {keyPw phrasePw : Option Bytes} (htyped : Typed opts.key.encryptKeys opts.encryptPhrase keyPw phrasePw)
    {keyLines phraseLines : List Bytes} (hkey : AnswersWith true keyPw keyLines)
    (hphrase : AnswersWith true phrasePw phraseLines) {answers : List (List Stroke)}
    (hanswers : TypesAnswers answers (keyLines ++ phraseLines)) (keys : Bytes) (rest : List Pressed)
    (hsave : opts.outputWordFile ≠ [] → env.fs.read opts.outputWordFile = none ∧ env.save = ⟨false, false, none⟩)
    (hshow : opts.outputWordFile = [] → 17 ≤ env.columns) :
    let r := generateSession L C env opts ⟨keys, piecesOf (entering answers ++ rest)⟩ rnd
    let after := (atStart env.fs).run r.acts
    r.outcome = .ok () ∧ r.left = deliver rest ∧
    ∃ key words, after.stdout = env.armor key ++ [0x0A] ∧
      Contains C key (keyPw.getD []) (valueOfBytes e) (env.now / 10 ^ 9).toNat w master True ∧
      Complete L.word words ∧
      Holds (indexOf L) C.toPhraseCrypto words phrasePw (valueOfBytes e) ((env.now / 10 ^ 9).toNat - 1672531200) ∧
      (opts.outputWordFile ≠ [] → after.shown = [] ∧ after.fs.read opts.outputWordFile = some (phraseText words)) ∧
      (opts.outputWordFile = [] → after.shown = [words] ∧ after.fs = env.fs) := by
  refine c108_generate hL hC env hwf opts hask hu hnow hnow' ⟨keys, piecesOf (entering answers ++ rest)⟩ ?_ hrnd htyped hkey
    hphrase ?_ hsave hshow
  · generalize opts.unsafeEntropy = path at hseed hstdin ⊢
    cases hseed with
    | system h1 h2 => exact .system h1 h2
    | stdin h1 h2 => exact absurd rfl hstdin
    | file h1 h2 h3 h4 => exact .file h1 h2 h3 h4
  · unfold Console.behindEntropy
    rw [if_neg hstdin]
    exact answers_read hanswers rest

/-- Somebody types a phrase for convert, with its password if there is one, perhaps after wrong ones, and a new password
if one is wanted; and is shown these words. -/
def ConvertedByHand (L : WordList) (C : Crypto) (before after : List Bytes × Option Bytes) : Prop :=
  ∃ (env : Env) (opts : ConvertOptions) (keys : Bytes) (pressed rest : List Pressed) (answers : List (List Stroke))
    (wrong : List (List Bytes × Bytes)) (phraseLines newLines : List Bytes) (rnd : Bytes),
    TypesPhrase L (offer L) env opts.input before.1 keys pressed (entering answers ++ rest) ∧
    (∀ q ∈ wrong, Accepted false q.1 q.2 ∧ WrongPassword L C before.1 q.2) ∧
    AnswersWith false before.2 phraseLines ∧ AnswersWith true after.2 newLines ∧
    TypesAnswers answers (wrong.flatMap Prod.fst ++ phraseLines ++ newLines) ∧
    after.2.isSome = opts.encryptPhrase ∧ 3 ≤ rnd.length ∧ 17 ≤ env.columns ∧
    ((atStart env.fs).run (convertSession L C env opts ⟨keys, piecesOf pressed⟩ rnd).acts).shown = [after.1]

/-- However often a phrase is converted by hand, its seed and its creation time stay the same. -/
theorem c110_converted {L : WordList} (hL : L.Lawful) {C : Crypto} (hC : C.Lawful) {seed offset : Nat}
    {before after : List Bytes × Option Bytes} (h : Relation.ReflTransGen (ConvertedByHand L C) before after)
    (hholds : Holds (indexOf L) C.toPhraseCrypto before.1 before.2 seed offset) :
    Holds (indexOf L) C.toPhraseCrypto after.1 after.2 seed offset := by
  induction h with
  | refl => exact hholds
  | tail _ hstep ih =>
    obtain ⟨env, opts, keys, pressed, rest, answers, wrong, pl, nl, rnd, h1, h2, h3, h4, h5, h6, h7, h8, h9⟩ := hstep
    obtain ⟨-, -, words', hrun, -, hw⟩ := c110_convert hL hC env opts h1 ih wrong h2 h3 h4 h5 h6 h7 h8
    rw [hrun] at h9
    have e := (List.cons.inj h9).1
    rw [← e]
    exact hw

/-- A history: a key is generated and its phrase shown; it is converted by hand any number of times, each time from the
words shown before; the last words, with their password, are typed for recover. This prints a key of the seed and the
creation time of the key that generate printed. -/
theorem c110_history {L : WordList} (hL : L.Lawful) {C : Crypto} (hC : C.Lawful)
    -- generate
    (env : Env) (hwf : env.fs.Wf) (opts : GenerateOptions) {w : Wanted} {master : Prop}
    (hask : AsksFor opts.key 0 0 0 w master) (hu : w.userID.length < 2 ^ 32) (hnow : 1672531200 * 10 ^ 9 ≤ env.now)
    (hnow' : env.now ≤ (1672531200 + 2 ^ 31 - 1) * 10 ^ 9) (hstdin : opts.unsafeEntropy ≠ str "-") {rnd e rnd' : Bytes}
    (hseed : SeedBytes env rnd opts.unsafeEntropy e rnd') (hrnd : 99 ≤ rnd'.length)
    {keyPw phrasePw : Option Bytes} (htyped : Typed opts.key.encryptKeys opts.encryptPhrase keyPw phrasePw)
    {keyLines phraseLines : List Bytes} (hkey : AnswersWith true keyPw keyLines)
    (hphrase : AnswersWith true phrasePw phraseLines) {answers : List (List Stroke)}
    (hanswers : TypesAnswers answers (keyLines ++ phraseLines)) (keys : Bytes) (rest : List Pressed)
    (hfile : opts.outputWordFile = []) (hcol : 17 ≤ env.columns) {shown : List Bytes}
    (hshown : ((atStart env.fs).run (generateSession L C env opts ⟨keys, piecesOf (entering answers ++ rest)⟩ rnd).acts).shown =
      [shown])
    -- convert
    {words : List Bytes} {pw : Option Bytes} (hconv : Relation.ReflTransGen (ConvertedByHand L C) (shown, phrasePw) (words, pw))
    -- recover
    (env' : Env) (opts' : RecoverOptions) {w' : Wanted} {master' : Prop}
    (hask' : AsksFor opts'.key opts'.encIndex opts'.authIndex opts'.sigIndex w' master')
    (henc : opts'.encIndex ≤ 65535) (hauth : opts'.authIndex ≤ 65535) (hsig : opts'.sigIndex ≤ 65535)
    (hu' : w'.userID.length < 2 ^ 32) {keys' : Bytes} {pressed rest' : List Pressed} {answers' : List (List Stroke)}
    (htypes : TypesPhrase L (offer L) env' opts'.input words keys' pressed (entering answers' ++ rest'))
    (wrong : List (List Bytes × Bytes)) (hwrong : ∀ q ∈ wrong, Accepted false q.1 q.2 ∧ WrongPassword L C words q.2)
    {keyPw' : Option Bytes} {pwLines keyLines' : List Bytes} (hpw : AnswersWith false pw pwLines)
    (hkey' : AnswersWith true keyPw' keyLines')
    (hanswers' : TypesAnswers answers' (wrong.flatMap Prod.fst ++ pwLines ++ keyLines'))
    (hsome : keyPw'.isSome = opts'.key.encryptKeys) (hlen : ∀ p, keyPw' = some p → p.length ≤ 65011704)
    {rnd'' : Bytes} (hrnd'' : 96 ≤ rnd''.length) :
    ∃ key key',
      ((atStart env.fs).run (generateSession L C env opts ⟨keys, piecesOf (entering answers ++ rest)⟩ rnd).acts).stdout =
        env.armor key ++ [0x0A] ∧
      Contains C key (keyPw.getD []) (valueOfBytes e) (env.now / 10 ^ 9).toNat w master True ∧
      (atStart env'.fs).run (recoverSession L C env' opts' ⟨keys', piecesOf pressed⟩ rnd'').acts =
        ⟨env'.fs, none, env'.armor key' ++ [0x0A], []⟩ ∧
      Contains C key' (keyPw'.getD []) (valueOfBytes e) (env.now / 10 ^ 9).toNat w' master' (opts'.selfCert = true) := by
  obtain ⟨-, -, key, words0, h1, h2, -, h4, -, h6⟩ := c110_generate hL hC env hwf opts hask hu hnow hnow' hstdin hseed hrnd
    htyped hkey hphrase hanswers keys rest (fun h => absurd hfile h) (fun _ => hcol)
  have e0 : words0 = shown := by
    rw [(h6 hfile).1] at hshown
    exact (List.cons.inj hshown).1
  rw [e0] at h4
  have hh := c110_converted hL hC hconv h4
  obtain ⟨-, -, key', h7, h8⟩ := c110_recover hL hC env' opts' hask' henc hauth hsig hu' htypes hh wrong hwrong hpw hkey' hanswers'
    hsome hlen hrnd''
  have et : 1672531200 + ((env.now / 10 ^ 9).toNat - 1672531200) = (env.now / 10 ^ 9).toNat := by omega
  rw [et] at h8
  exact ⟨key, key', h1, h2, h7, h8⟩

theorem edited_strokes (w : Bytes) : edited (strokes w) = w := by
  have h : ∀ (w line : Bytes), (strokes w).foldl press line = line ++ w := by
    intro w
    induction w with
    | nil => intro line; simp [strokes]
    | cons b w ih =>
      intro line
      have := ih (line ++ [b])
      simpa [strokes, press] using this
  unfold edited
  simpa using h w []

theorem word_trimmed {L : WordList} (hL : L.Lawful) {w : Bytes} (hw : IsWord L.word w) : Trimmed w w := by
  obtain ⟨j, hj, rfl⟩ := hw
  have hz := hL.word_az j hj
  have hs : ∀ c ∈ whiteSpace, utf8 c ≠ [] ∧ ∀ b ∈ utf8 c, isLowerAz b = false := by decide +kernel
  refine ⟨⟨[], [], ⟨[], by simp⟩, ⟨[], by simp⟩, by simp⟩, fun c hc h => ?_, fun c hc h => ?_⟩
  all_goals
    obtain ⟨hne, hb⟩ := hs c hc
    obtain ⟨b, hbm⟩ := List.exists_mem_of_ne_nil _ hne
    have h1 := hb b hbm
    rw [hz b (h.subset hbm)] at h1
    cases h1

open Classical in
theorem wanted_complete {L : WordList} (hL : L.Lawful) {ws : List Bytes} (hc : Complete L.word ws) :
    simpleWanted L.word ws = some ws ∧ simpleWanted L.word ws.dropLast = none := by
  obtain ⟨hall, w, rest, rfl, hn⟩ := hc
  have hw := hall w List.mem_cons_self
  have hsize : (if Needs L.word w 14 then 14 else 16) = (w :: rest).length := by
    by_cases h : Needs L.word w 14
    · rw [if_pos h]; exact needs_unique hL hw h hn
    · rw [if_neg h]
      obtain ⟨j, hj, rfl⟩ := hw
      rw [needs_iff hL hj] at hn h
      omega
  have hgen : ∀ r, (∀ v ∈ r, IsWord L.word v) → simpleWanted L.word (w :: r) =
      if (w :: rest).length ≤ (w :: r).length then some ((w :: r).take (w :: rest).length) else none := by
    intro r hr
    unfold simpleWanted
    have hf : (w :: r).filter (fun e => IsWord L.word e) = w :: r := List.filter_eq_self.2 (by
      intro v hv
      rcases List.mem_cons.1 hv with rfl | hv
      · exact decide_eq_true hw
      · exact decide_eq_true (hr v hv))
    dsimp only
    rw [hf, List.dropWhile_cons_of_neg (by simpa using ⟨_, hn⟩)]
    dsimp only
    rw [hsize]
  constructor
  · rw [hgen rest (fun v hv => hall v (List.mem_cons_of_mem _ hv)), if_pos (Nat.le_refl _), List.take_length]
  · have hne : rest ≠ [] := by
      rintro rfl
      by_cases h : Needs L.word w 14
      · rw [if_pos h] at hsize; simp at hsize
      · rw [if_neg h] at hsize; simp at hsize
    rw [List.dropLast_cons_of_ne_nil hne,
      hgen rest.dropLast (fun v hv => hall v (List.mem_cons_of_mem _ (List.dropLast_subset _ hv))), if_neg]
    have : 0 < rest.length := List.length_pos_iff.2 hne
    simp
    omega

/-- Whatever phrase is shown, it can be typed: with -simple, a line for each word. -/
theorem c110_typable {L : WordList} (hL : L.Lawful) {ws : List Bytes} (hc : Complete L.word ws) (hs : ∀ w ∈ ws, w.length < 4095)
    (env : Env) {input : InputFlags} (hfile : input.inputWordFile = []) (hsimple : lineByLine env input = true) (keys : Bytes)
    (rest : List Pressed) :
    TypesPhrase L (offer L) env input ws keys (entering (ws.map strokes) ++ rest) rest := by
  have he : (ws.map strokes).map edited = ws := by
    rw [List.map_map]
    conv_rhs => rw [← List.map_id ws]
    exact List.map_congr_left (fun w _ => edited_strokes w)
  have hl : ws.map L.toLower = ws := by
    conv_rhs => rw [← List.map_id ws]
    refine List.map_congr_left (fun w hw => ?_)
    obtain ⟨j, hj, rfl⟩ := hc.1 w hw
    exact hL.lower_word hj
  obtain ⟨h1, h2⟩ := wanted_complete hL hc
  refine .lines (trimmed := ws) hfile hsimple ?_ ?_ ?_ (by rw [hl]; exact h1) (by rw [hl]; exact h2)
  · intro ks hks k hk b hkb
    obtain ⟨w, hw, rfl⟩ := List.mem_map.1 hks
    obtain ⟨b', hb', rfl⟩ := List.mem_map.1 hk
    obtain ⟨j, hj, rfl⟩ := hc.1 w hw
    obtain rfl := Stroke.char.inj hkb
    rintro rfl
    exact absurd (hL.word_az j hj _ hb') (by decide)
  · intro ks hks
    obtain ⟨w, hw, rfl⟩ := List.mem_map.1 hks
    rw [edited_strokes]
    exact hs w hw
  · rw [he]
    have : ∀ l : List Bytes, (∀ w ∈ l, IsWord L.word w) → List.Forall₂ Trimmed l l := by
      intro l
      induction l with
      | nil => exact fun _ => .nil
      | cons w l ih => exact fun h => .cons (word_trimmed hL (h w List.mem_cons_self)) (ih fun v hv => h v (List.mem_cons_of_mem _ hv))
    exact this ws hc.1

theorem keyLoop_more (L : WordList) (more : Bytes) : ∀ (k : Bytes) (s : WordState) (ws : List Bytes) (left : Bytes),
    keyLoop L s k = (.ok ws, left) → keyLoop L s (k ++ more) = (.ok ws, left ++ more)
  | [], s, ws, left, h => by simp [keyLoop] at h
  | c :: k, s, ws, left, h => by
    rw [keyLoop] at h
    rw [List.cons_append, keyLoop]
    cases hs : keyStep L s c with
    | next s' =>
      rw [hs] at h
      exact keyLoop_more L more k s' ws left h
    | finished r =>
      rw [hs] at h
      obtain ⟨rfl, rfl⟩ := Prod.mk.inj h
      rfl

/-- Keys pressed too early, while the terminal is still in raw mode, are not lost, but their return is: a password typed
before its prompt is there is read together with the next line. -/
theorem c110_typed_ahead {L : WordList} (hL : L.Lawful) (env : Env) {input : InputFlags} (hfile : input.inputWordFile = [])
    (hraw : lineByLine env input = false) {s : Typing} {keys : Bytes} (hp : Presses L.word (offer L) keys .start s)
    (hd : s.Done) (early : Bytes) (hearly : ∀ b ∈ early, 0x20 ≤ b) (line : List Stroke)
    (hline : ∀ k ∈ line, ∀ b, k = .char b → 0x20 ≤ b) (rest : List Pressed) :
    PasswordsRead (byteByByte (Console.behindWords L ⟨keys ++ (early ++ [0x0D]), piecesOf (entering [line] ++ rest)⟩ env input))
      [early ++ edited line] (deliver rest) := by
  have hk := keyLoop_more L (early ++ [0x0D]) _ _ _ _ (keys_left hL hp hd)
  have hb : byLine env input = false := hraw
  have hl : ∀ b ∈ edited line, 0x20 ≤ b := edited_sub (P := fun b => 0x20 ≤ b) line [] (by simp) hline
  have e : Console.behindWords L ⟨keys ++ (early ++ [0x0D]), piecesOf (entering [line] ++ rest)⟩ env input =
      (early ++ [0x0D]) :: (edited line ++ [0x0A]) :: piecesOf rest := by
    unfold Console.behindWords
    rw [if_neg (by simp [hfile]), hb, if_neg (by simp)]
    dsimp only
    rw [hk, List.nil_append, if_neg (by simp), pieces_entering]
    rfl
  have e2 : byteByByte ((early ++ [0x0D]) :: (edited line ++ [0x0A]) :: piecesOf rest) =
      early.map some ++ (some 0x0D :: ((edited line).map some ++ some 0x0A :: deliver rest)) := by
    have := bytes_of_pieces rest []
    rw [byteByByte, List.flatMap_cons, if_neg (by simp), List.flatMap_cons, if_neg (by simp), ← byteByByte, piecesOf, this]
    simp [deliver]
  rw [e, e2]
  refine .cons ?_ .nil
  rw [read_line _ _ _ hearly, readPasswordLine, if_neg (by decide), if_neg (by decide), if_pos rfl, read_line _ _ _ hl,
    readPasswordLine, if_neg (by decide), if_pos rfl]
  rfl

/-! Examples -/

theorem wanted_some {L : WordList} (hL : L.Lawful) {lines ws : List Bytes} (h : simpleLoop L 1 [] lines = .ok ws) :
    simpleWanted L.word ((lines.map trimSpace).map L.toLower) = some ws := by
  have hs := simpleLoop_spec hL lines 1
  rw [entries_eq (trimmed_map lines), h] at hs
  cases hw : simpleWanted L.word ((lines.map trimSpace).map L.toLower) with
  | none => rw [hw] at hs; cases hs
  | some ws' => rw [hw] at hs; exact congrArg some (Res.ok.inj hs).symm

/-- An empty line, a word that is not in the list, and the words of an encrypted phrase, each with a letter taken back -/
def fumbled : List (List Stroke) :=
  [] :: strokes (str "zzz") :: sampleEncrypted.map (fun w => strokes (w ++ [0x78]) ++ [.erase])

theorem fumbled_types (rest : List Pressed) : TypesPhrase toyWordList (offer toyWordList) sampleEnv ⟨true, []⟩ sampleEncrypted []
    (entering fumbled ++ rest) rest := by
  have hb : ∀ ks ∈ fumbled, ∀ k ∈ ks, (match k with | .char b => decide (b ≠ 0x0A) | _ => true) = true := by decide +kernel
  refine .lines rfl rfl (fun ks hks k hk b hkb => ?_) (by decide +kernel) (trimmed_map _)
    (wanted_some toyWordList_lawful (by decide +kernel)) ?_
  · have := hb ks hks k hk
    subst hkb
    simpa using this
  · rw [List.dropLast_eq_take, ← List.map_take, ← List.map_take]
    exact wanted_none toyWordList_lawful (by decide +kernel)

/-- A wrong password after an empty line, the right one corrected, two passwords for the key that differ, and the same
password twice -/
def fumbledAnswers : List (List Stroke) :=
  [[], strokes (str "xyz"), strokes (str "no") ++ [.kill] ++ strokes (str "abCD") ++ [.erase], strokes (str "a"), strokes (str "b"),
    strokes (str "kez") ++ [.erase] ++ strokes (str "y"), strokes (str "key")]

theorem fumbledAnswers_types : TypesAnswers fumbledAnswers
    ([([[], str "xyz"], str "xyz")].flatMap Prod.fst ++ [str "abC"] ++ [str "a", str "b", str "key", str "key"]) := by
  have hb : ∀ ks ∈ fumbledAnswers, ∀ k ∈ ks, (match k with | .char b => decide (0x20 ≤ b) | _ => true) = true := by
    decide +kernel
  refine ⟨fun ks hks k hk b hkb => ?_, by decide +kernel⟩
  have := hb ks hks k hk
  subst hkb
  simpa using this

theorem fumbled_holds : Holds (indexOf toyWordList) toyCrypto.toPhraseCrypto sampleEncrypted (some (str "abC"))
    9341084582143408800955381380479911687 27468800 :=
  ⟨52006880893628896709768386229699380622, 460551, 16, by decide +kernel, by decide +kernel⟩

theorem fumbled_wrong : ∀ q ∈ [([[], str "xyz"], str "xyz")],
    Accepted false q.1 q.2 ∧ WrongPassword toyWordList toyCrypto sampleEncrypted q.2 := by
  intro q hq
  obtain rfl := List.mem_singleton.1 hq
  exact ⟨⟨by decide, [[]], .empty [] .nil, rfl⟩,
    52006880893628896709768386229699380622, 460551, 16, 27468800, by decide +kernel, by decide +kernel⟩

/-- recover, from the keys -/
example : ∃ key, (recoverSession toyWordList toyCrypto sampleEnv
      { key := sampleKeyFlags, input := ⟨true, []⟩, selfCert := true, encIndex := 0, authIndex := 0, sigIndex := 0 }
      ⟨[], piecesOf (entering fumbled ++ (entering fumbledAnswers ++ [.eof]))⟩ (List.replicate 96 7)).left = [none] ∧
    Contains toyCrypto key (str "key") 9341084582143408800955381380479911687 1700000000 (sampleWanted 0 0) False
      (true = true) := by
  obtain ⟨-, hl, key, -, hk⟩ := c110_recover toyWordList_lawful toyCrypto_lawful sampleEnv
    { key := sampleKeyFlags, input := ⟨true, []⟩, selfCert := true, encIndex := 0, authIndex := 0, sigIndex := 0 }
    (sample_asks 0 0 0) (by decide) (by decide) (by decide) (by decide) (fumbled_types _)
    (phrasePw := some (str "abC")) (keyPw := some (str "key")) fumbled_holds _ fumbled_wrong
    (show Accepted false _ _ from ⟨by decide, [], .nil, rfl⟩)
    (show Accepted true _ _ from ⟨by decide, [str "a", str "b"], .mismatch [] _ _ rfl .nil (by decide) (by decide), rfl⟩)
    fumbledAnswers_types rfl (by rintro p ⟨⟩; decide) (rnd := List.replicate 96 7) (by decide)
  exact ⟨key, hl, hk⟩

/-- convert, from the keys: there is such a step in a history. -/
theorem fumbled_converted : ∃ words', ConvertedByHand toyWordList toyCrypto (sampleEncrypted, some (str "abC")) (words', some (str "key")) := by
  have hk : AnswersWith true (some (str "key")) [str "a", str "b", str "key", str "key"] :=
    show Accepted true _ _ from ⟨by decide, [str "a", str "b"], .mismatch [] _ _ rfl .nil (by decide) (by decide), rfl⟩
  have hp : AnswersWith false (some (str "abC")) [str "abC"] := show Accepted false _ _ from ⟨by decide, [], .nil, rfl⟩
  obtain ⟨-, -, words', h1, -, -⟩ := c110_convert toyWordList_lawful toyCrypto_lawful sampleEnv
    { input := ⟨true, []⟩, outputWordFile := [], encryptPhrase := true } (fumbled_types (entering fumbledAnswers ++ []))
    fumbled_holds _ fumbled_wrong hp hk fumbledAnswers_types rfl (rnd := [1, 2, 3]) (by decide) (by decide)
  exact ⟨words', sampleEnv, _, [], _, [], _, _, _, _, [1, 2, 3], fumbled_types _, fumbled_wrong, hp, hk, fumbledAnswers_types, rfl,
    by decide, by decide, by rw [h1]⟩

/-- The passwords for the key, entered twice each time -/
def keyAnswers : List (List Stroke) := [strokes (str "kez") ++ [.erase] ++ strokes (str "y"), strokes (str "key")]

theorem keyAnswers_types : TypesAnswers keyAnswers [str "key", str "key"] := by
  have hb : ∀ ks ∈ keyAnswers, ∀ k ∈ ks, (match k with | .char b => decide (0x20 ≤ b) | _ => true) = true := by decide +kernel
  exact ⟨fun ks hks k hk b hkb => by have := hb ks hks k hk; subst hkb; simpa using this, by decide +kernel⟩

theorem key_accepted : AnswersWith true (some (str "key")) [str "key", str "key"] :=
  show Accepted true _ _ from ⟨by decide, [], .nil, rfl⟩

theorem threeAnswers_types : TypesAnswers (strokes (str "key") :: keyAnswers) [str "key", str "key", str "key"] := by
  have hb : ∀ ks ∈ strokes (str "key") :: keyAnswers, ∀ k ∈ ks,
      (match k with | .char b => decide (0x20 ≤ b) | _ => true) = true := by decide +kernel
  exact ⟨fun ks hks k hk b hkb => by have := hb ks hks k hk; subst hkb; simpa using this, by decide +kernel⟩

theorem toy_short {ws : List Bytes} (h : Complete toyWordList.word ws) : ∀ w ∈ ws, w.length < 4095 := by
  intro w hw
  obtain ⟨j, -, rfl⟩ := h.1 w hw
  show (toyWord j).length < 4095
  simp [toyWord]

/-- Fourteen words in raw mode, and the password too early: the line `pw` after it makes it `pwpw`. -/
example : ∃ keys : Bytes, PasswordsRead (byteByByte (Console.behindWords toyWordList
    ⟨keys ++ (str "pw" ++ [0x0D]), piecesOf (entering [strokes (str "pw")] ++ [.eof])⟩ sampleEnv ⟨false, []⟩)) [str "pwpw"] [none] := by
  have h : userInputMnemonic toyWordList ((List.replicate 14 (toyWord 5 ++ [13])).flatten) = .ok (List.replicate 14 (toyWord 5)) := by
    decide +kernel
  have hb := ((c94_keys toyWordList_lawful _).2.1 _).1 h
  generalize hr : PromptEnd.words (List.replicate 14 (toyWord 5)) = r at hb
  cases hb with
  | done h1 h2 h3 =>
    refine ⟨_, c110_typed_ahead toyWordList_lawful sampleEnv rfl rfl h2 h3 (str "pw") (by decide +kernel) (strokes (str "pw")) ?_ [.eof]⟩
    intro k hk b hkb
    have hall : ∀ k ∈ strokes (str "pw"), (match k with | .char b => decide (0x20 ≤ b) | _ => true) = true := by decide +kernel
    have := hall k hk
    subst hkb
    simpa using this
  | aborted => cases hr
  | ended => cases hr

/-- A whole history: generate shows words; convert gives them a password; recover gets the new words and the password. -/
example : ∃ (shown words : List Bytes) (key key' : Bytes),
    ConvertedByHand toyWordList toyCrypto (shown, none) (words, some (str "key")) ∧
    Contains toyCrypto key (str "key") (valueOfBytes (List.replicate 16 7)) 1700000000 (sampleWanted 0 0) False True ∧
    Contains toyCrypto key' (str "key") (valueOfBytes (List.replicate 16 7)) 1700000000 (sampleWanted 0 0) False
      (true = true) := by
  have hseed : SeedBytes sampleEnv (List.replicate 115 7) [] (List.replicate 16 7) (List.replicate 99 7) :=
    .system (by decide) (by decide +kernel)
  have hsec : (sampleEnv.now / 10 ^ 9).toNat = 1700000000 := by decide +kernel
  have htyped : Typed true false (some (str "key")) none := ⟨rfl, rfl, by rintro p ⟨⟩; decide, by rintro p ⟨⟩⟩
  obtain ⟨-, -, -, shown, -, -, hc, hh, -, hshown⟩ := c110_generate toyWordList_lawful toyCrypto_lawful sampleEnv sampleFS_wf
    { key := sampleKeyFlags, outputWordFile := [], encryptPhrase := false, unsafeEntropy := [] }
    (sample_asks 0 0 0) (by decide) (by decide) (by decide) (by decide) hseed (by decide) htyped key_accepted
    (show AnswersWith true none [] from rfl) keyAnswers_types [] [] (fun h => absurd rfl h) (by decide)
  have ht := c110_typable toyWordList_lawful hc (toy_short hc) sampleEnv (input := ⟨true, []⟩) rfl rfl []
    (entering keyAnswers ++ [])
  obtain ⟨-, -, words, h1, hc', -⟩ := c110_convert toyWordList_lawful toyCrypto_lawful sampleEnv
    { input := ⟨true, []⟩, outputWordFile := [], encryptPhrase := true } ht hh [] (by simp)
    (show AnswersWith false none [] from rfl) key_accepted keyAnswers_types rfl (rnd := [1, 2, 3]) (by decide) (by decide)
  have hconv : ConvertedByHand toyWordList toyCrypto (shown, none) (words, some (str "key")) :=
    ⟨sampleEnv, { input := ⟨true, []⟩, outputWordFile := [], encryptPhrase := true }, [], _, [], keyAnswers, [], [], _, [1, 2, 3],
      ht, by simp, rfl, key_accepted, keyAnswers_types, rfl, by decide, by decide, by rw [h1]⟩
  obtain ⟨key, key', -, hk, -, hk'⟩ := c110_history toyWordList_lawful toyCrypto_lawful sampleEnv sampleFS_wf
    { key := sampleKeyFlags, outputWordFile := [], encryptPhrase := false, unsafeEntropy := [] }
    (sample_asks 0 0 0) (by decide) (by decide) (by decide) (by decide) hseed (by decide) htyped key_accepted
    (show AnswersWith true none [] from rfl) keyAnswers_types [] [] rfl (by decide) (hshown rfl).1 (.single hconv)
    sampleEnv { key := sampleKeyFlags, input := ⟨true, []⟩, selfCert := true, encIndex := 0, authIndex := 0, sigIndex := 0 }
    (sample_asks 0 0 0) (by decide) (by decide) (by decide) (by decide)
    (c110_typable toyWordList_lawful hc' (toy_short hc') sampleEnv rfl rfl [] (entering (strokes (str "key") :: keyAnswers) ++ []))
    [] (by simp) (keyPw' := some (str "key")) (pwLines := [str "key"])
    (show Accepted false _ _ from ⟨by decide, [], .nil, rfl⟩) key_accepted threeAnswers_types rfl (by rintro p ⟨⟩; decide)
    (rnd'' := List.replicate 96 7) (by decide)
  rw [hsec] at hk hk'
  exact ⟨shown, words, key, key', hconv, hk, hk'⟩

end Verif.Props
