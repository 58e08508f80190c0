import Verif.Proofs.Session
import Verif.Props.Scanner

/-!
# C108: everything that is typed at one terminal

The words of a phrase, passwords for it, passwords that are refused because they are empty or not repeated correctly, and
the new password come from the same keyboard. Each goes to the prompt that it is meant for, so that the commands do with
them what they do with words and passwords that are given separately (C70 to C72).
-/

namespace Verif.Props

open Verif.Model Verif.Model.Cli Verif.Spec Verif.Proofs Verif.Instances

/-- A password prompt returns the first acceptable password among the lines, and leaves the rest. -/
theorem c108_prompt (confirm : Bool) (bs : List (Option Byte)) (p : Bytes) (rest : List (Option Byte)) :
    promptLoop confirm (bs.length + 1) bs = some (p, rest) ↔ ∃ ls, PasswordsRead bs ls rest ∧ Accepted confirm ls p :=
  promptLoop_iff confirm bs p rest

/-- The words are those that the whole input holds. -/
theorem c108_words (L : WordList) (input : List Bytes) :
    (simplePrompted L input).1 = userInputMnemonicSimple L (beforeEnd input) := simplePrompted_fst L input

/-- Whatever is typed: a command does what it does with some passwords given separately. Each of them is the answer to the
prompt that the command comes to with those before it, and they are read one behind the other. If the command waits in
the end, then what is left holds no answer. -/
theorem c108_session (P : Prog Unit) (rnd : Bytes) (bs : List (Option Byte)) :
    ∃ answers : List (List Bytes × Bytes),
      PasswordsRead bs (answers.flatMap Prod.fst) (session P rnd bs).left ∧
      (∀ k q, answers[k]? = some q → ∃ confirm,
        P.outcome ((answers.take k).map (fun a => .ok a.2)) rnd = .waits confirm ∧ Accepted confirm q.1 q.2) ∧
      (session P rnd bs).outcome = P.outcome (answers.map (fun a => .ok a.2)) rnd ∧
      (session P rnd bs).acts = P.acts (answers.map (fun a => .ok a.2)) rnd ∧
      ∀ confirm, (session P rnd bs).outcome = .waits confirm →
        ¬ ∃ ls p rest, PasswordsRead (session P rnd bs).left ls rest ∧ Accepted confirm ls p := by
  obtain ⟨qs, h1, h2, h3, h4, h5⟩ := goOn_sound P rnd (bs.length + 1) [] bs (by omega)
  refine ⟨qs, h1, ?_, ?_, ?_, h5⟩
  · intro k q hk
    obtain ⟨c, h6, h7⟩ := h2 k q hk
    rw [List.nil_append, List.map_map] at h6
    exact ⟨c, h6, h7⟩
  · rw [List.nil_append, List.map_map] at h3
    exact h3
  · rw [List.nil_append, List.map_map] at h4
    exact h4

theorem enters_ok {L : WordList} (hL : L.Lawful) {env : Env} {input : InputFlags} {c : Console} {ws behind : List Bytes}
    (h : Enters L (offer L) env input c ws behind) :
    inputWords L (c.forWords env input) input = .ok ws ∧ c.behindWords L env input = behind := by
  have hby : byLine (c.forWords env input) input = byLine env input := rfl
  cases h with
  | file hf hg =>
    have h := (gets_iff hL).2 hg
    unfold inputWords at h
    rw [if_pos hf] at h
    refine ⟨?_, ?_⟩
    · unfold inputWords
      rw [if_pos hf]
      exact h
    · unfold Console.behindWords
      rw [if_pos hf]
  | @lines ls ws behind hf hl hc hls hb hmin =>
    obtain ⟨used, unused, e, h1, h2, h3⟩ := c107_prompt hL ls behind ws hls hb
    have hu : used = ls := by
      by_contra hne
      have := hmin used ⟨unused, e.symm⟩ hne
      obtain ⟨r, -, hr⟩ := (c94_lines hL (enteredLines used).flatten).1
      have := (hr _ this).trans (hr _ h2).symm
      cases this
    subst hu
    obtain rfl : unused = [] := by simpa using e
    have hl' : byLine env input = true := hl
    refine ⟨?_, ?_⟩
    · unfold inputWords
      rw [if_neg (by simp [hf]), hby, if_pos hl']
      have := simplePrompted_fst L c.pieces
      rw [hc, h1, ← hc] at this
      show userInputMnemonicSimple L (if byLine env input then c.text else c.keys) = _
      rw [if_pos hl']
      exact this.symm
    · unfold Console.behindWords
      rw [if_neg (by simp [hf]), if_pos hl', hc, h1]
      rfl
  | @keys s hf hl hp hd =>
    have hl' : ¬ byLine env input = true := by
      have : byLine env input = false := hl
      simp [this]
    have hk := keys_left hL hp hd
    refine ⟨?_, ?_⟩
    · unfold inputWords
      rw [if_neg (by simp [hf]), hby, if_neg hl']
      show userInputMnemonic L (if byLine env input then c.text else c.keys) = _
      rw [if_neg hl']
      unfold userInputMnemonic
      rw [hk]
    · unfold Console.behindWords
      rw [if_neg (by simp [hf]), if_neg hl', hk]
      rfl

theorem answersWith_lines {confirm : Bool} {pw : Option Bytes} {ls : List Bytes} (h : AnswersWith confirm pw ls) :
    (pw.toList.map (fun p => (confirm, ls, p))).flatMap (·.2.1) = ls ∧
    ∀ q ∈ pw.toList.map (fun p => (confirm, ls, p)), Accepted q.1 q.2.1 q.2.2 := by
  cases pw with
  | none =>
    obtain rfl : ls = [] := h
    exact ⟨rfl, by simp⟩
  | some p =>
    have h : Accepted confirm ls p := h
    refine ⟨by simp, ?_⟩
    intro q hq
    simp only [Option.toList_some, List.map_cons, List.map_nil, List.mem_singleton] at hq
    subst hq
    exact h

theorem holds_encrypted {L : WordList} (hL : L.Lawful) {C : Crypto} {words : List Bytes}
    {p : Bytes} {seed offset : Nat} (hholds : Holds (indexOf L) C.toPhraseCrypto words (some p) seed offset)
    {dm : DecodedMnemonic} (hd : decodeMnemonic L words = .ok dm) : dm.encrypted = true := by
  obtain ⟨e, salt, v, hr, -⟩ := hholds
  obtain ⟨hd', -⟩ := decode_of_read hL hr
  rw [hd] at hd'
  cases hd'
  rfl

/-- Both commands that read a phrase -/
theorem session_opened {L : WordList} (hL : L.Lawful) {C : Crypto} (hC : C.Lawful) {env : Env} {input : InputFlags}
    {words : List Bytes} (hin : inputWords L env input = .ok words) {phrasePw newPw : Option Bytes} {seed offset : Nat}
    (hholds : Holds (indexOf L) C.toPhraseCrypto words phrasePw seed offset)
    (wrong : List (List Bytes × Bytes)) (hwrong : ∀ q ∈ wrong, Accepted false q.1 q.2 ∧ WrongPassword L C words q.2)
    {phraseLines newLines : List Bytes} (hphrase : AnswersWith false phrasePw phraseLines)
    (hnew : AnswersWith true newPw newLines) {P : Prog Unit} (hP : Stable P)
    (htrue : ∀ st, (P st).1 = .waits true → Opened L C env input st.prompts)
    (hfalse : ∀ st, (P st).1 = .waits false → (decodeMnemonicFromInput L C env input st).1 = .waits false)
    {rnd : Bytes} {bs left : List (Option Byte)}
    (hbs : PasswordsRead bs (wrong.flatMap Prod.fst ++ phraseLines ++ newLines) left)
    {o : Outcome Unit} {rest : Bytes} {acts : List Act}
    (hrun : P ⟨(wrong.map Prod.snd).map .ok ++ phrasePw.toList.map .ok ++ newPw.toList.map .ok, rnd, []⟩ =
      (o, ⟨[], rest, acts⟩)) (hno : ∀ c, o ≠ .waits c) :
    session P rnd bs = ⟨o, acts, left⟩ := by
  obtain ⟨hp1, hp2⟩ := answersWith_lines hphrase
  obtain ⟨hn1, hn2⟩ := answersWith_lines hnew
  let qs : List (Bool × List Bytes × Bytes) := wrong.map (fun q => (false, q.1, q.2)) ++
    phrasePw.toList.map (fun p => (false, phraseLines, p)) ++ newPw.toList.map (fun p => (true, newLines, p))
  have hw : ∀ p ∈ wrong.map Prod.snd, WrongPassword L C words p := by
    intro p hp
    obtain ⟨q, hq, rfl⟩ := List.mem_map.1 hp
    exact (hwrong q hq).2
  obtain ⟨dm, hd, -, -, -, hloop⟩ := holds_decodes hL hC hholds (wrong.map Prod.snd) hw
  have hall : (qs.map (·.2.2)).map (Res.ok : Bytes → Res Bytes) =
      (wrong.map Prod.snd).map .ok ++ phrasePw.toList.map .ok ++ newPw.toList.map .ok := by
    simp [qs, Function.comp_def]
  have hrun' : P ⟨(qs.map (·.2.2)).map .ok, rnd, []⟩ = (o, ⟨[], rest, acts⟩) := by rw [hall]; exact hrun
  have hflat : qs.flatMap (·.2.1) = wrong.flatMap Prod.fst ++ phraseLines ++ newLines := by
    simp only [qs, List.flatMap_append]
    rw [hp1, hn1]
    simp [List.flatMap_map]
  have hacc : ∀ q ∈ qs, Accepted q.1 q.2.1 q.2.2 := by
    intro q hq
    rcases List.mem_append.1 hq with hq | hq
    · rcases List.mem_append.1 hq with hq | hq
      · obtain ⟨a, ha, rfl⟩ := List.mem_map.1 hq
        exact (hwrong a ha).1
      · exact hp2 q hq
    · exact hn2 q hq
  have hasked : ∀ (k : Nat) (q : Bool × List Bytes × Bytes), qs[k]? = some q →
      P.outcome (([] ++ (qs.take k).map (fun q => q.2.2) : List Bytes).map .ok) rnd = .waits q.1 := by
    intro k q hk
    have hlt : k < qs.length := (List.getElem?_eq_some_iff.1 hk).1
    obtain ⟨c, hc⟩ := waits_before hP (by rw [hrun']) (k := k) (ps := (qs.map (·.2.2)).map .ok) (rnd := rnd)
      (by simpa using hlt)
    rw [← List.map_take, ← List.map_take] at hc
    rw [List.nil_append, hc]
    congr 1
    by_cases hkp : k < wrong.length + phrasePw.toList.length
    · have hq : q.1 = false := by
        rw [List.getElem?_append_left (by simpa using hkp)] at hk
        have := List.mem_of_getElem? hk
        rcases List.mem_append.1 this with h | h
        · obtain ⟨a, -, rfl⟩ := List.mem_map.1 h; rfl
        · obtain ⟨a, -, rfl⟩ := List.mem_map.1 h; rfl
      rw [hq]
      cases c with
      | false => rfl
      | true =>
        exfalso
        -- a prompt before the right password, or the right password is still to come
        obtain ⟨ws, dm', hg, hd', ho⟩ := htrue _ hc
        have e := (gets_iff hL).2 hg
        rw [hin] at e
        cases e
        rw [hd] at hd'
        cases hd'
        have hkw : ∃ p, phrasePw = some p ∧ k ≤ wrong.length := by
          cases hpp : phrasePw with
          | none =>
            exfalso
            rw [hpp] at hkp hholds
            simp only [Option.toList_none, List.length_nil, Nat.add_zero] at hkp
            obtain ⟨a, ha⟩ := List.exists_mem_of_length_pos (by omega : 0 < wrong.length)
            obtain ⟨e, salt, v, off, hr', -⟩ := (hwrong a ha).2
            have hr : readPhrase (indexOf L) words = .ok (.plaintext seed offset) := hholds
            rw [hr] at hr'
            cases hr'
          | some p =>
            rw [hpp] at hkp
            simp only [Option.toList_some, List.length_cons, List.length_nil] at hkp
            exact ⟨p, rfl, by omega⟩
        obtain ⟨p, hpp, hkw⟩ := hkw
        rw [hpp] at hholds
        rcases ho with ho | ⟨p', s', hp', hs'⟩
        · rw [holds_encrypted hL hholds hd] at ho
          cases ho
        · dsimp only at hp'
          obtain ⟨p'', hp'', e⟩ := List.mem_map.1 hp'
          cases e
          obtain ⟨a, ha, rfl⟩ := List.mem_map.1 hp''
          have : a ∈ wrong.map (fun q => (false, q.1, q.2)) := by
            have h1 : qs.take k = (wrong.map (fun q => (false, q.1, q.2))).take k := by
              simp only [qs]
              rw [List.append_assoc, List.take_append_of_le_length (by simpa using hkw)]
            rw [h1] at ha
            exact List.mem_of_mem_take ha
          obtain ⟨b, hb, rfl⟩ := List.mem_map.1 this
          have := (wrong_decrypt hL hC hd (hwrong b hb).2).2
          rw [this] at hs'
          cases hs'
    · have hq : q.1 = true := by
        rw [List.getElem?_append_right (by simpa using Nat.le_of_not_lt hkp)] at hk
        have := List.mem_of_getElem? hk
        obtain ⟨a, -, rfl⟩ := List.mem_map.1 this
        rfl
      rw [hq]
      cases c with
      | true => rfl
      | false =>
        exfalso
        have h1 := hfalse _ hc
        have htake : ((qs.take k).map (·.2.2)).map (Res.ok : Bytes → Res Bytes) =
            (wrong.map Prod.snd).map .ok ++ phrasePw.toList.map .ok ++
              ((newPw.toList.map (fun p => (true, newLines, p))).take (k - (wrong.length + phrasePw.toList.length))).map
                (fun a => .ok a.2.2) := by
          simp only [qs]
          rw [List.take_append, List.take_of_length_le (by simpa using Nat.le_of_not_lt hkp)]
          simp [Function.comp_def]
        rw [htake, decode_run hin hd (hloop _)] at h1
        cases h1
  have hfin : P.outcome (([] ++ qs.map (fun q => q.2.2) : List Bytes).map .ok) rnd = o := by
    unfold Prog.outcome
    rw [List.nil_append, hrun']
  unfold session
  rw [goOn_all qs _ [] bs left (by omega) hasked hacc (by rw [hflat]; exact hbs) (by rw [hfin]; exact hno), hfin]
  congr 1
  unfold Prog.acts
  rw [List.nil_append, hrun']

/-- recover at a terminal: the words, wrong passwords for the phrase, the right one, and the password for the key, each
after any number of attempts that the prompt refuses, are typed one after the other. The key that is asked for is printed,
and nothing behind the last password is read. -/
theorem c108_recover {L : WordList} (hL : L.Lawful) {C : Crypto} (hC : C.Lawful) (env : Env) (opts : RecoverOptions)
    {w : Wanted} {master : Prop} (hask : AsksFor opts.key opts.encIndex opts.authIndex opts.sigIndex w master)
    (henc : opts.encIndex ≤ 65535) (hauth : opts.authIndex ≤ 65535) (hsig : opts.sigIndex ≤ 65535)
    (hu : w.userID.length < 2 ^ 32) (c : Console) {words behind : List Bytes}
    (henter : Enters L (offer L) env opts.input c words behind)
    {phrasePw keyPw : Option Bytes} {seed offset : Nat}
    (hholds : Holds (indexOf L) C.toPhraseCrypto words phrasePw seed offset)
    (wrong : List (List Bytes × Bytes)) (hwrong : ∀ q ∈ wrong, Accepted false q.1 q.2 ∧ WrongPassword L C words q.2)
    {phraseLines keyLines : List Bytes} (hphrase : AnswersWith false phrasePw phraseLines)
    (hkeyLines : AnswersWith true keyPw keyLines) {left : List (Option Byte)}
    (hread : PasswordsRead (byteByByte behind) (wrong.flatMap Prod.fst ++ phraseLines ++ keyLines) left)
    (hkey : keyPw.isSome = opts.key.encryptKeys) (hlen : ∀ p, keyPw = some p → p.length ≤ 65011704)
    {rnd : Bytes} (hrnd : 96 ≤ rnd.length) :
    let r := recoverSession L C env opts c rnd
    r.outcome = .ok () ∧ r.left = left ∧
    ∃ key, (atStart env.fs).run r.acts = ⟨env.fs, none, env.armor key ++ [0x0A], []⟩ ∧
      Contains C key (keyPw.getD []) seed (1672531200 + offset) w master (opts.selfCert = true) := by
  obtain ⟨hin, hbe⟩ := enters_ok hL henter
  obtain ⟨key, rest, hrun, hcont⟩ := recover_ok hL hC (c.forWords env opts.input) opts hask henc hauth hsig hu hin hholds
    (wrong.map Prod.snd) (by
      intro p hp
      obtain ⟨q, hq, rfl⟩ := List.mem_map.1 hp
      exact (hwrong q hq).2) hkey (fun p hp => by
        subst hp
        exact ⟨Accepted.elim hkeyLines, hlen p rfl⟩) [] hrnd
  rw [List.append_nil] at hrun
  have hs := session_opened hL hC hin hholds wrong hwrong hphrase hkeyLines (stable_recover L C _ opts)
    (fun st h => (recover_asks hL h).2) (fun st h => recover_asks_phrase h) hread hrun (by simp)
  have hr : recoverSession L C env opts c rnd = ⟨.ok (), (env.armor key ++ str "\n").map .stdout, left⟩ := by
    unfold recoverSession
    rw [hbe]
    exact hs
  dsimp only
  rw [hr]
  refine ⟨rfl, rfl, key, ?_, hcont⟩
  rw [run_stdout]
  rfl
where
  Accepted.elim {p : Bytes} {ls : List Bytes} (h : AnswersWith true (some p) ls) : p ≠ [] :=
    (show Accepted true ls p from h).1

/-- convert at a terminal -/
theorem c108_convert {L : WordList} (hL : L.Lawful) {C : Crypto} (hC : C.Lawful) (env : Env) (opts : ConvertOptions)
    (c : Console) {words behind : List Bytes} (henter : Enters L (offer L) env opts.input c words behind)
    (hfile : opts.input.inputWordFile = []) {phrasePw newPw : Option Bytes} {seed offset : Nat}
    (hholds : Holds (indexOf L) C.toPhraseCrypto words phrasePw seed offset)
    (wrong : List (List Bytes × Bytes)) (hwrong : ∀ q ∈ wrong, Accepted false q.1 q.2 ∧ WrongPassword L C words q.2)
    {phraseLines newLines : List Bytes} (hphrase : AnswersWith false phrasePw phraseLines)
    (hnewLines : AnswersWith true newPw newLines) {left : List (Option Byte)}
    (hread : PasswordsRead (byteByByte behind) (wrong.flatMap Prod.fst ++ phraseLines ++ newLines) left)
    (hnew : newPw.isSome = opts.encryptPhrase) {rnd : Bytes} (hrnd : 3 ≤ rnd.length) (hcol : 17 ≤ env.columns) :
    let r := convertSession L C env opts c rnd
    r.outcome = .ok () ∧ r.left = left ∧
    ∃ words', (atStart env.fs).run r.acts = ⟨env.fs, none, [], [words']⟩ ∧
      Complete L.word words' ∧ Holds (indexOf L) C.toPhraseCrypto words' newPw seed offset := by
  obtain ⟨hin, hbe⟩ := enters_ok hL henter
  obtain ⟨words', rest, hrun, hc, hh⟩ := convert_ok hL hC (c.forWords env opts.input) opts hin hfile hholds
    (wrong.map Prod.snd) (by
      intro p hp
      obtain ⟨q, hq, rfl⟩ := List.mem_map.1 hp
      exact (hwrong q hq).2) hnew (by
        rintro rfl
        exact (show Accepted true newLines [] from hnewLines).1 rfl) [] hrnd hcol
  rw [List.append_nil] at hrun
  have hs := session_opened hL hC hin hholds wrong hwrong hphrase hnewLines (stable_convert L C _ opts)
    (fun st h => (convert_asks hL h).2) (fun st h => convert_asks_phrase h) hread hrun (by simp)
  have hr : convertSession L C env opts c rnd = ⟨.ok (), [.showPhrase words'], left⟩ := by
    unfold convertSession
    rw [hbe]
    exact hs
  dsimp only
  rw [hr]
  exact ⟨rfl, rfl, words', rfl, hc, hh⟩

theorem generateEnd_prompts (env : Env) (out key : Bytes) (ws : List Bytes) (st : St) :
    (generateEnd env out key ws st).2.prompts = st.prompts := by
  have hb : ∀ {α β : Type} {x : Prog α} {f : α → Prog β}, (∀ st, (x st).2.prompts = st.prompts) →
      (∀ a st, (f a st).2.prompts = st.prompts) → ∀ st, ((x >>= f) st).2.prompts = st.prompts := by
    intro α β x f hx hf st
    rw [show (x >>= f) = Prog.bind x f from rfl]
    unfold Prog.bind
    have := hx st
    rcases hxs : x st with ⟨o, st1⟩
    rw [hxs] at this
    cases o with
    | ok a => exact (hf a st1).trans this
    | _ => exact this
  have he : ∀ as st, (emit as st).2.prompts = st.prompts := fun _ _ => rfl
  have hl : ∀ (r : Res Unit) st, (lift r st).2.prompts = st.prompts := by intro r st; cases r <;> rfl
  have hm : ∀ st, (printMnemonic env ws st).2.prompts = st.prompts := by
    intro st
    unfold printMnemonic
    dsimp only
    rcases justifyTerminalWidth 19 env.columns 0 notice with _ | (_ | _ | _) <;> rfl
  unfold generateEnd
  by_cases h : out = []
  · rw [if_neg (by simp [h]), if_pos h]
    exact hb (he _) (fun _ => hm) st
  · rw [if_pos h, if_neg h]
    exact hb (hb (he _) (fun _ => hl _)) (fun _ => hb (he _) (fun _ _ => rfl)) st

/-- generate at a terminal: the password for the key and then the one for the phrase are typed, behind the 16 bytes for the
seed if those are read from the terminal too. -/
theorem c108_generate {L : WordList} (hL : L.Lawful) {C : Crypto} (hC : C.Lawful) (env : Env) (hwf : env.fs.Wf)
    (opts : GenerateOptions) {w : Wanted} {master : Prop} (hask : AsksFor opts.key 0 0 0 w master)
    (hu : w.userID.length < 2 ^ 32) (hnow : 1672531200 * 10 ^ 9 ≤ env.now)
    (hnow' : env.now ≤ (1672531200 + 2 ^ 31 - 1) * 10 ^ 9) (c : Console) {rnd e rnd' : Bytes}
    (hseed : SeedBytes { env with stdin := beforeEnd c.pieces } rnd opts.unsafeEntropy e rnd') (hrnd : 99 ≤ rnd'.length)
    {keyPw phrasePw : Option Bytes} (htyped : Typed opts.key.encryptKeys opts.encryptPhrase keyPw phrasePw)
    {keyLines phraseLines : List Bytes} (hkey : AnswersWith true keyPw keyLines)
    (hphrase : AnswersWith true phrasePw phraseLines) {left : List (Option Byte)}
    (hread : PasswordsRead (byteByByte (c.behindEntropy opts.unsafeEntropy)) (keyLines ++ phraseLines) left)
    (hsave : opts.outputWordFile ≠ [] → env.fs.read opts.outputWordFile = none ∧ env.save = ⟨false, false, none⟩)
    (hshow : opts.outputWordFile = [] → 17 ≤ env.columns) :
    let r := generateSession L C env opts c rnd
    let after := (atStart env.fs).run r.acts
    r.outcome = .ok () ∧ r.left = left ∧
    ∃ key words, after.stdout = env.armor key ++ [0x0A] ∧
      Contains C key (keyPw.getD []) (valueOfBytes e) (env.now / 10 ^ 9).toNat w master True ∧
      Complete L.word words ∧
      Holds (indexOf L) C.toPhraseCrypto words phrasePw (valueOfBytes e) ((env.now / 10 ^ 9).toNat - 1672531200) ∧
      (opts.outputWordFile ≠ [] → after.shown = [] ∧ after.fs.read opts.outputWordFile = some (phraseText words)) ∧
      (opts.outputWordFile = [] → after.shown = [words] ∧ after.fs = env.fs) := by
  let env' : Env := { env with stdin := beforeEnd c.pieces }
  obtain ⟨key0, words0, rest0, hrun, -⟩ := generate_ok hL hC env' opts hask hu hnow hnow' hseed hrnd htyped []
  obtain ⟨hok, key, words, h1, h2, h3, h4, h5, h6⟩ := c70_generate hL hC env' hwf opts hask hu hnow hnow' hseed hrnd htyped []
    hsave hshow
  rw [List.append_nil] at hok h1 h5 h6 hrun
  obtain ⟨hk1, hk2⟩ := answersWith_lines hkey
  obtain ⟨hp1, hp2⟩ := answersWith_lines hphrase
  let qs : List (Bool × List Bytes × Bytes) := keyPw.toList.map (fun p => (true, keyLines, p)) ++
    phrasePw.toList.map (fun p => (true, phraseLines, p))
  have hall : (qs.map (fun q => q.2.2)).map (Res.ok : Bytes → Res Bytes) =
      keyPw.toList.map .ok ++ phrasePw.toList.map .ok := by
    simp [qs, Function.comp_def]
  have hflat : qs.flatMap (fun q => q.2.1) = keyLines ++ phraseLines := by
    simp only [qs, List.flatMap_append]
    rw [hk1, hp1]
  have hs : generateSession L C env opts c rnd = ⟨.ok (), (generateAndPrintKey L C env' opts).acts
      (keyPw.toList.map .ok ++ phrasePw.toList.map .ok) rnd, left⟩ := by
    unfold generateSession session
    change goOn (generateAndPrintKey L C env' opts) rnd _ _ _ = _
    have hfin : (generateAndPrintKey L C env' opts).outcome (([] ++ qs.map (fun q => q.2.2) : List Bytes).map .ok) rnd = .ok () := by
      rw [List.nil_append, hall]
      exact hok
    rw [goOn_all qs _ [] _ left (by omega) ?_ ?_ (by rw [hflat]; exact hread) (by rw [hfin]; simp), hfin, List.nil_append, hall]
    · intro k q hk
      have hlt : k < qs.length := (List.getElem?_eq_some_iff.1 hk).1
      obtain ⟨c, hc⟩ := waits_before (stable_generate L C env' opts) (k := k) (ps := (qs.map (fun q => q.2.2)).map .ok) (rnd := rnd)
        (by rw [hall, hrun, generateEnd_prompts]) (by simpa using hlt)
      rw [← List.map_take, ← List.map_take] at hc
      rw [List.nil_append, hc, generate_asks L C env' opts _ _ hc]
      congr 1
      have := List.mem_of_getElem? hk
      rcases List.mem_append.1 this with h | h
      · obtain ⟨a, -, rfl⟩ := List.mem_map.1 h; rfl
      · obtain ⟨a, -, rfl⟩ := List.mem_map.1 h; rfl
    · intro q hq
      rcases List.mem_append.1 hq with hq | hq
      · exact hk2 q hq
      · exact hp2 q hq
  dsimp only
  rw [hs]
  exact ⟨rfl, rfl, key, words, h1, h2, h3, h4, fun h => ⟨(h5 h).1, (h5 h).2.1⟩, h6⟩

/-! Examples -/

theorem line_read (l : Bytes) (ls : List Bytes) (h : ∀ b ∈ l, b ≠ 0x08 ∧ b ≠ 0x0A ∧ b ≠ 0x0D) :
    readPasswordLine [] (byteByByte (enteredLines (l :: ls))) = .password l (byteByByte (enteredLines ls)) := by
  have : byteByByte (enteredLines (l :: ls)) = l.map some ++ some 0x0A :: byteByByte (enteredLines ls) := by
    simp [byteByByte, enteredLines]
  rw [this, read_plain l [] _ h]
  rfl

/-- An empty line, a repetition that differs, and a password typed twice -/
example : promptLoop true 30 (byteByByte (enteredLines [[], str "ab", str "ac", str "ab", str "ab", str "more"])) =
    some (str "ab", byteByByte (enteredLines [str "more"])) := by decide +kernel

example : ∃ ls, PasswordsRead (byteByByte (enteredLines [[], str "ab", str "ac", str "ab", str "ab", str "more"])) ls
    (byteByByte (enteredLines [str "more"])) ∧ Accepted true ls (str "ab") :=
  (c108_prompt _ _ _ _).1 (by decide +kernel)

/-- What somebody types: the 16 words of an encrypted phrase, a wrong password after an empty line, the right one, two
passwords for the key that differ, the password for the key twice, and something else -/
def sampleTyped : Console := ⟨[], enteredLines (sampleEncrypted ++ [[], [2], [1], str "a", str "b", str "key", str "key", str "more"])⟩

theorem sampleTyped_enters : Enters toyWordList (offer toyWordList) sampleEnv ⟨true, []⟩ sampleTyped sampleEncrypted
    (enteredLines [[], [2], [1], str "a", str "b", str "key", str "key", str "more"]) := by
  refine .lines (ls := sampleEncrypted) rfl rfl (by decide +kernel) (by decide +kernel)
    (((c94_lines toyWordList_lawful _).2.1 _).1 (by decide +kernel)) ?_
  intro fewer hp hne
  have he := List.prefix_iff_eq_take.1 hp
  have hlt : fewer.length < sampleEncrypted.length := by
    rcases Nat.lt_or_ge fewer.length sampleEncrypted.length with h | h
    · exact h
    · exact absurd (hp.eq_of_length_le h) hne
  rw [he]
  exact (c94_lines toyWordList_lawful _).2.2.1 ((by decide +kernel : ∀ j < sampleEncrypted.length,
    userInputMnemonicSimple toyWordList (enteredLines (sampleEncrypted.take j)).flatten = .err .stdinRead) _ hlt)

theorem sampleTyped_read : PasswordsRead
    (byteByByte (enteredLines [[], [2], [1], str "a", str "b", str "key", str "key", str "more"]))
    ([([[], [2]], [2])].flatMap Prod.fst ++ [[1]] ++ [str "a", str "b", str "key", str "key"])
    (byteByByte (enteredLines [str "more"])) := by
  refine .cons (line_read _ _ (by decide)) (.cons (line_read _ _ (by decide)) (.cons (line_read _ _ (by decide)) (.cons (line_read _ _ (by decide))
    (.cons (line_read _ _ (by decide)) (.cons (line_read _ _ (by decide)) (.cons (line_read _ _ (by decide)) .nil))))))

/-- recover prints the key, encrypted with the password that was typed twice. -/
example : ∃ key, (recoverSession toyWordList toyCrypto sampleEnv
      { key := sampleKeyFlags, input := ⟨true, []⟩, selfCert := true, encIndex := 0, authIndex := 0, sigIndex := 0 }
      sampleTyped (List.replicate 96 7)).left = byteByByte (enteredLines [str "more"]) ∧
    Contains toyCrypto key (str "key") 9341084582143408800955381380479911687 1700000000 (sampleWanted 0 0) False
      (true = true) := by
  have hw : WrongPassword toyWordList toyCrypto sampleEncrypted [2] :=
    ⟨52006880893628896709768386229699380622, 460551, 16, 27468800, by decide +kernel, by decide +kernel⟩
  have hh : Holds (indexOf toyWordList) toyCrypto.toPhraseCrypto sampleEncrypted (some [1])
      9341084582143408800955381380479911687 27468800 :=
    ⟨52006880893628896709768386229699380622, 460551, 16, by decide +kernel, by decide +kernel⟩
  obtain ⟨-, hl, key, -, hk⟩ := c108_recover toyWordList_lawful toyCrypto_lawful sampleEnv
    { key := sampleKeyFlags, input := ⟨true, []⟩, selfCert := true, encIndex := 0, authIndex := 0, sigIndex := 0 }
    (sample_asks 0 0 0) (by decide) (by decide) (by decide) (by decide) sampleTyped sampleTyped_enters
    (phrasePw := some [1]) (keyPw := some (str "key")) hh [([[], [2]], [2])]
    (by
      intro q hq
      obtain rfl := List.mem_singleton.1 hq
      exact ⟨⟨by simp, [[]], .empty [] .nil, rfl⟩, hw⟩)
    (phraseLines := [[1]]) (keyLines := [str "a", str "b", str "key", str "key"])
    (show Accepted false _ _ from ⟨by simp, [], .nil, rfl⟩)
    (show Accepted true _ _ from ⟨by decide, [str "a", str "b"], .mismatch [] _ _ rfl .nil (by decide) (by decide), rfl⟩)
    sampleTyped_read rfl (by rintro p ⟨⟩; decide) (rnd := List.replicate 96 7) (by decide)
  exact ⟨key, hl, hk⟩

/-- convert shows a phrase with the new password. -/
example : ∃ words', (atStart sampleEnv.fs).run (convertSession toyWordList toyCrypto sampleEnv
      { input := ⟨true, []⟩, outputWordFile := [], encryptPhrase := true } sampleTyped [1, 2, 3]).acts =
        ⟨sampleEnv.fs, none, [], [words']⟩ ∧
    Holds (indexOf toyWordList) toyCrypto.toPhraseCrypto words' (some (str "key")) 9341084582143408800955381380479911687 27468800 := by
  have hw : WrongPassword toyWordList toyCrypto sampleEncrypted [2] :=
    ⟨52006880893628896709768386229699380622, 460551, 16, 27468800, by decide +kernel, by decide +kernel⟩
  obtain ⟨-, -, words', h1, -, h2⟩ := c108_convert toyWordList_lawful toyCrypto_lawful sampleEnv
    { input := ⟨true, []⟩, outputWordFile := [], encryptPhrase := true } sampleTyped sampleTyped_enters rfl
    (phrasePw := some [1]) (newPw := some (str "key")) (offset := 27468800) (seed := 9341084582143408800955381380479911687)
    ⟨52006880893628896709768386229699380622, 460551, 16, by decide +kernel, by decide +kernel⟩ [([[], [2]], [2])]
    (by
      intro q hq
      obtain rfl := List.mem_singleton.1 hq
      exact ⟨⟨by simp, [[]], .empty [] .nil, rfl⟩, hw⟩)
    (phraseLines := [[1]]) (newLines := [str "a", str "b", str "key", str "key"])
    (show Accepted false _ _ from ⟨by simp, [], .nil, rfl⟩)
    (show Accepted true _ _ from ⟨by decide, [str "a", str "b"], .mismatch [] _ _ rfl .nil (by decide) (by decide), rfl⟩)
    sampleTyped_read rfl (rnd := [1, 2, 3]) (by decide) (by decide)
  exact ⟨words', h1, h2⟩

/-- The phrase alone: recover waits, and no line has been lost. -/
example : (recoverSession toyWordList toyCrypto sampleEnv
      { key := sampleKeyFlags, input := ⟨true, []⟩, selfCert := true, encIndex := 0, authIndex := 0, sigIndex := 0 }
      ⟨[], enteredLines (sampleEncrypted ++ [[], [2], []])⟩ []).outcome = .waits false := by decide +kernel

/-- generate with entropy from the keyboard: 16 characters and return, which is an empty line for the password prompt -/
example : ∃ key words, ((atStart sampleEnv.fs).run (generateSession toyWordList toyCrypto sampleEnv
      { key := sampleKeyFlags, outputWordFile := [], encryptPhrase := false, unsafeEntropy := str "-" }
      ⟨[], enteredLines [str "0123456789abcdef", str "key", str "key"]⟩ (List.replicate 99 7)).acts).stdout =
        sampleEnv.armor key ++ [0x0A] ∧
    Holds (indexOf toyWordList) toyCrypto.toPhraseCrypto words none (valueOfBytes (str "0123456789abcdef")) 27468800 := by
  have hread : PasswordsRead (byteByByte (Console.behindEntropy ⟨[], enteredLines [str "0123456789abcdef", str "key", str "key"]⟩
      (str "-"))) ([[], str "key", str "key"] ++ []) [] := by
    have hb : Console.behindEntropy ⟨[], enteredLines [str "0123456789abcdef", str "key", str "key"]⟩ (str "-") =
        enteredLines [[], str "key", str "key"] := by decide +kernel
    rw [hb]
    exact .cons (line_read _ _ (by decide)) (.cons (line_read _ _ (by decide)) (.cons (line_read _ _ (by decide)) .nil))
  obtain ⟨-, -, key, words, h1, -, -, h2, -⟩ := c108_generate toyWordList_lawful toyCrypto_lawful sampleEnv sampleFS_wf
    { key := sampleKeyFlags, outputWordFile := [], encryptPhrase := false, unsafeEntropy := str "-" }
    (sample_asks 0 0 0) (by decide) (by decide) (by decide)
    ⟨[], enteredLines [str "0123456789abcdef", str "key", str "key"]⟩
    (.stdin (e := str "0123456789abcdef") (more := str "\nkey\nkey\n") (rnd := List.replicate 99 7) (by decide) (by decide +kernel))
    (by decide) (keyPw := some (str "key")) (phrasePw := none) ⟨rfl, rfl, by rintro p ⟨⟩; decide, by rintro p ⟨⟩⟩
    (keyLines := [[], str "key", str "key"]) (phraseLines := [])
    (show Accepted true _ _ from ⟨by decide, [[]], .empty [] .nil, rfl⟩) rfl hread (fun h => absurd rfl h) (by decide)
  exact ⟨key, words, h1, h2⟩

end Verif.Props
