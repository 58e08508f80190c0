import Verif.Props.Screen
import Verif.Props.Simple
import Verif.Proofs.SimpleScreen

/-! # C78 What the simple prompt leaves on the screen -/

namespace Verif.Props

open Verif.Model Verif.Model.Cli Verif.Proofs Verif.Spec Verif.Instances

/-- After the header of the simple prompt the first prompt can be written. -/
theorem ready_simple {t : Term} (hu : t.Usable 46) :
    Ready (t.feed (cooked simpleHeader)) ∧ t.row ≤ (t.feed (cooked simpleHeader)).row ∧
      (t.feed (cooked simpleHeader)).width = t.width ∧
      ∀ r c, r < t.row → (t.feed (cooked simpleHeader)).cell r c = t.cell r c := by
  have e : cooked simpleHeader = bold (cyan (inputHeaderMessage ++ str "\r\n\r\n")) ++ ([0x0D] ++ ([0x0A] ++ previousLine)) := by
    decide +kernel
  rw [e, feed_append, feed_append, feed_append]
  obtain ⟨o1, f1⟩ := onward_boldcyan (bs := inputHeaderMessage ++ str "\r\n\r\n") hu.esc hu.topRow hu.rowTop (by decide +kernel)
  generalize t.feed (bold (cyan (inputHeaderMessage ++ str "\r\n\r\n"))) = t1 at o1 f1
  rw [feed_cr o1.esc, feed_lf (by exact o1.esc)]
  have o8' : Onward t { t1 with col := 0, wrap := false } :=
    ⟨o1.esc, o1.width, o1.height, o1.topRow, o1.rowTop, o1.down, o1.above⟩
  have f8 : ({ t1 with col := 0, wrap := false } : Term).faint = false := f1
  generalize ({ t1 with col := 0, wrap := false } : Term) = t8 at o8' f8
  obtain ⟨o9, w9, r9, f9, c9⟩ := onward_lineFeed o8'.esc o8'.topRow o8'.rowTop
  have l9 := lineFeed_top o8'.topRow (by rw [o8'.height]; exact hu.rows)
  generalize t8.lineFeed = t9 at o9 w9 r9 f9 c9 l9
  rw [feed_previous o9.esc]
  have hr : max t9.top (t9.row - 1) = t8.row := by omega
  rw [hr]
  have o10 := o8'.trans o9
  refine ⟨⟨o9.esc, rfl, ?_, rfl, ?_, ?_, ?_⟩, o8'.down, o10.width, o10.above⟩
  · show t9.faint = false
    rw [f9]; exact f8
  · show t9.top ≤ t8.row
    omega
  · show t8.row + 1 < t9.top + t9.height
    have := o9.rowTop
    omega
  · show 46 ≤ t9.width
    rw [o10.width]; exact hu.columns

/-- The rounds of the screen are those of the prompt. -/
theorem simpleLoop_shows {L : WordList} : ∀ (lines words : List Bytes) (n : Nat), words.length < n →
    (∀ st, (simpleShows L n words lines).2 = some st → simpleLoop L n words lines = .err .stdinRead) ∧
    ((simpleShows L n words lines).2 = none → ∃ ws, simpleLoop L n words lines = .ok ws)
  | [], words, n, _ => ⟨fun _ _ => rfl, fun h => (nomatch h)⟩
  | line :: lines, words, n, hn => by
    have go : ∀ n1 words1, (simpleRound L n words line).2 = (n1, words1) →
        simpleLoop L n words (line :: lines) =
          (if words1.length < n1 then simpleLoop L n1 words1 lines else .ok words1) →
        (∀ st, (simpleShows L n words (line :: lines)).2 = some st → simpleLoop L n words (line :: lines) = .err .stdinRead) ∧
        ((simpleShows L n words (line :: lines)).2 = none → ∃ ws, simpleLoop L n words (line :: lines) = .ok ws) := by
      intro n1 words1 hr heq
      rw [heq]
      unfold simpleShows
      rcases hrr : simpleRound L n words line with ⟨out, n2, words2⟩
      rw [hrr] at hr
      cases hr
      simp only
      by_cases hlt : words1.length < n1
      · rw [if_pos hlt, if_pos hlt]
        exact simpleLoop_shows lines words1 n1 hlt
      · rw [if_neg hlt, if_neg hlt]
        exact ⟨fun st h => (nomatch h), fun _ => ⟨_, rfl⟩⟩
    have hstay : (simpleRound L n words line).2 = (n, words) →
        simpleLoop L n words (line :: lines) = simpleLoop L n words lines →
        (∀ st, (simpleShows L n words (line :: lines)).2 = some st → simpleLoop L n words (line :: lines) = .err .stdinRead) ∧
        ((simpleShows L n words (line :: lines)).2 = none → ∃ ws, simpleLoop L n words (line :: lines) = .ok ws) :=
      fun h1 h2 => go n words h1 (by rw [h2, if_pos hn])
    by_cases hm : L.exactMatch (L.toLower (trimSpace line)) = true
    · by_cases h0 : words.length = 0
      · cases hp : parseMnemonicVersion L (L.toLower (trimSpace line)) with
        | err e =>
          exact hstay (by simp [simpleRound, hm, h0, hp]) (by conv_lhs => unfold simpleLoop
                                                              simp only [hm, h0, hp, if_true])
        | panic p => exact absurd hp (parse_no_panic _ _)
        | ok v =>
          refine go (mnemonicSize v) (words ++ [L.toLower (trimSpace line)]) (by simp [simpleRound, hm, h0, hp]) ?_
          conv_lhs => unfold simpleLoop
          simp only [hm, h0, hp, if_true]
      · refine go n (words ++ [L.toLower (trimSpace line)]) (by simp only [simpleRound, hm, h0, if_true, if_false]) ?_
        conv_lhs => unfold simpleLoop
        simp only [hm, h0, if_true, if_false]
    · have hm' : L.exactMatch (L.toLower (trimSpace line)) = false := by simpa using hm
      exact hstay (by simp [simpleRound, hm']) (by conv_lhs => unfold simpleLoop
                                                   simp only [hm', Bool.false_eq_true, if_false])

theorem isWord_exact {L : WordList} (hL : L.Lawful) (w : Bytes) : L.exactMatch w = true ↔ IsWord L.word w := by
  rw [hL.exact_iff]
  exact Iff.rfl

/-- The words after the first -/
theorem simpleShows_more {L : WordList} (hL : L.Lawful) : ∀ (lines words : List Bytes) (n n' : Nat) (ws' : List Bytes),
    words ≠ [] → (simpleShows L n words lines).2 = some (n', ws') →
    ws' = words ++ (lines.map (entry L)).filter (fun e => L.exactMatch e)
  | [], words, n, n', ws', _, h => by cases h; simp
  | line :: lines, words, n, n', ws', hw, h => by
    have hl : words.length ≠ 0 := fun e => hw (List.length_eq_zero_iff.1 e)
    unfold simpleShows at h
    by_cases hm : L.exactMatch (L.toLower (trimSpace line)) = true
    · have hr : (simpleRound L n words line).2 = (n, words ++ [L.toLower (trimSpace line)]) := by
        simp only [simpleRound, hm, hl, if_true, if_false]
      rcases hrr : simpleRound L n words line with ⟨out, n2, words2⟩
      rw [hrr] at h hr
      cases hr
      simp only at h
      split at h
      · have := simpleShows_more hL lines _ n n' ws' (by simp) h
        rw [this, List.map_cons, List.filter_cons_of_pos (by exact hm)]
        simp [entry]
      · cases h
    · have hr : (simpleRound L n words line).2 = (n, words) := by
        have hm' : L.exactMatch (L.toLower (trimSpace line)) = false := by simpa using hm
        simp [simpleRound, hm']
      rcases hrr : simpleRound L n words line with ⟨out, n2, words2⟩
      rw [hrr] at h hr
      cases hr
      simp only at h
      split at h
      · have := simpleShows_more hL lines words n n' ws' hw h
        rw [this, List.map_cons, List.filter_cons_of_neg (by exact hm)]
      · cases h

open Classical in
/-- The prompt knows the words that it should have accepted. -/
theorem simpleShows_accepted {L : WordList} (hL : L.Lawful) : ∀ (lines : List Bytes) (n n' : Nat) (ws' : List Bytes),
    (simpleShows L n [] lines).2 = some (n', ws') → ws' = accepted L.word (lines.map (entry L))
  | [], n, n', ws', h => by cases h; simp [accepted]
  | line :: lines, n, n', ws', h => by
    unfold simpleShows at h
    have hdec : ∀ e : Bytes, decide (IsWord L.word e) = L.exactMatch e := by
      intro e
      rw [Bool.eq_iff_iff, decide_eq_true_iff, isWord_exact hL]
    by_cases hm : L.exactMatch (L.toLower (trimSpace line)) = true
    · obtain ⟨i, hi, ei⟩ := (hL.exact_iff _).1 hm
      have hf : accepted L.word ((line :: lines).map (entry L)) =
          (entry L line :: ((lines.map (entry L)).filter (fun e => L.exactMatch e))).dropWhile
            (fun w => decide (¬ ∃ n, Needs L.word w n)) := by
        unfold accepted
        simp only [hdec]
        rw [List.map_cons, List.filter_cons_of_pos (by exact hm)]
      by_cases hv : i / 256 < 2
      · obtain ⟨v, hp⟩ := (version_of_word hL hi).2 hv
        rw [ei] at hp
        have hr : (simpleRound L n [] line).2 = (mnemonicSize v, [L.toLower (trimSpace line)]) := by
          simp [simpleRound, hm, hp]
        rcases hrr : simpleRound L n [] line with ⟨out, n2, words2⟩
        rw [hrr] at h hr
        cases hr
        simp only at h
        split at h
        · have := simpleShows_more hL lines _ _ n' ws' (by simp) h
          have hn : ∃ n, Needs L.word (entry L line) n := by
            have : entry L line = L.word i := ei.symm
            rw [this]
            rcases (show i / 256 = 0 ∨ i / 256 = 1 by omega) with h | h
            · exact ⟨14, .plaintext i h⟩
            · exact ⟨16, .encrypted i h⟩
          rw [hf, List.dropWhile_cons_of_neg (by simpa using hn), this]
          rfl
        · cases h
      · cases hp : parseMnemonicVersion L (L.word i) with
        | ok v => exact absurd ((version_of_word hL hi).1 ⟨v, hp⟩) hv
        | panic p => exact absurd hp (parse_no_panic _ _)
        | err e =>
          rw [ei] at hp
          have hr : (simpleRound L n [] line).2 = (n, []) := by
            simp [simpleRound, hm, hp]
          rcases hrr : simpleRound L n [] line with ⟨out, n2, words2⟩
          rw [hrr] at h hr
          cases hr
          simp only at h
          split at h
          · have := simpleShows_accepted hL lines n n' ws' h
            have hn : ¬ ∃ n, Needs L.word (entry L line) n := by
              have e2 : entry L line = L.word i := ei.symm
              rw [e2]
              rintro ⟨k, hk⟩
              have := (needs_iff hL hi k).1 hk
              omega
            rw [hf, List.dropWhile_cons_of_pos (by simpa using hn), this]
            unfold accepted
            simp only [hdec]
          · cases h
    · have hr : (simpleRound L n [] line).2 = (n, []) := by
        have hm' : L.exactMatch (L.toLower (trimSpace line)) = false := by simpa using hm
        simp [simpleRound, hm']
      rcases hrr : simpleRound L n [] line with ⟨out, n2, words2⟩
      rw [hrr] at h hr
      cases hr
      simp only at h
      split at h
      · have := simpleShows_accepted hL lines n n' ws' h
        rw [this]
        unfold accepted
        simp only [hdec]
        rw [List.map_cons, List.filter_cons_of_neg (by exact hm)]
      · cases h

theorem entries_eq {L : WordList} {lines trimmed : List Bytes} (ht : List.Forall₂ Trimmed lines trimmed) :
    lines.map (entry L) = trimmed.map L.toLower := by
  induction ht with
  | nil => rfl
  | cons h1 _ ih => rw [List.map_cons, List.map_cons, ih, entry, trimSpace_of h1]

theorem simpleShows_wanted {L : WordList} (hL : L.Lawful) (lines : List Bytes) :
    (simpleWanted L.word (lines.map (entry L)) = none → ∃ n, (simpleShows L 1 [] lines).2 =
      some (n, accepted L.word (lines.map (entry L)))) ∧
    (∀ ws, simpleWanted L.word (lines.map (entry L)) = some ws → (simpleShows L 1 [] lines).2 = none) := by
  have hs := simpleLoop_spec hL lines 1
  obtain ⟨h1, h2⟩ := simpleLoop_shows (L := L) lines [] 1 (by simp)
  refine ⟨fun h => ?_, fun ws h => ?_⟩
  · cases hc : (simpleShows L 1 [] lines).2 with
    | none =>
      obtain ⟨ws, hw⟩ := h2 hc
      rw [hw] at hs
      erw [h] at hs
      cases hs
    | some st =>
      obtain ⟨n, ws⟩ := st
      exact ⟨n, by rw [simpleShows_accepted hL lines 1 n ws hc]⟩
  · cases hc : (simpleShows L 1 [] lines).2 with
    | none => rfl
    | some st =>
      rw [h1 st hc] at hs
      erw [h] at hs
      cases hs

/-- What is on the screen before the simple prompt asks for the next word -/
theorem simple_wait {L : WordList} (hL : L.Lawful) {t0 : Term} (hu : t0.Usable 46) {lines trimmed : List Bytes}
    (hp : ∀ line ∈ lines, ∀ b ∈ line, 0x20 ≤ b ∧ b < 0x7F) (hf : ∀ line ∈ lines, line.length + 11 < t0.width)
    (ht : List.Forall₂ Trimmed lines trimmed) (hw : simpleWanted L.word (trimmed.map L.toLower) = none) :
    ∃ n out, (accepted L.word (trimmed.map L.toLower)).length < n ∧ n ≤ 16 ∧
      simpleShown L lines = (simpleHeader ++ (out ++ simplePrompt (accepted L.word (trimmed.map L.toLower))),
        some (n, accepted L.word (trimmed.map L.toLower))) ∧
      Pre (t0.feed (cooked simpleHeader)) ((t0.feed (cooked simpleHeader)).feed (cooked out)) [] ∧
      (lines ≠ [] → Wait (t0.feed (cooked simpleHeader)) ((t0.feed (cooked simpleHeader)).feed (cooked out)) [] []) ∧
      ∀ line, simpleShown L (lines ++ [line]) =
        (simpleHeader ++ (out ++ (simpleShows L n (accepted L.word (trimmed.map L.toLower)) [line]).1),
          (simpleShows L n (accepted L.word (trimmed.map L.toLower)) [line]).2) := by
  obtain ⟨r, h1, h2, h3⟩ := ready_simple hu
  have hw' := hw
  rw [← entries_eq ht] at hw' ⊢
  obtain ⟨n, hn⟩ := (simpleShows_wanted hL lines).1 hw'
  have w0 : Pre (t0.feed (cooked simpleHeader)) (t0.feed (cooked simpleHeader)) [] :=
    { toBase := ready_base r, col := r.col, line := fun c hc => absurd hc (by simp) }
  obtain ⟨hwait, -⟩ := simple_lines hL r lines _ 1 [] w0 (by simp) (by simp) hp (by rw [h2]; exact hf)
  obtain ⟨out, e1, e2, e3, e4, e6, e5⟩ := hwait n _ hn
  refine ⟨n, out, e2, e3, ?_, e4, e6, fun line => ?_⟩
  · unfold simpleShown
    rcases hc : simpleShows L 1 [] lines with ⟨a, b⟩
    rw [hc] at e1 hn
    simp only at e1 hn
    rw [e1, hn]
  · unfold simpleShown
    rw [e5]

/-- While the simple prompt waits for a line, one row of the terminal shows the number of the next word, and
nothing else once a line was entered: no word entered before is on the screen or in the scrollback. Only that row
and the one below have changed since the header was written, and that one holds nothing but parts of messages. -/
theorem c78_shown {L : WordList} (hL : L.Lawful) {t0 : Term} (hu : t0.Usable 46) {lines trimmed : List Bytes}
    (hp : ∀ line ∈ lines, ∀ b ∈ line, 0x20 ≤ b ∧ b < 0x7F) (hf : ∀ line ∈ lines, line.length + 11 < t0.width)
    (ht : List.Forall₂ Trimmed lines trimmed) (hw : simpleWanted L.word (trimmed.map L.toLower) = none) :
    ∃ row, t0.row ≤ row ∧
      (t0.feed (cooked (simpleShown L lines).1)).row = row ∧
      (t0.feed (cooked (simpleShown L lines).1)).col =
        (promptFor ((accepted L.word (trimmed.map L.toLower)).length + 1)).length ∧
      (t0.feed (cooked (simpleShown L lines).1)).Starts row
        (promptFor ((accepted L.word (trimmed.map L.toLower)).length + 1)) ∧
      (lines ≠ [] → (t0.feed (cooked (simpleShown L lines).1)).Shows row
        (plain (promptFor ((accepted L.word (trimmed.map L.toLower)).length + 1)))) ∧
      (∀ c, (t0.feed (cooked (simpleShown L lines).1)).cell (row + 1) c = (t0.feed (cooked simpleHeader)).cell (row + 1) c ∨
        (t0.feed (cooked (simpleShown L lines).1)).cell (row + 1) c = .blank ∨
        ∃ m, IsMessage m ∧ c < m.length ∧ (t0.feed (cooked (simpleShown L lines).1)).cell (row + 1) c = ⟨m.getD c 0, false⟩) ∧
      (∀ r c, r ≠ row → r ≠ row + 1 →
        (t0.feed (cooked (simpleShown L lines).1)).cell r c = (t0.feed (cooked simpleHeader)).cell r c) ∧
      (∀ r c, r < t0.row → (t0.feed (cooked (simpleShown L lines).1)).cell r c = t0.cell r c) := by
  obtain ⟨r, h1, h2, h3⟩ := ready_simple hu
  obtain ⟨n, out, hlt, h16, e, w, w', -⟩ := simple_wait hL hu hp hf ht hw
  have hl := promptText_length (k := (accepted L.word (trimmed.map L.toLower)).length) (by omega)
  have hwide := r.wide
  rw [e]
  simp only
  rw [cooked_append, cooked_append, feed_append, feed_append, simplePrompt, cooked_boldcyan (printing_promptText _)]
  have p := w.prompted (i := (accepted L.word (trimmed.map L.toLower)).length) (by omega)
  rw [promptText_eq] at p ⊢
  refine ⟨_, h1, p.row, p.col, p.line, ?_, p.msg, p.others, fun r' c hr => ?_⟩
  · intro hne c _
    have q := (w' hne).prompted (i := (accepted L.word (trimmed.map L.toLower)).length) (by omega)
    rw [promptText_eq] at q
    have := q.shown c
    simpa [faintly] using this
  · rw [p.others r' c (by omega) (by omega)]
    exact h3 r' c hr

/-- When the simple prompt returns the words, its row is blank with the cursor at its start, the row below holds
nothing but parts of messages, and everything else is as the header left it. -/
theorem c78_erased {L : WordList} (hL : L.Lawful) {t0 : Term} (hu : t0.Usable 46) {lines trimmed : List Bytes}
    (hp : ∀ line ∈ lines, ∀ b ∈ line, 0x20 ≤ b ∧ b < 0x7F) (hf : ∀ line ∈ lines, line.length + 11 < t0.width)
    (ht : List.Forall₂ Trimmed lines trimmed) {ws : List Bytes}
    (hw : simpleWanted L.word (trimmed.map L.toLower) = some ws) :
    ∃ row, t0.row ≤ row ∧
      (t0.feed (cooked (simpleShown L lines).1)).row = row ∧
      (t0.feed (cooked (simpleShown L lines).1)).col = 0 ∧
      (t0.feed (cooked (simpleShown L lines).1)).Shows row [] ∧
      (∀ c, (t0.feed (cooked (simpleShown L lines).1)).cell (row + 1) c = (t0.feed (cooked simpleHeader)).cell (row + 1) c ∨
        (t0.feed (cooked (simpleShown L lines).1)).cell (row + 1) c = .blank ∨
        ∃ m, IsMessage m ∧ c < m.length ∧ (t0.feed (cooked (simpleShown L lines).1)).cell (row + 1) c = ⟨m.getD c 0, false⟩) ∧
      (∀ r c, r ≠ row → r ≠ row + 1 →
        (t0.feed (cooked (simpleShown L lines).1)).cell r c = (t0.feed (cooked simpleHeader)).cell r c) ∧
      (∀ r c, r < t0.row → (t0.feed (cooked (simpleShown L lines).1)).cell r c = t0.cell r c) := by
  obtain ⟨r, h1, h2, h3⟩ := ready_simple hu
  rw [← entries_eq ht] at hw
  have hn := (simpleShows_wanted hL lines).2 ws hw
  have w0 : Pre (t0.feed (cooked simpleHeader)) (t0.feed (cooked simpleHeader)) [] :=
    { toBase := ready_base r, col := r.col, line := fun c hc => absurd hc (by simp) }
  have w := (simple_lines hL r lines _ 1 [] w0 (by simp) (by simp) hp (by rw [h2]; exact hf)).2 hn
  have e : (simpleShown L lines).1 = simpleHeader ++ (simpleShows L 1 [] lines).1 := by simp [simpleShown]
  rw [e, cooked_append, feed_append]
  refine ⟨_, h1, w.row, w.col, ?_, w.msg, w.others, fun r' c hr => ?_⟩
  · intro c _
    rw [w.shown c]
    simp [plain, faintly]
  · rw [w.others r' c (by omega) (by omega)]
    exact h3 r' c hr

/-- After a line the row below tells why it was refused, and nothing when its word was taken. -/
theorem c78_messages {L : WordList} (hL : L.Lawful) {t0 : Term} (hu : t0.Usable 46) {lines trimmed : List Bytes}
    {line word : Bytes} (hp : ∀ l ∈ lines ++ [line], ∀ b ∈ l, 0x20 ≤ b ∧ b < 0x7F)
    (hf : ∀ l ∈ lines ++ [line], l.length + 11 < t0.width)
    (ht : List.Forall₂ Trimmed lines trimmed) (ht' : Trimmed line word)
    (hw : simpleWanted L.word (trimmed.map L.toLower) = none) :
    (¬ IsWord L.word (L.toLower word) →
      (t0.feed (cooked (simpleShown L (lines ++ [line])).1)).Starts
        ((t0.feed (cooked (simpleShown L (lines ++ [line])).1)).row + 1)
        (str "No matching words found in the wordlist!")) ∧
    (∀ i, i < 4096 → L.toLower word = L.word i → 2 ≤ i / 256 → accepted L.word (trimmed.map L.toLower) = [] →
      (t0.feed (cooked (simpleShown L (lines ++ [line])).1)).Starts
        ((t0.feed (cooked (simpleShown L (lines ++ [line])).1)).row + 1)
        (str ("invalid version number in recovery phrase: " ++ toString (i / 256)))) ∧
    (∀ i, i < 4096 → L.toLower word = L.word i → (accepted L.word (trimmed.map L.toLower) = [] → i / 256 < 2) →
      (t0.feed (cooked (simpleShown L (lines ++ [line])).1)).Shows
        ((t0.feed (cooked (simpleShown L (lines ++ [line])).1)).row + 1) []) := by
  obtain ⟨r, h1, h2, h3⟩ := ready_simple hu
  obtain ⟨n, out, hlt, h16, -, w, -, e⟩ := simple_wait hL hu (fun l hl => hp l (by simp [hl]))
    (fun l hl => hf l (by simp [hl])) ht hw
  have hwide := r.wide
  generalize accepted L.word (trimmed.map L.toLower) = ws at *
  have hl := promptText_length (k := ws.length) (by omega)
  have hfl := hf line (by simp)
  obtain ⟨w2, nt⟩ := simple_round hL r w n ws line (hp line (by simp)) (by rw [List.length_append, h2]; omega)
  have e3 : (t0.feed (cooked (simpleShown L (lines ++ [line])).1)).row = (t0.feed (cooked simpleHeader)).row ∧
      ∀ c, (t0.feed (cooked (simpleShown L (lines ++ [line])).1)).cell ((t0.feed (cooked simpleHeader)).row + 1) c =
        (((t0.feed (cooked simpleHeader)).feed (cooked out)).feed
          (cooked (simplePrompt ws ++ (line ++ str "\n") ++ (simpleRound L n ws line).1))).cell
          ((t0.feed (cooked simpleHeader)).row + 1) c := by
    rw [e, simpleShows.eq_2]
    have h16' := simpleRound_count (L := L) h16 ws line
    rcases hrr : simpleRound L n ws line with ⟨o, n1, ws1⟩
    rw [hrr] at h16' w2
    simp only at h16' w2 ⊢
    generalize hS : simplePrompt ws ++ (line ++ str "\n") ++ o = S at w2 ⊢
    by_cases hc : ws1.length < n1
    · have hl2 := promptText_length (k := ws1.length) (by omega)
      rw [if_pos hc, simpleShows.eq_1]
      simp only
      rw [cooked_append, cooked_append, cooked_append, feed_append, feed_append, feed_append, simplePrompt,
        cooked_boldcyan (printing_promptText _)]
      generalize ((t0.feed (cooked simpleHeader)).feed (cooked out)).feed (cooked S) = u at w2
      exact ⟨(w2.prompted (by omega)).row, w2.pre.prompted_below (by omega)⟩
    · rw [if_neg hc]
      simp only
      rw [cooked_append, cooked_append, feed_append, feed_append]
      generalize ((t0.feed (cooked simpleHeader)).feed (cooked out)).feed (cooked S) = u at w2
      exact ⟨w2.row, fun _ => rfl⟩
  obtain ⟨er, ec⟩ := e3
  rw [er]
  rw [← trimSpace_of ht']
  refine ⟨fun hno c hc => ?_, fun i hi hwi hv ha c hc => ?_, fun i hi hwi hv c _ => ?_⟩
  · rw [ec]
    refine nt.noWord ?_ c hc
    rw [Bool.eq_false_iff]
    exact fun h => hno ((isWord_exact hL _).1 h)
  · rw [ec]
    cases hpv : parseMnemonicVersion L (L.word i) with
    | ok v => exact absurd ((version_of_word hL hi).1 ⟨v, hpv⟩) (by omega)
    | panic p => exact absurd hpv (parse_no_panic _ _)
    | err er =>
      have := nt.version ((isWord_exact hL _).2 ⟨i, hi, hwi.symm⟩) ha er (by rw [hwi]; exact hpv)
      rw [hwi, (version_message hL hi hpv).2] at this
      exact this c hc
  · rw [ec, nt.good ((isWord_exact hL _).2 ⟨i, hi, hwi.symm⟩) (fun h => by
      rw [hwi]; exact (version_of_word hL hi).2 (hv h)) c]
    simp

/-- A word that is taken without a line feed after it, because the input ends there (CTRL+D twice), stays on the
screen: the row above is erased instead. -/
theorem c78_unended_stays {L : WordList} (hL : L.Lawful) {t0 : Term} (hu : t0.Usable 46) {lines trimmed : List Bytes}
    {line word : Bytes} (hp : ∀ l ∈ lines ++ [line], ∀ b ∈ l, 0x20 ≤ b ∧ b < 0x7F)
    (hf : ∀ l ∈ lines ++ [line], l.length + 11 < t0.width)
    (ht : List.Forall₂ Trimmed lines trimmed) (ht' : Trimmed line word)
    (hw : simpleWanted L.word (trimmed.map L.toLower) = none)
    {i : Nat} (hi : i < 4096) (hwi : L.toLower word = L.word i)
    (hv : accepted L.word (trimmed.map L.toLower) = [] → i / 256 < 2)
    (htop : (t0.feed (cooked (simpleShown L lines).1)).top < (t0.feed (cooked (simpleShown L lines).1)).row)
    {n : Nat} {ws : List Bytes} (hs : (simpleShown L lines).2 = some (n, ws)) :
    (t0.feed (cooked ((simpleShown L lines).1 ++ line ++ (simpleRound L n ws line).1))).Starts
      (t0.feed (cooked (simpleShown L lines).1)).row
      (promptFor ((accepted L.word (trimmed.map L.toLower)).length + 1) ++ line) ∧
    (t0.feed (cooked ((simpleShown L lines).1 ++ line ++ (simpleRound L n ws line).1))).Shows
      ((t0.feed (cooked (simpleShown L lines).1)).row - 1) [] := by
  obtain ⟨r, h1, h2, h3⟩ := ready_simple hu
  obtain ⟨n', out, hlt, h16, e, w, -, -⟩ := simple_wait hL hu (fun l hl => hp l (by simp [hl]))
    (fun l hl => hf l (by simp [hl])) ht hw
  rw [e] at hs
  cases hs
  have hwide := r.wide
  generalize accepted L.word (trimmed.map L.toLower) = ws at *
  have hl := promptText_length (k := ws.length) (by omega)
  have hfl := hf line (by simp)
  have hm : L.exactMatch (L.toLower (trimSpace line)) = true := by
    rw [trimSpace_of ht', isWord_exact hL]
    exact ⟨i, hi, hwi.symm⟩
  have hround : (simpleRound L n ws line).1 = eraseLineForward ++ (previousLine ++ eraseLineForward) := by
    by_cases h0 : ws = []
    · obtain ⟨v, hpv⟩ := (version_of_word hL hi).2 (hv h0)
      rw [← hwi, ← trimSpace_of ht'] at hpv
      simp [simpleRound, hm, h0, hpv]
    · simp [simpleRound, hm, h0]
  have hp1 := w.prompted (i := ws.length) (by omega)
  have hp2 := hp1.text (hp line (by simp)) (by rw [List.length_append, h2]; omega)
  have eT : t0.feed (cooked (simpleShown L lines).1) =
      ((t0.feed (cooked simpleHeader)).feed (cooked out)).feed (bold (cyan (promptText ws.length))) := by
    rw [e]
    simp only
    rw [cooked_append, cooked_append, feed_append, feed_append, simplePrompt, cooked_boldcyan (printing_promptText _)]
  rw [cooked_append, cooked_append, feed_append, feed_append, hround, cooked_append, cooked_erase, cooked_up, feed_append,
    cooked_id (printing_not_lf (hp line (by simp))), eT]
  rw [eT] at htop
  generalize ((t0.feed (cooked simpleHeader)).feed (cooked out)).feed (bold (cyan (promptText ws.length))) = u at *
  obtain ⟨w3, -⟩ := hp2.erase
  generalize (u.feed line).feed eraseLineForward = v at w3
  rw [hp1.top, hp1.row] at htop
  rw [hp1.row, feed_append, feed_previous w3.esc, w3.top, w3.row,
    show max (t0.feed (cooked simpleHeader)).top ((t0.feed (cooked simpleHeader)).row - 1) =
      (t0.feed (cooked simpleHeader)).row - 1 by omega, feed_erase (by exact w3.esc)]
  refine ⟨fun c hc => ?_, fun c _ => ?_⟩
  · simp only [Term.clear]
    rw [if_neg (fun x => by omega)]
    rw [← promptText_eq] at hc ⊢
    exact w3.pre.line c hc
  · simp [Term.clear]

/-- When the input ends while the simple prompt waits (CTRL+D), nothing that was on the screen changes, and the cursor goes
to the start of the row after the next: what is said then stands apart from the prompt and from the message below it. -/
theorem c78_ended {L : WordList} (hL : L.Lawful) {t0 : Term} (hu : t0.Usable 46) {lines trimmed : List Bytes}
    (hp : ∀ line ∈ lines, ∀ b ∈ line, 0x20 ≤ b ∧ b < 0x7F) (hf : ∀ line ∈ lines, line.length + 11 < t0.width)
    (ht : List.Forall₂ Trimmed lines trimmed) (hw : simpleWanted L.word (trimmed.map L.toLower) = none) :
    (t0.feed (cooked ((simpleShown L lines).1 ++ simpleEnd))).row = (t0.feed (cooked (simpleShown L lines).1)).row + 2 ∧
    (t0.feed (cooked ((simpleShown L lines).1 ++ simpleEnd))).col = 0 ∧
    (∀ r c, r ≤ (t0.feed (cooked (simpleShown L lines).1)).row + 1 →
      (t0.feed (cooked ((simpleShown L lines).1 ++ simpleEnd))).cell r c =
        (t0.feed (cooked (simpleShown L lines).1)).cell r c) := by
  obtain ⟨r, h1, h2, h3⟩ := ready_simple hu
  obtain ⟨n, out, hlt, h16, e, w, w', -⟩ := simple_wait hL hu hp hf ht hw
  have hl := promptText_length (k := (accepted L.word (trimmed.map L.toLower)).length) (by omega)
  have hwide := r.wide
  have p := w.prompted (i := (accepted L.word (trimmed.map L.toLower)).length) (by omega)
  have eT : t0.feed (cooked (simpleShown L lines).1) = ((t0.feed (cooked simpleHeader)).feed (cooked out)).feed
      (bold (cyan (promptText (accepted L.word (trimmed.map L.toLower)).length))) := by
    rw [e]
    simp only
    rw [cooked_append, cooked_append, feed_append, feed_append, simplePrompt, cooked_boldcyan (printing_promptText _)]
  rw [cooked_append, feed_append, eT]
  generalize ((t0.feed (cooked simpleHeader)).feed (cooked out)).feed
      (bold (cyan (promptText (accepted L.word (trimmed.map L.toLower)).length))) = u at p ⊢
  have hb : u.row + 1 < u.top + u.height := by
    rw [p.row, p.top, p.height]
    exact r.bottom
  rw [show cooked simpleEnd = str "\r\n" ++ ([0x0D] ++ [0x0A]) by decide, feed_append, feed_crlf p.esc hb, feed_append,
    feed_cr (by exact p.esc), feed_lf (by exact p.esc)]
  unfold Term.lineFeed
  split
  · exact ⟨rfl, rfl, fun _ _ _ => rfl⟩
  · refine ⟨rfl, rfl, fun r' c hr => ?_⟩
    simp only [Term.clear]
    rw [if_neg (by omega)]

theorem trimmed_map : ∀ lines : List Bytes, List.Forall₂ Trimmed lines (lines.map trimSpace)
  | [] => .nil
  | l :: lines => .cons (trimSpace_trimmed l) (trimmed_map lines)

theorem wanted_none {L : WordList} (hL : L.Lawful) {lines : List Bytes} (h : simpleLoop L 1 [] lines = .err .stdinRead) :
    simpleWanted L.word ((lines.map trimSpace).map L.toLower) = none := by
  have hs := simpleLoop_spec hL lines 1
  rw [entries_eq (trimmed_map lines), h] at hs
  cases hw : simpleWanted L.word ((lines.map trimSpace).map L.toLower) with
  | none => rfl
  | some ws => rw [hw] at hs; cases hs

/-- Not a word, a word of unknown version, and the first word with blanks around it -/
def typedLines : List Bytes := [str "zzz", toyWord 600, 0x20 :: toyWord 5 ++ [0x20]]

/-- `c78_shown`, `c78_messages` and `c78_unended_stays` apply to some lines. -/
example : (emptyTerm 80 24).Usable 46 ∧ (∀ l ∈ typedLines ++ [toyWord 900], ∀ b ∈ l, 0x20 ≤ b ∧ b < 0x7F) ∧
    (∀ l ∈ typedLines ++ [toyWord 900], l.length + 11 < (emptyTerm 80 24).width) ∧
    List.Forall₂ Trimmed typedLines (typedLines.map trimSpace) ∧ Trimmed (toyWord 900) (toyWord 900) ∧
    simpleWanted toyWordList.word ((typedLines.map trimSpace).map toyWordList.toLower) = none ∧
    toyWordList.toLower (toyWord 900) = toyWordList.word 900 ∧
    ((emptyTerm 80 24).feed (cooked (simpleShown toyWordList typedLines).1)).top <
      ((emptyTerm 80 24).feed (cooked (simpleShown toyWordList typedLines).1)).row ∧
    accepted toyWordList.word ((typedLines.map trimSpace).map toyWordList.toLower) = [toyWord 5] ∧
    (simpleShown toyWordList typedLines).2 = some (14, [toyWord 5]) := by
  have hs : (simpleShows toyWordList 1 [] typedLines).2 = some (14, [toyWord 5]) := by decide +kernel
  refine ⟨⟨rfl, by decide, by decide, by decide, by decide⟩, by decide +kernel, by decide +kernel, trimmed_map _, ?_,
    wanted_none toyWordList_lawful (by decide +kernel), by decide +kernel, ?_, ?_, hs⟩
  · have := trimSpace_trimmed (toyWord 900)
    rwa [show trimSpace (toyWord 900) = toyWord 900 by decide +kernel] at this
  · set_option maxRecDepth 100000 in decide +kernel
  · rw [← entries_eq (trimmed_map typedLines)]
    exact (simpleShows_accepted toyWordList_lawful typedLines 1 14 _ hs).symm

/-- `c78_erased` applies to the lines of a complete phrase. -/
example : ∃ ws, simpleWanted toyWordList.word
    ((((List.range 14).map toyWord).map trimSpace).map toyWordList.toLower) = some ws := by
  have hs := simpleLoop_spec toyWordList_lawful ((List.range 14).map toyWord) 1
  rw [entries_eq (trimmed_map _), show simpleLoop toyWordList 1 [] ((List.range 14).map toyWord) =
    .ok ((List.range 14).map toyWord) by decide +kernel] at hs
  cases hw : simpleWanted toyWordList.word ((((List.range 14).map toyWord).map trimSpace).map toyWordList.toLower) with
  | none => rw [hw] at hs; cases hs
  | some ws => exact ⟨ws, rfl⟩

end Verif.Props
