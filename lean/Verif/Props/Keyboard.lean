import Verif.Props.SimpleScreen
import Verif.Props.Password
import Verif.Proofs.Keyboard

/-! # C105 Corrections while a line is typed -/

namespace Verif.Props

open Verif.Model Verif.Model.Cli Verif.Proofs Verif.Spec Verif.Instances

/-- Whenever the simple prompt waits for a line, and when it returns, the terminal is as it would be if every line had
been typed without corrections: no cell shows what was taken back, and the prompt accepts the lines as corrected. -/
theorem c105_screen {L : WordList} (hL : L.Lawful) {t0 : Term} (hu : t0.Usable 46) {typed : List (List Stroke)}
    (ha : ∀ keys ∈ typed, Ascii keys) (hf : ∀ keys ∈ typed, ∃ n, Within n keys ∧ n + 11 < t0.width) :
    t0.feed (cooked (typedShown L typed).1) = t0.feed (cooked (simpleShown L (typed.map edited)).1) ∧
      (typedShown L typed).2 = (simpleShown L (typed.map edited)).2 := by
  obtain ⟨r, h1, h2, h3⟩ := ready_simple hu
  have w0 : Pre (t0.feed (cooked simpleHeader)) (t0.feed (cooked simpleHeader)) [] :=
    { toBase := ready_base r, col := r.col, line := fun c hc => absurd hc (by simp) }
  obtain ⟨e1, e2⟩ := typed_lines hL r typed _ 1 [] w0 (by simp) (by simp) ha (by rw [h2]; exact hf)
  unfold typedShown simpleShown
  simp only [cooked_append, feed_append]
  exact ⟨e1, e2⟩

theorem edited_printing {keys : List Stroke} (ha : Ascii keys) : ∀ b ∈ edited keys, 0x20 ≤ b ∧ b < 0x7F :=
  edited_sub (P := fun b => 0x20 ≤ b ∧ b < 0x7F) keys [] (by simp) ha

theorem within_edited {n : Nat} {keys : List Stroke} (h : Within n keys) : (edited keys).length ≤ n :=
  h keys (List.prefix_refl _)

/-- While a line is typed, the row shows the number of the word and the line as corrected so far, with the cursor
behind it and nothing of what was taken back; the other rows are as they were when the line was begun. -/
theorem c105_typing {L : WordList} (hL : L.Lawful) {t0 : Term} (hu : t0.Usable 46) {typed : List (List Stroke)}
    {trimmed : List Bytes} {keys : List Stroke}
    (ha : ∀ ks ∈ keys :: typed, Ascii ks) (hf : ∀ ks ∈ keys :: typed, ∃ n, Within n ks ∧ n + 11 < t0.width)
    (ht : List.Forall₂ Trimmed (typed.map edited) trimmed) (hw : simpleWanted L.word (trimmed.map L.toLower) = none) :
    ∃ row, t0.row ≤ row ∧
      (t0.feed (cooked ((typedShown L typed).1 ++ echoed keys))).row = row ∧
      (t0.feed (cooked ((typedShown L typed).1 ++ echoed keys))).col =
        (promptFor ((accepted L.word (trimmed.map L.toLower)).length + 1) ++ edited keys).length ∧
      (t0.feed (cooked ((typedShown L typed).1 ++ echoed keys))).Starts row
        (promptFor ((accepted L.word (trimmed.map L.toLower)).length + 1) ++ edited keys) ∧
      (∀ c, (promptFor ((accepted L.word (trimmed.map L.toLower)).length + 1) ++ edited keys).length ≤ c →
        (t0.feed (cooked ((typedShown L typed).1 ++ echoed keys))).cell row c = .blank ∨
        typed = [] ∧ (t0.feed (cooked ((typedShown L typed).1 ++ echoed keys))).cell row c =
          (t0.feed (cooked simpleHeader)).cell row c) ∧
      (∀ r c, r ≠ row → (t0.feed (cooked ((typedShown L typed).1 ++ echoed keys))).cell r c =
        (t0.feed (cooked (typedShown L typed).1)).cell r c) := by
  obtain ⟨r, h1, h2, h3⟩ := ready_simple hu
  have hf' : ∀ l ∈ typed.map edited, l.length + 11 < t0.width := by
    intro l hl
    obtain ⟨ks, hks, rfl⟩ := List.mem_map.1 hl
    obtain ⟨n, hn, hlt⟩ := hf ks (by simp [hks])
    have := within_edited hn
    omega
  have hp' : ∀ l ∈ typed.map edited, ∀ b ∈ l, 0x20 ≤ b ∧ b < 0x7F := by
    intro l hl
    obtain ⟨ks, hks, rfl⟩ := List.mem_map.1 hl
    exact edited_printing (ha ks (by simp [hks]))
  obtain ⟨n, out, hlt, h16, e, w, w', -⟩ := simple_wait hL hu hp' hf' ht hw
  obtain ⟨eT, -⟩ := c105_screen hL hu (typed := typed) (fun ks hks => ha ks (by simp [hks]))
    (fun ks hks => hf ks (by simp [hks]))
  have hl := promptText_length (k := (accepted L.word (trimmed.map L.toLower)).length) (by omega)
  have hak := ha keys (by simp)
  obtain ⟨m, hin, hm⟩ := hf keys (by simp)
  have hlen := within_edited hin
  rw [cooked_append, feed_append, eT, e, cooked_id (bs := echoed keys) (echoed_not_lf keys [] hak)]
  simp only
  rw [cooked_append, cooked_append, feed_append, feed_append, simplePrompt, cooked_boldcyan (printing_promptText _)]
  have hout : typed = [] → out = [] := by
    rintro rfl
    have e' := congrArg (fun x => x.1.length) e
    simp only [List.map_nil, simpleShown, simpleShows, List.length_append] at e'
    cases ht
    have ha0 : accepted L.word (([] : List Bytes).map L.toLower) = [] := by simp [accepted]
    rw [ha0] at e'
    exact List.length_eq_zero_iff.1 (by omega)
  clear e eT h3
  generalize t0.feed (cooked simpleHeader) = h0 at r h1 h2 w w' ⊢
  have p := w.prompted (i := (accepted L.word (trimmed.map L.toLower)).length) (by omega)
  have hblank : typed ≠ [] → ∀ c, (promptText (accepted L.word (trimmed.map L.toLower)).length).length ≤ c →
      ((h0.feed (cooked out)).feed
        (bold (cyan (promptText (accepted L.word (trimmed.map L.toLower)).length)))).cell
        h0.row c = .blank := by
    intro hne c hc
    have q := (w' (by simpa using hne)).prompted (i := (accepted L.word (trimmed.map L.toLower)).length) (by omega)
    have := q.shown c
    rw [this]
    simp [faintly, plain, List.getD_eq_getElem?_getD, hc]
  have hfirst : typed = [] → ∀ c, (promptText (accepted L.word (trimmed.map L.toLower)).length).length ≤ c →
      ((h0.feed (cooked out)).feed
        (bold (cyan (promptText (accepted L.word (trimmed.map L.toLower)).length)))).cell
        h0.row c = h0.cell h0.row c := by
    rintro rfl c hc
    have hout := hout rfl
    subst hout
    rw [show cooked [] = [] from rfl, show h0.feed [] = h0 from rfl] at w ⊢
    rw [feed_boldcyan w.esc w.faint w.wrap (printing_promptText _) (by
      rw [r.col, h2]; omega)]
    simp only
    rw [r.col, written_after hc]
  generalize (h0.feed (cooked out)).feed
    (bold (cyan (promptText (accepted L.word (trimmed.map L.toLower)).length))) = u at p hblank hfirst ⊢
  have hcol := p.col
  have hwid := p.width
  obtain ⟨off, hpr, hcells⟩ := keys_off p.esc p.wrap p.faint hak hin (by rw [hcol, hwid, h2]; omega)
  have ps := p.text hpr (by rw [List.length_append, h2]; omega)
  have hafter : ∀ c, (promptText (accepted L.word (trimmed.map L.toLower)).length).length + (edited keys).length ≤ c →
      (u.feed (edited keys)).cell h0.row c = u.cell h0.row c := by
    intro c hc
    rw [feed_text _ u p.esc p.wrap hpr (by rw [hcol, hwid, h2]; omega)]
    simp only
    rw [written, if_neg (by rw [hcol]; omega)]
  have hrow := p.row
  rw [promptText_eq] at *
  refine ⟨_, h1, ?_, ?_, fun c hc => ?_, fun c hc => ?_, fun r' c hr => ?_⟩
  · rw [off.1]
    exact ps.row
  · rw [off.1]
    exact ps.col
  · rw [off.2 _ c fun hh => ?_]
    · exact ps.line c hc
    · rw [List.length_append] at hc
      rw [hcol] at hh
      omega
  · rw [List.length_append] at hc
    rcases hcells h0.row c with h | ⟨-, -, h⟩
    · rw [h, hafter c hc]
      by_cases hne : typed = []
      · exact .inr ⟨hne, hfirst hne c (by omega)⟩
      · exact .inl (hblank hne c (by omega))
    · exact .inl h
  · rw [off.2 _ c fun hh => hr (by rw [hh.1, hrow])]
    rw [feed_text _ u p.esc p.wrap hpr (by rw [hcol, hwid, h2]; omega)]
    simp only
    rw [written_out (by rw [hrow]; exact hr)]

theorem deliver_entering : ∀ (typed : List (List Stroke)) (rest : List Pressed),
    deliver (entering typed ++ rest) = ((typed.map edited).flatMap (· ++ [0x0A])).map some ++ deliver rest
  | [], _ => rfl
  | keys :: typed, rest => by
    have ih := deliver_entering typed rest
    unfold deliver at ih ⊢
    have e : entering (keys :: typed) ++ rest = keys.map .key ++ (.enter :: (entering typed ++ rest)) := by
      simp [entering]
    rw [e, deliver_line, deliverFrom, ih]
    simp [edited]

theorem untilEnd_some (l : Bytes) (rest : List (Option Byte)) : untilEnd (l.map some ++ rest) = l ++ untilEnd rest := by
  induction l with
  | nil => rfl
  | cons b l ih =>
    simp only [untilEnd, List.map_cons, List.cons_append, List.takeWhile_cons, Option.isSome_some, if_true,
      List.filterMap_cons, id] at ih ⊢
    rw [ih]

theorem lines_ended : ∀ ls : List Bytes, (∀ l ∈ ls, 0x0A ∉ l) → Lines (ls.flatMap (· ++ [0x0A])) ls
  | [], _ => .nil
  | l :: ls, h => by
    have := Lines.cons (h l (by simp)) (lines_ended ls fun l' hl => h l' (by simp [hl]))
    simpa using this

theorem takeWhile_all {p : Bytes → Bool} : ∀ ls : List Bytes, (∀ l ∈ ls, p l = true) → ls.takeWhile p = ls
  | [], _ => rfl
  | l :: ls, h => by
    rw [List.takeWhile_cons, if_pos (h l (by simp)), takeWhile_all ls fun l' hl => h l' (by simp [hl])]

/-- The simple prompt takes the words of the lines as corrected. -/
theorem c105_words {L : WordList} (hL : L.Lawful) {typed : List (List Stroke)} {trimmed : List Bytes}
    (hn : ∀ keys ∈ typed, ∀ k ∈ keys, ∀ b, k = .char b → b ≠ 0x0A)
    (hs : ∀ keys ∈ typed, (edited keys).length < 65536)
    (ht : List.Forall₂ Trimmed (typed.map edited) trimmed) :
    userInputMnemonicSimple L (untilEnd (deliver (entering typed ++ [.eof]))) =
      match simpleWanted L.word (trimmed.map L.toLower) with
      | none => .err .stdinRead
      | some ws => .ok ws := by
  have hno : ∀ l ∈ typed.map edited, 0x0A ∉ l := by
    intro l hl hm
    obtain ⟨ks, hks, rfl⟩ := List.mem_map.1 hl
    exact edited_sub (P := fun b => b ≠ 0x0A) ks [] (by simp) (hn ks hks) _ hm rfl
  rw [deliver_entering, untilEnd_some]
  have e : untilEnd (deliver [.eof]) = [] := rfl
  rw [e, List.append_nil]
  refine c50_lines hL _ (typed.map edited) trimmed (lines_ended _ hno) ?_
  rwa [takeWhile_all]
  intro l hl
  obtain ⟨ks, hks, rfl⟩ := List.mem_map.1 hl
  exact decide_eq_true (hs ks hks)

/-- Whoever enters a complete phrase, a word on each line, with corrections, gets it back, whatever follows. -/
theorem c105_entered {L : WordList} (hL : L.Lawful) {ws : List Bytes} (hc : Complete L.word ws)
    {typed : List (List Stroke)} {ls : List TypedLine} (h : List.Forall₂ TypedLine.Enters ls ws)
    (he : typed.map edited = ls.map TypedLine.text) (rest : List Pressed) :
    userInputMnemonicSimple L (untilEnd (deliver (entering typed ++ rest))) = .ok ws := by
  have hr := c50_by_hand hL ws hc ls h (0x0A :: untilEnd (deliver rest)) (.inr ⟨_, rfl⟩)
  rw [deliver_entering, untilEnd_some, he]
  have hne : ls.map TypedLine.text ≠ [] := by
    obtain ⟨-, w, r, rfl, -⟩ := hc
    cases h
    simp
  have e : ∀ (xs : List Bytes) (tail : Bytes), xs ≠ [] →
      xs.flatMap (· ++ [0x0A]) ++ tail = (xs.intersperse [0x0A]).flatten ++ 0x0A :: tail := by
    intro xs
    induction xs with
    | nil => intro _ h; exact absurd rfl h
    | cons x xs ih =>
      intro tail _
      cases xs with
      | nil => simp
      | cons y xs =>
        have := ih tail (by simp)
        rw [List.flatMap_cons, List.append_assoc, this]
        simp
  rw [e _ _ hne]
  exact hr

/-- Every password is read as corrected, whatever its characters are, and nothing of what follows. -/
theorem c105_password (typed : List (List Stroke)) (rest : List Pressed)
    (h : ∀ keys ∈ typed, ∀ k ∈ keys, ∀ b, k = .char b → 0x20 ≤ b) :
    PasswordsRead (deliver (entering typed ++ rest)) (typed.map edited) (deliver rest) := by
  induction typed with
  | nil => exact .nil
  | cons keys typed ih =>
    refine .cons ?_ (ih fun ks hks => h ks (by simp [hks]))
    have e : deliver (entering (keys :: typed) ++ rest) =
        (edited keys).map some ++ some 0x0A :: deliver (entering typed ++ rest) := by
      have e : entering (keys :: typed) ++ rest = keys.map .key ++ (.enter :: (entering typed ++ rest)) := by
        simp [entering]
      unfold deliver
      rw [e, deliver_line, deliverFrom]
      rfl
    rw [e, read_line (edited keys) _ _ (edited_sub (P := fun b => 0x20 ≤ b) keys [] (by simp) (h keys (by simp)))]
    simp [readPasswordLine]

/-- So the prompt for a password returns the one that was meant, when the lines as corrected are acceptable. -/
theorem c105_prompt (confirm : Bool) (typed : List (List Stroke)) (rest : List Pressed) (q : Bytes)
    (h : ∀ keys ∈ typed, ∀ k ∈ keys, ∀ b, k = .char b → 0x20 ≤ b) (hq : Accepted confirm (typed.map edited) q) :
    ∃ ls s p, PasswordsRead (deliver (entering typed ++ rest)) ls (deliver rest) ∧
      Sys.start.run (.begin confirm :: types ls ++ [.at 0 .receive]) = some s ∧
      s.prompts = [p] ∧ p.returned = some (.ok q) := by
  obtain ⟨s, p, h1, h2, h3, -, -⟩ := c53_typed confirm _ q hq
  exact ⟨_, s, p, c105_password typed rest h, h1, h2, h3⟩

/-- CTRL+D in a line of a password does not end it: what was typed before stays and cannot be taken back any more.
At the start of a line it does nothing, and so does a second one. -/
theorem c105_eof (keys more : List Stroke) (rest : List Pressed)
    (h : ∀ k ∈ keys ++ more, ∀ b, k = .char b → 0x20 ≤ b) (hne : edited keys ≠ []) :
    readPasswordLine [] (deliver (keys.map .key ++ .eof :: (more.map .key ++ .enter :: rest))) =
      .password (edited keys ++ edited more) (deliver rest) ∧
    readPasswordLine [] (deliver (keys.map .key ++ .eof :: .eof :: (more.map .key ++ .enter :: rest))) =
      .password (edited keys ++ edited more) (deliver rest) ∧
    readPasswordLine [] (deliver (.eof :: rest)) = readPasswordLine [] (deliver rest) := by
  have hk := edited_sub (P := fun b => 0x20 ≤ b) keys [] (by simp) fun k hk => h k (by simp [hk])
  have hm := edited_sub (P := fun b => 0x20 ≤ b) more [] (by simp) fun k hk => h k (by simp [hk])
  have hne' : keys.foldl press [] ≠ [] := hne
  refine ⟨?_, ?_, ?_⟩
  · unfold deliver
    rw [deliver_line, deliverFrom, deliver_line, deliverFrom, if_neg hne', read_line _ _ _ hk, read_line _ _ _ hm]
    simp [readPasswordLine, edited]
  · unfold deliver
    rw [deliver_line, deliverFrom, deliverFrom, if_neg hne', if_pos rfl, deliver_line, deliverFrom, read_line _ _ _ hk]
    rw [List.cons_append, readPasswordLine]
    simp only [List.nil_append]
    rw [read_line _ _ _ hm]
    simp [readPasswordLine, edited]
  · simp [deliver, deliverFrom, readPasswordLine]

/-- Nothing but return makes a password prompt go on: whatever else is typed, CTRL+D as often as one likes, it waits. -/
theorem c105_no_way_out (pressed : List Pressed) (hr : .enter ∉ pressed)
    (h : ∀ k b, .key k ∈ pressed → k = .char b → b ≠ 0x0A) : readPasswordLine [] (deliver pressed) = .waits := by
  have wait : ∀ (bs : List (Option Byte)) (ret : Bytes), some 0x0A ∉ bs → readPasswordLine ret bs = .waits := by
    intro bs
    induction bs with
    | nil => intro ret _; rfl
    | cons b bs ih =>
      intro ret hb
      have hb' : some 0x0A ∉ bs := fun hm => hb (List.mem_cons_of_mem _ hm)
      match b with
      | none => exact ih ret hb'
      | some b =>
        rw [readPasswordLine]
        by_cases h1 : b = 0x08
        · rw [if_pos h1]; exact ih _ hb'
        · rw [if_neg h1, if_neg (fun h2 => hb (by simp [h2]))]
          by_cases h3 : b = 0x0D
          · rw [if_pos h3]; exact ih _ hb'
          · rw [if_neg h3]; exact ih _ hb'
  refine wait _ [] ?_
  have del : ∀ (ps : List Pressed) (line : Bytes), .enter ∉ ps → (∀ k b, .key k ∈ ps → k = .char b → b ≠ 0x0A) →
      0x0A ∉ line → some 0x0A ∉ deliverFrom line ps := by
    intro ps
    induction ps with
    | nil => intro line _ _ _; simp [deliverFrom]
    | cons p ps ih =>
      intro line h1 h2 h3
      have h1' : .enter ∉ ps := fun hm => h1 (List.mem_cons_of_mem _ hm)
      have h2' : ∀ k b, .key k ∈ ps → k = .char b → b ≠ 0x0A := fun k b hm => h2 k b (List.mem_cons_of_mem _ hm)
      match p with
      | .key k =>
        refine ih _ h1' h2' fun hm => ?_
        match k with
        | .char b =>
          simp only [press, List.mem_append, List.mem_singleton] at hm
          rcases hm with hm | hm
          · exact h3 hm
          · exact h2 _ b List.mem_cons_self rfl hm.symm
        | .erase => exact h3 (withoutLast_sub line _ hm)
        | .kill => simp [press] at hm
      | .enter => exact absurd List.mem_cons_self h1
      | .eof =>
        rw [deliverFrom, List.mem_append]
        rintro (hm | hm)
        · split at hm
          · simp at hm
          · exact h3 (by simpa using hm)
        · exact ih [] h1' h2' (by simp) hm
  exact del pressed [] hr h (by simp)

/-- Text, control-D, an attempt to take it back, and control-D again and again -/
example : readPasswordLine [] (deliver [.key (.char 0x61), .eof, .key .erase, .eof, .eof, .eof]) = .waits :=
  c105_no_way_out _ (by decide) (by rintro k b hm rfl; simp at hm; rw [hm]; decide)

/-- The keys of a text -/
def strokes (text : Bytes) : List Stroke := text.map .char

/-- A word begun wrongly, a line killed, a word corrected at its end -/
def correctedLines : List (List Stroke) :=
  [strokes (str "zz") ++ [.erase, .erase, .erase] ++ strokes (toyWord 5),
   strokes (str "nonsense") ++ [.kill] ++ strokes (toyWord 900) ++ strokes (str "s") ++ [.erase]]

/-- They are the lines of two words. -/
example : correctedLines.map edited = [toyWord 5, toyWord 900] := by decide +kernel

/-- Not longer than all the keys -/
theorem within_all (keys : List Stroke) : ∀ line, ∀ ks, ks <+: keys → (ks.foldl press line).length ≤ line.length + keys.length := by
  have step : ∀ line k, (press line k).length ≤ line.length + 1 := by
    intro line k
    cases k with
    | char b => simp [press]
    | erase =>
      have : (withoutLast line).length ≤ line.length := by
        unfold withoutLast
        split
        · exact Nat.le_refl _
        · rename_i x rest he
          have h1 := (List.dropWhile_suffix (l := line.reverse) continues).length_le
          rw [he] at h1
          simp only [List.length_cons, List.length_reverse] at h1 ⊢
          omega
      simp only [press]
      omega
    | kill => simp [press]
  have all : ∀ (ks : List Stroke) line, (ks.foldl press line).length ≤ line.length + ks.length := by
    intro ks
    induction ks with
    | nil => intro line; simp
    | cons k ks ih =>
      intro line
      have h1 := ih (press line k)
      have h2 := step line k
      simp only [List.foldl_cons, List.length_cons]
      omega
  intro line ks hks
  have h1 := all ks line
  have h2 := hks.length_le
  omega

/-- `c105_screen` and `c105_typing` apply to them, with a third line begun. -/
example : (emptyTerm 80 24).Usable 46 ∧
    (∀ ks ∈ (strokes (str "ab") ++ [.erase]) :: correctedLines, Ascii ks) ∧
    (∀ ks ∈ (strokes (str "ab") ++ [.erase]) :: correctedLines, ∃ n, Within n ks ∧ n + 11 < (emptyTerm 80 24).width) ∧
    List.Forall₂ Trimmed (correctedLines.map edited) ((correctedLines.map edited).map trimSpace) ∧
    simpleWanted toyWordList.word (((correctedLines.map edited).map trimSpace).map toyWordList.toLower) = none := by
  have hlen : ∀ ks ∈ (strokes (str "ab") ++ [.erase]) :: correctedLines, ks.length + 11 < (emptyTerm 80 24).width := by
    decide +kernel
  have hasc : ∀ ks ∈ (strokes (str "ab") ++ [.erase]) :: correctedLines, ∀ k ∈ ks,
      (match k with | .char b => decide (0x20 ≤ b ∧ b < 0x7F) | _ => true) = true := by
    decide +kernel
  refine ⟨⟨rfl, by decide, by decide, by decide, by decide⟩, fun ks hks k hk b hb => ?_, fun ks hks => ?_, trimmed_map _,
    wanted_none toyWordList_lawful (by decide +kernel)⟩
  · have := hasc ks hks k hk
    subst hb
    simpa using this
  · refine ⟨ks.length, fun ks' h => ?_, hlen ks hks⟩
    have := within_all ks [] ks' h
    simpa [edited] using this

/-- What the screen shows while the third word is typed, and corrected -/
example : (List.range 12).map (fun c => (((emptyTerm 80 24).feed
      (cooked ((typedShown toyWordList correctedLines).1 ++ echoed (strokes (str "ab") ++ [.erase])))).cell
        ((emptyTerm 80 24).feed (cooked (typedShown toyWordList correctedLines).1)).row c).char) =
    str "Word 3 >> a " := by
  set_option maxRecDepth 100000 in decide +kernel

/-- `c105_entered` applies: every word of a phrase with a letter taken back -/
example : (List.replicate 14 (strokes (toyWord 5 ++ [0x78]) ++ [.erase])).map edited =
    (List.replicate 14 (⟨[], toyWord 5, []⟩ : TypedLine)).map TypedLine.text := by
  decide +kernel

/-- `c105_prompt` applies: a password of characters of several bytes, typed twice with different corrections -/
example : Accepted true ([strokes (str "pä") ++ [.erase] ++ strokes (str "ö"), strokes (str "pö")].map edited) (str "pö") :=
  ⟨by decide, [], .nil, by decide +kernel⟩

/-- The key of the terminal for erasing may be CTRL+H while the driver expects DEL: then a byte 8 is read, and
`ReadPassword` removes one byte, which can be half of a character. -/
example : readPasswordLine [] ((str "pä" ++ [0x08] ++ str "o\n").map some) = .password ([0x70, 0xC3] ++ str "o") [] ∧
    edited (strokes (str "pä") ++ [.erase] ++ strokes (str "o")) = str "po" := by
  decide +kernel

end Verif.Props
