import Verif.Proofs.Screen

/-! # The screen of the simple prompt -/

namespace Verif.Proofs

open Verif.Model Verif.Model.Cli Verif.Spec
open Verif.Spec.Term (Starts)

theorem cooked_append (a b : Bytes) : cooked (a ++ b) = cooked a ++ cooked b := by simp [cooked]

theorem cooked_id : ∀ {bs : Bytes}, (∀ b ∈ bs, b ≠ 0x0A) → cooked bs = bs
  | [], _ => rfl
  | b :: bs, h => by
    have e := cooked_id (bs := bs) (fun x hx => h x (by simp [hx]))
    have hb : b ≠ 0x0A := h b (by simp)
    have : cooked (b :: bs) = [b] ++ cooked bs := by simp [cooked, hb]
    rw [this, e]
    rfl

theorem printing_not_lf {bs : Bytes} (h : ∀ b ∈ bs, Printing b) : ∀ b ∈ bs, b ≠ 0x0A := by
  rintro b hb rfl
  exact absurd (h _ hb).1 (by decide)

theorem cooked_red {m : Bytes} (h : ∀ b ∈ m, Printing b) : cooked (red m) = red m := by
  unfold red
  rw [cooked_append, cooked_append, cooked_append, cooked_id (printing_not_lf h)]
  rfl

theorem cooked_boldcyan {m : Bytes} (h : ∀ b ∈ m, Printing b) : cooked (bold (cyan m)) = bold (cyan m) := by
  unfold bold cyan
  simp only [cooked_append]
  rw [cooked_id (printing_not_lf h)]
  rfl

theorem cooked_up : cooked (previousLine ++ eraseLineForward) = previousLine ++ eraseLineForward := by decide

theorem cooked_erase : cooked eraseLineForward = eraseLineForward := by decide

/-- The cursor is on the row below the prompt. -/
structure Under (h t : Term) : Prop where
  esc : t.esc = .ground
  wrap : t.wrap = false
  faint : t.faint = false
  width : t.width = h.width
  height : t.height = h.height
  top : t.top = h.top
  row : t.row = h.row + 1
  msg : ∀ c, MsgCell (h.cell (h.row + 1) c) c (t.cell (h.row + 1) c)
  others : ∀ r c, r ≠ h.row → r ≠ h.row + 1 → t.cell r c = h.cell r c

theorem Base.down {h t : Term} (r : Ready h) (b : Base h t) :
    Under h (t.feed (str "\r\n")) ∧ (t.feed (str "\r\n")).col = 0 := by
  rw [feed_crlf b.esc (by rw [b.row, b.top, b.height]; exact r.bottom)]
  exact ⟨⟨b.esc, rfl, b.faint, b.width, b.height, b.top, by simp [b.row], b.msg, b.others⟩, rfl⟩

theorem Under.red {h t : Term} (r : Ready h) (u : Under h t) (hc : t.col = 0) {m : Bytes} (hm : IsMessage m) :
    Under h (t.feed (red m)) ∧ Starts (t.feed (red m)) (h.row + 1) m := by
  have hl := message_length hm
  have hw := r.wide
  rw [feed_red u.esc u.wrap (printing_message hm) (by rw [hc, u.width]; omega)]
  rw [u.row, hc, u.faint]
  refine ⟨⟨u.esc, u.wrap, rfl, u.width, u.height, u.top, rfl, ?_, ?_⟩, ?_⟩
  · intro c
    simp only
    by_cases hlt : c < m.length
    · rw [written_zero hlt]
      exact Or.inr (Or.inr ⟨m, hm, hlt, rfl⟩)
    · rw [written_after (by omega)]
      exact u.msg c
  · intro r' c h1 h2
    simp only
    rw [written_out h2]
    exact u.others r' c h1 h2
  · intro c hlt
    simp only
    rw [written_zero hlt]

theorem Under.erase {h t : Term} (u : Under h t) (hc : t.col = 0) :
    Under h (t.feed eraseLineForward) ∧ (t.feed eraseLineForward).col = 0 ∧
      ∀ c, (t.feed eraseLineForward).cell (h.row + 1) c = .blank := by
  rw [feed_erase u.esc, u.row, hc]
  have bl : ∀ c, (t.clear (h.row + 1) 0).cell (h.row + 1) c = .blank := by intro c; simp [Term.clear]
  refine ⟨⟨u.esc, u.wrap, u.faint, u.width, u.height, u.top, u.row, fun c => Or.inr (Or.inl (bl c)), ?_⟩, hc, bl⟩
  intro r' c h1 h2
  simp only [Term.clear]
  rw [if_neg (fun x => h2 x.1)]
  exact u.others r' c h1 h2

theorem Under.up {h t : Term} (r : Ready h) (u : Under h t) :
    Wait h (t.feed (previousLine ++ eraseLineForward)) [] [] ∧
      ∀ c, (t.feed (previousLine ++ eraseLineForward)).cell (h.row + 1) c = t.cell (h.row + 1) c := by
  have e : max t.top (t.row - 1) = h.row := by have := r.top; rw [u.top, u.row]; omega
  rw [feed_append, feed_previous u.esc, e, feed_erase (by exact u.esc)]
  have out : ∀ row c, row ≠ h.row → (Term.clear { t with row := h.row, col := 0, wrap := false } h.row 0).cell row c =
      t.cell row c := by
    intro row c hr
    simp only [Term.clear]
    rw [if_neg (fun x => hr x.1)]
  refine ⟨{ toBase := ⟨u.esc, rfl, u.faint, u.width, u.height, u.top, rfl, ?_, ?_⟩, col := rfl, shown := ?_ },
    fun c => out _ c (by omega)⟩
  · intro c
    have := out (h.row + 1) c (by omega)
    simp only at this ⊢
    rw [this]
    exact u.msg c
  · intro row c h1 h2
    exact (out row c h1).trans (u.others row c h1 h2)
  · intro c
    simp [Term.clear, plain, faintly]

/-- The prompt is written on the blank row. -/
theorem Wait.prompted {h t : Term} (w : Wait h t [] []) {i : Int} (hlt : (promptText i).length < h.width) :
    Wait h (t.feed (bold (cyan (promptText i)))) (promptText i) [] := by
  have e : t.feed (bold (cyan (promptText i))) = t.feed (promptText i) := by
    rw [feed_boldcyan w.esc w.faint w.wrap (printing_promptText i) (by rw [w.col, w.width]; simpa using hlt),
      feed_text _ t w.esc w.wrap (printing_promptText i) (by rw [w.col, w.width]; simpa using hlt), w.faint]
  rw [e]
  exact w.text (Or.inl rfl) (printing_promptText i) hlt

/-- The prompt is written over what is on the row. -/
theorem Pre.prompted {h t : Term} (w : Pre h t []) {i : Int} (hlt : (promptText i).length < h.width) :
    Pre h (t.feed (bold (cyan (promptText i)))) (promptText i) := by
  have hc : t.col = 0 := w.col
  have e : t.feed (bold (cyan (promptText i))) = t.feed (promptText i) := by
    rw [feed_boldcyan w.esc w.faint w.wrap (printing_promptText i) (by rw [hc, w.width]; simpa using hlt),
      feed_text _ t w.esc w.wrap (printing_promptText i) (by rw [hc, w.width]; simpa using hlt), w.faint]
  rw [e]
  exact w.text (printing_promptText i) hlt

/-- What the row below shows after a line -/
structure SimpleNote (L : WordList) (h t : Term) (words : List Bytes) (line : Bytes) : Prop where
  noWord : L.exactMatch (L.toLower (trimSpace line)) = false → Starts t (h.row + 1) badWordMessage
  version : L.exactMatch (L.toLower (trimSpace line)) = true → words = [] →
    ∀ e, parseMnemonicVersion L (L.toLower (trimSpace line)) = .err e →
    Starts t (h.row + 1) (versionErrorText L (L.toLower (trimSpace line)))
  good : L.exactMatch (L.toLower (trimSpace line)) = true →
    (words = [] → ∃ v, parseMnemonicVersion L (L.toLower (trimSpace line)) = .ok v) →
    ∀ c, t.cell (h.row + 1) c = .blank

/-- A line on the screen -/
theorem simple_round {L : WordList} (hL : L.Lawful) {h t : Term} (r : Ready h) (w : Pre h t []) (n : Nat)
    (words : List Bytes) (line : Bytes) (hp : ∀ b ∈ line, Printing b)
    (hlt : (promptText words.length ++ line).length < h.width) :
    Wait h (t.feed (cooked (simplePrompt words ++ (line ++ str "\n") ++ (simpleRound L n words line).1))) [] [] ∧
    SimpleNote L h (t.feed (cooked (simplePrompt words ++ (line ++ str "\n") ++ (simpleRound L n words line).1))) words line := by
  have ecr : cooked (str "\n") = str "\r\n" := by decide
  unfold simplePrompt
  rw [cooked_append, cooked_append, cooked_append, ecr, cooked_boldcyan (printing_promptText _),
    cooked_id (printing_not_lf hp), feed_append, feed_append, feed_append]
  have w1 := w.prompted (i := words.length) (by rw [List.length_append] at hlt; omega)
  have p2 := w1.text hp hlt
  obtain ⟨u, hc⟩ := p2.toBase.down r
  generalize ((t.feed (bold (cyan (promptText words.length)))).feed line).feed (str "\r\n") = v at u hc
  obtain ⟨ue, ec, eb⟩ := u.erase hc
  unfold simpleRound
  cases hm : L.exactMatch (L.toLower (trimSpace line)) with
  | false =>
    simp only [hm, Bool.false_eq_true, if_false]
    rw [cooked_append, cooked_red (m := badWordMessage) (printing_message .noWord), cooked_up, feed_append]
    obtain ⟨u2, st⟩ := u.red r hc .noWord
    obtain ⟨w3, e3⟩ := u2.up r
    refine ⟨w3, fun _ c hlt => ?_, fun h => absurd (hm.symm.trans h) (by simp), fun h => absurd (hm.symm.trans h) (by simp)⟩
    exact (e3 c).trans (st c hlt)
  | true =>
    have hm' := hm
    obtain ⟨i, hi, ei⟩ := (hL.exact_iff _).1 hm
    simp only [hm, if_true]
    have good : ∀ {P : Prop}, (P → False) →
        Wait h (v.feed (cooked (eraseLineForward ++ (previousLine ++ eraseLineForward)))) [] [] ∧
        (P → Starts (v.feed (cooked (eraseLineForward ++ (previousLine ++ eraseLineForward)))) (h.row + 1)
          (versionErrorText L (L.toLower (trimSpace line)))) ∧
        ∀ c, (v.feed (cooked (eraseLineForward ++ (previousLine ++ eraseLineForward)))).cell (h.row + 1) c = .blank := by
      intro P hP
      rw [cooked_append, cooked_erase, cooked_up, feed_append]
      obtain ⟨w3, e3⟩ := ue.up r
      exact ⟨w3, fun h => (hP h).elim, fun c => by rw [e3]; exact eb c⟩
    by_cases h0 : words = []
    · simp only [h0, List.length_nil, if_true]
      cases hpv : parseMnemonicVersion L (L.toLower (trimSpace line)) with
      | ok v =>
        obtain ⟨a, -, c⟩ := good (P := False) id
        exact ⟨a, fun h => absurd (hm.symm.trans h) (by simp), fun _ _ e he => (by rw [hpv] at he; cases he), fun _ _ => c⟩
      | err e =>
        simp only
        rw [← ei] at hpv
        obtain ⟨hmsg, -⟩ := version_message hL hi hpv
        rw [ei] at hmsg hpv
        rw [cooked_append, cooked_append, cooked_erase, cooked_red (printing_message hmsg), cooked_up, feed_append, feed_append]
        obtain ⟨u2, st⟩ := ue.red r ec hmsg
        obtain ⟨w3, e3⟩ := u2.up r
        refine ⟨w3, fun h => absurd (hm.symm.trans h) (by simp), fun _ _ _ _ c hlt => ?_, fun _ hg => ?_⟩
        · have := (e3 c).trans (st c hlt)
          rw [feed_append] at this
          rw [feed_append]; exact this
        · obtain ⟨v, hv⟩ := hg rfl
          rw [hpv] at hv; cases hv
      | panic p =>
        exfalso
        revert hpv
        unfold parseMnemonicVersion
        split <;> simp
    · have hl : words.length ≠ 0 := fun e => h0 (List.length_eq_zero_iff.1 e)
      simp only [hl, if_false]
      obtain ⟨a, -, c⟩ := good (P := False) id
      exact ⟨a, fun h => absurd (hm.symm.trans h) (by simp), fun _ e => absurd e h0, fun _ _ => c⟩

theorem promptText_length {k : Nat} (h : k < 16) : (promptText k).length ≤ 11 := by
  have : ∀ k < 16, (promptText ((k : Nat) : Int)).length ≤ 11 := by decide +kernel
  exact this k h

theorem mnemonicSize_le (v : Nat) : mnemonicSize v ≤ 16 :=
  match v with
  | 0 => by decide
  | 1 => by decide
  | n + 2 => by simp [mnemonicSize, payloadBitCount]

theorem simpleRound_count {L : WordList} {n : Nat} (hn : n ≤ 16) (words : List Bytes) (line : Bytes) :
    (simpleRound L n words line).2.1 ≤ 16 := by
  simp only [simpleRound]
  split
  · split
    · split
      · exact mnemonicSize_le _
      · exact hn
    · exact hn
  · exact hn

/-- All lines on the screen: before the prompt is written to wait, and when it has returned -/
theorem simple_lines {L : WordList} (hL : L.Lawful) {h : Term} (r : Ready h) : ∀ (lines : List Bytes) (t : Term) (n : Nat)
    (words : List Bytes), Pre h t [] → words.length < n → n ≤ 16 → (∀ line ∈ lines, ∀ b ∈ line, Printing b) →
    (∀ line ∈ lines, line.length + 11 < h.width) →
    (∀ n' words', (simpleShows L n words lines).2 = some (n', words') →
      ∃ out, (simpleShows L n words lines).1 = out ++ simplePrompt words' ∧ words'.length < n' ∧ n' ≤ 16 ∧
        Pre h (t.feed (cooked out)) [] ∧ (lines ≠ [] → Wait h (t.feed (cooked out)) [] []) ∧
        ∀ line, simpleShows L n words (lines ++ [line]) =
          (out ++ (simpleShows L n' words' [line]).1, (simpleShows L n' words' [line]).2)) ∧
    ((simpleShows L n words lines).2 = none → Wait h (t.feed (cooked (simpleShows L n words lines).1)) [] [])
  | [], t, n, words, w, hlt, h16, _, _ => by
    refine ⟨fun n' words' e => ?_, fun e => (nomatch e)⟩
    cases e
    exact ⟨[], rfl, hlt, h16, w, fun e => absurd rfl e, fun _ => rfl⟩
  | line :: lines, t, n, words, w, hlt, h16, hp, hf => by
    obtain ⟨w1, -⟩ := simple_round hL r w n words line (hp line (by simp)) (by
      have := promptText_length (k := words.length) (by omega)
      have := hf line (by simp)
      rw [List.length_append]; omega)
    have h16' := simpleRound_count (L := L) h16 words line
    rcases hr : simpleRound L n words line with ⟨out, n1, words1⟩
    rw [hr] at w1 h16'
    have more : ∀ l, simpleShows L n words (line :: (lines ++ [l])) =
        if words1.length < n1 then
          (simplePrompt words ++ (line ++ str "\n") ++ out ++ (simpleShows L n1 words1 (lines ++ [l])).1,
            (simpleShows L n1 words1 (lines ++ [l])).2)
        else (simplePrompt words ++ (line ++ str "\n") ++ out, none) := by
      intro l
      refine (simpleShows.eq_2 L n words line (lines ++ [l])).trans ?_
      rw [hr]
    rw [simpleShows.eq_2 L n words line lines, hr]
    simp only
    by_cases hlt : words1.length < n1
    · rw [if_pos hlt]
      simp only
      obtain ⟨a, b⟩ := simple_lines hL r lines _ n1 words1 w1.pre hlt h16' (fun l hl => hp l (by simp [hl]))
        (fun l hl => hf l (by simp [hl]))
      refine ⟨fun n' words' e => ?_, fun e => ?_⟩
      · obtain ⟨out', e1, e2, e3, e4, e6, e5⟩ := a n' words' e
        refine ⟨_, by rw [e1, ← List.append_assoc], e2, e3, ?_, ?_, ?_⟩
        · rw [cooked_append, feed_append]
          exact e4
        · rw [cooked_append, feed_append]
          by_cases hl : lines = []
          · subst hl
            have : out' = [] := by
              have := congrArg List.length e1
              cases e
              simp only [simpleShows, List.length_append] at this
              exact List.length_eq_zero_iff.1 (by omega)
            subst this
            rw [show ∀ u : Term, u.feed (cooked []) = u from fun _ => rfl]
            exact fun _ => w1
          · exact fun _ => e6 hl
        · intro l2
          rw [List.cons_append, more, if_pos hlt, e5]
          simp only [List.append_assoc]
      · rw [cooked_append, feed_append]
        exact b e
    · rw [if_neg hlt]
      exact ⟨fun n' words' e => (nomatch e), fun _ => w1⟩

/-- The prompt for the next word is written on its row only. -/
theorem Pre.prompted_below {h t : Term} (w : Pre h t []) {i : Int} (hlt : (promptText i).length < h.width) (c : Nat) :
    (t.feed (bold (cyan (promptText i)))).cell (h.row + 1) c = t.cell (h.row + 1) c := by
  rw [feed_boldcyan w.esc w.faint w.wrap (printing_promptText i) (by rw [show t.col = 0 from w.col, w.width]; simpa using hlt)]
  simp only
  rw [written_out (by rw [w.row]; omega)]

end Verif.Proofs
