import Verif.Proofs.PasswordScreen

/-! # The rows of the dialogue at a password prompt -/

namespace Verif.Proofs

open Verif.Model Verif.Model.Cli Verif.Spec Verif.Spec.Term

/-- Rows below the first one are complete, and the cursor is on the next. -/
structure Complete (t u : Term) (rows : List (List Cell)) : Prop where
  fresh : Fresh u
  row : u.row = t.row + rows.length
  width : u.width = t.width
  above : ∀ r c, r < t.row → u.cell r c = t.cell r c
  shown : ∀ i (hi : i < rows.length), u.Shows (t.row + i) rows[i]

/-- The last row is still being written. -/
def Open (t u : Term) (rows : List (List Cell)) (cells : List Cell) : Prop :=
  ∃ v, Complete t v rows ∧ Written v u cells

theorem Complete.self {t : Term} (f : Fresh t) : Complete t t [] :=
  ⟨f, rfl, rfl, fun _ _ _ => rfl, fun i hi => absurd hi (by simp)⟩

theorem Open.lf {t u : Term} {rows : List (List Cell)} {cells : List Cell} (o : Open t u rows cells) :
    Complete t (u.feed (cooked (str "\n"))) (rows ++ [cells]) := by
  obtain ⟨v, d, w⟩ := o
  obtain ⟨a1, a2, a3, a4, a5⟩ := w.end d.fresh
  have hrow := d.row
  refine ⟨a1, ?_, a3.trans d.width, ?_, ?_⟩
  · rw [a2, hrow, List.length_append]
    rfl
  · intro r c hr
    rw [a5 r c (by omega), d.above r c hr]
  · intro i hi
    rw [List.length_append, List.length_singleton] at hi
    by_cases h : i < rows.length
    · rw [List.getElem_append_left h]
      intro c hc
      rw [a5 _ _ (by omega)]
      exact d.shown i h c (by rw [d.width]; rw [a3, d.width] at hc; exact hc)
    · have : i = rows.length := by omega
      subst this
      rw [List.getElem_append_right (Nat.le_refl _), ← hrow]
      simpa using a4

theorem cooked_no_lf : ∀ {a : Bytes}, (∀ b ∈ a, b ≠ 0x0A) → cooked a = a
  | [], _ => rfl
  | x :: a, h => by
    have : cooked (x :: a) = (if x = 0x0A then [0x0D, 0x0A] else [x]) ++ cooked a := rfl
    rw [this, if_neg (h x (by simp)), cooked_no_lf (fun b hb => h b (by simp [hb]))]
    rfl

theorem printing_no_lf {a : Bytes} (h : ∀ b ∈ a, Printing b) : ∀ b ∈ a, b ≠ 0x0A := by
  rintro b hb rfl
  exact absurd (h _ hb).1 (by decide)

/-! ## The pieces -/

/-- A line feed after faint characters were chosen -/
theorem feed_lf_faint {t : Term} (h : t.esc = .ground) :
    ({ t with faint := true } : Term).feed (cooked (str "\n")) = { t.feed (cooked (str "\n")) with faint := true } := by
  have e : cooked (str "\n") = [0x0D] ++ [0x0A] := by decide
  rw [e, feed_append, feed_append, feed_cr h, feed_cr (by exact h), feed_lf (by exact h), feed_lf (by exact h)]
  unfold Term.lineFeed
  simp only
  split <;> rfl

theorem cooked_faint {bs : Bytes} (hb : ∀ b ∈ bs, Printing b) : cooked (faint bs) = faint bs := by
  refine cooked_no_lf ?_
  intro b h
  simp only [Cli.faint, escapeCode, code_faint, code_boldEnd, List.mem_append, List.mem_cons, List.not_mem_nil, or_false] at h
  rcases h with (((rfl | rfl | rfl | rfl) | h) | rfl) | (rfl | rfl | rfl | rfl)
  all_goals first | exact printing_no_lf hb b h | decide

theorem feed_next_faint {t : Term} (h : t.esc = .ground) {bs : Bytes} (hb : ∀ b ∈ bs, Printing b) :
    t.feed (cooked (faint (str "\n" ++ bs))) = (t.feed (cooked (str "\n"))).feed (faint bs) := by
  have e1 : faint (str "\n" ++ bs) = [0x1B, 0x5B, 0x32, 0x6D] ++ str "\n" ++ bs ++ [0x1B, 0x5B, 0x32, 0x32, 0x6D] := by
    simp [Cli.faint, escapeCode, code_faint, code_boldEnd]
  have e2 : faint bs = [0x1B, 0x5B, 0x32, 0x6D] ++ bs ++ [0x1B, 0x5B, 0x32, 0x32, 0x6D] := by
    simp [Cli.faint, escapeCode, code_faint, code_boldEnd]
  have h' : (t.feed (cooked (str "\n"))).esc = .ground := by
    have e : cooked (str "\n") = [0x0D] ++ [0x0A] := by decide
    rw [e, feed_append, feed_cr h, feed_lf (by exact h)]
    unfold Term.lineFeed
    simp only
    split <;> exact h
  rw [e1, e2, cooked_append, cooked_append, cooked_append, cooked_no_lf (printing_no_lf hb),
    show cooked [0x1B, 0x5B, 0x32, 0x6D] = [0x1B, 0x5B, 0x32, 0x6D] by decide,
    show cooked [0x1B, 0x5B, 0x32, 0x32, 0x6D] = [0x1B, 0x5B, 0x32, 0x32, 0x6D] by decide]
  simp only [feed_append]
  rw [feed_faintOn h, feed_lf_faint h, feed_faintOn h']

theorem Complete.ask {t u : Term} {rows : List (List Cell)} (d : Complete t u rows) {bs : Bytes}
    (hb : ∀ b ∈ bs, Printing b) (hlt : bs.length < t.width) : Open t (u.feed (cooked (faint bs))) rows (faintly bs) := by
  refine ⟨u, d, ?_⟩
  rw [cooked_faint hb]
  have := d.fresh.written.faintText hb (by rw [d.width]; simpa using hlt)
  simpa using this

theorem Open.more {t u : Term} {rows : List (List Cell)} {cells : List Cell} (o : Open t u rows cells) {bs : Bytes}
    (hb : ∀ b ∈ bs, Printing b) (hlt : cells.length + bs.length < t.width) :
    Open t (u.feed (cooked (faint bs))) rows (cells ++ faintly bs) := by
  obtain ⟨v, d, w⟩ := o
  refine ⟨v, d, ?_⟩
  rw [cooked_faint hb]
  exact w.faintText hb (by rw [d.width]; exact hlt)

theorem Complete.open {t u : Term} {rows : List (List Cell)} (d : Complete t u rows) : Open t u rows [] :=
  ⟨u, d, d.fresh.written⟩

theorem Open.text {t u : Term} {rows : List (List Cell)} {cells : List Cell} (o : Open t u rows cells) {bs : Bytes}
    (hb : ∀ b ∈ bs, Printing b) (hlt : cells.length + bs.length < t.width) :
    Open t (u.feed (cooked bs)) rows (cells ++ plain bs) := by
  obtain ⟨v, d, w⟩ := o
  refine ⟨v, d, ?_⟩
  rw [cooked_no_lf (printing_no_lf hb)]
  exact w.text hb (by rw [d.width]; exact hlt)

theorem Open.again {t u : Term} {rows : List (List Cell)} {cells : List Cell} (o : Open t u rows cells) {bs : Bytes}
    (hb : ∀ b ∈ bs, Printing b) (hlt : bs.length < t.width) :
    Open t (u.feed (cooked (faint (str "\n" ++ bs)))) (rows ++ [cells]) (faintly bs) := by
  have he : u.esc = .ground := by
    obtain ⟨v, _, w⟩ := o
    exact w.esc
  rw [feed_next_faint he hb]
  have := o.lf.ask hb hlt
  rwa [cooked_faint hb] at this

theorem Open.remark {t u : Term} {rows : List (List Cell)} {cells : List Cell} (o : Open t u rows cells) {bs : Bytes}
    (hb : ∀ b ∈ bs, Printing b) (hlt : bs.length < t.width) :
    Complete t (u.feed (cooked (red (str "\n" ++ bs) ++ str "\n"))) (rows ++ [cells, plain bs]) := by
  have he : u.esc = .ground := by
    obtain ⟨v, _, w⟩ := o
    exact w.esc
  have e : red (str "\n" ++ bs) = sgr [0x33, 0x31] ++ str "\n" ++ bs ++ sgr [0x33, 0x39] := by
    simp [red, escapeCode, code_red, code_colorEnd, sgr]
  rw [e]
  simp only [cooked_append, feed_append]
  rw [show cooked (sgr [0x33, 0x31]) = sgr [0x33, 0x31] by decide, show cooked (sgr [0x33, 0x39]) = sgr [0x33, 0x39] by decide,
    cooked_no_lf (printing_no_lf hb), feed_sgr he (by decide)]
  have d := o.lf
  have w := d.fresh.written.text hb (by rw [d.width]; simpa using hlt)
  rw [feed_sgr w.esc (by decide)]
  have o2 : Open t _ (rows ++ [cells]) ([] ++ plain bs) := ⟨_, d, w⟩
  have := o2.lf
  simpa using this

/-! ## The dialogue -/

theorem printing_empty : ∀ b ∈ str "Cannot use an empty password.", Printing b := printing_str (by decide)
theorem printing_again : ∀ b ∈ str "Repeat password to confirm: ", Printing b := printing_str (by decide)
theorem printing_mismatch : ∀ b ∈ str "Passwords do not match. Please try again.", Printing b := printing_str (by decide)

theorem text_ask (p : Bytes) : Msg.text p .ask = Cli.faint p := rfl
theorem text_newline (p : Bytes) : Msg.text p .newline = str "\n" := rfl

theorem text_empty (p : Bytes) : Msg.text p .empty = red (str "\n" ++ str "Cannot use an empty password.") ++ str "\n" := by
  rw [Msg.text, show str "\nCannot use an empty password." = str "\n" ++ str "Cannot use an empty password." by decide +kernel]

theorem text_again (p : Bytes) : Msg.text p .again = Cli.faint (str "\n" ++ str "Repeat password to confirm: ") := by
  rw [Msg.text, show str "\nRepeat password to confirm: " = str "\n" ++ str "Repeat password to confirm: " by decide +kernel]

theorem text_mismatch (p : Bytes) :
    Msg.text p .mismatch = red (str "\n" ++ str "Passwords do not match. Please try again.") ++ str "\n" := by
  rw [Msg.text, show str "\nPasswords do not match. Please try again." =
    str "\n" ++ str "Passwords do not match. Please try again." by decide +kernel]

theorem sent_cons (a : Bytes) (l : List Bytes) : sent (a :: l) = cooked a ++ sent l := by
  simp [sent, cooked_append]

theorem sent_append (a b : List Bytes) : sent (a ++ b) = sent a ++ sent b := by
  simp [sent, cooked_append]

theorem sent_nil : sent [] = [] := rfl

/-- A terminal wide enough for the dialogue -/
structure Wide (t : Term) (prompt : Bytes) : Prop where
  printing : ∀ b ∈ prompt, Printing b
  prompt : prompt.length < t.width
  others : 41 < t.width

theorem rows_dialogue {t : Term} {prompt : Bytes} (w : Wide t prompt) (c : Bool) :
    ∀ (n : Nat) (lines : List (Res Bytes)), lines.length ≤ n → ∀ (v : Term) (rows : List (List Cell)), Complete t v rows →
      ∃ done last, (dialogue c lines).map (Msg.row prompt) = done ++ [last] ∧
        Open t (v.feed (sent ((dialogue c lines).map (Msg.text prompt)))) (rows ++ done) last := by
  have l1 : (str "Cannot use an empty password.").length < t.width := by
    have : (str "Cannot use an empty password.").length = 29 := by decide +kernel
    have := w.others
    omega
  have l2 : (str "Repeat password to confirm: ").length < t.width := by
    have : (str "Repeat password to confirm: ").length = 28 := by decide +kernel
    have := w.others
    omega
  have l3 : (str "Passwords do not match. Please try again.").length < t.width := by
    have : (str "Passwords do not match. Please try again.").length = 41 := by decide +kernel
    have := w.others
    omega
  have ask : ∀ (v : Term) (rows : List (List Cell)), Complete t v rows →
      Open t (v.feed (cooked (Msg.text prompt .ask))) rows (Msg.row prompt .ask) :=
    fun v rows d => d.ask w.printing w.prompt
  have again : ∀ (v : Term) (rows : List (List Cell)) (cells : List Cell), Open t v rows cells →
      Open t (v.feed (cooked (Msg.text prompt .again))) (rows ++ [cells]) (Msg.row prompt .again) :=
    fun v rows cells o => by
      rw [text_again]
      exact o.again printing_again l2
  have one : ∀ (v : Term) (rows : List (List Cell)), Complete t v rows →
      ∃ done last, [Msg.ask].map (Msg.row prompt) = done ++ [last] ∧
        Open t (v.feed (sent ([Msg.ask].map (Msg.text prompt)))) (rows ++ done) last := by
    intro v rows d
    refine ⟨[], _, rfl, ?_⟩
    simp only [List.map_cons, List.map_nil, sent_cons, sent_nil, List.append_nil]
    exact ask v rows d
  have two : ∀ (v : Term) (rows : List (List Cell)), Complete t v rows →
      ∃ done last, [Msg.ask, .again].map (Msg.row prompt) = done ++ [last] ∧
        Open t (v.feed (sent ([Msg.ask, .again].map (Msg.text prompt)))) (rows ++ done) last := by
    intro v rows d
    refine ⟨[_], _, rfl, ?_⟩
    simp only [List.map_cons, List.map_nil, sent_cons, sent_nil, List.append_nil, feed_append]
    exact again _ _ _ (ask v rows d)
  intro n
  induction n with
  | zero =>
    intro lines h v rows d
    cases lines with
    | nil => exact one v rows d
    | cons => simp at h
  | succ n ih =>
    intro lines h v rows d
    match lines, h with
    | [], _ => exact one v rows d
    | .err _ :: _, _ => exact one v rows d
    | .panic _ :: _, _ => exact one v rows d
    | .ok [] :: rest, h =>
      have d2 : Complete t (v.feed (sent ([Msg.ask, .empty].map (Msg.text prompt)))) (rows ++ [Msg.row prompt .ask, Msg.row prompt .empty]) := by
        simp only [List.map_cons, List.map_nil, sent_cons, sent_nil, List.append_nil, feed_append]
        rw [text_empty]
        exact (ask v rows d).remark printing_empty l1
      obtain ⟨done, last, e, o⟩ := ih rest (by simp at h; omega) _ _ d2
      refine ⟨[Msg.row prompt .ask, Msg.row prompt .empty] ++ done, last, ?_, ?_⟩
      · rw [dialogue, List.map_append, e]
        simp
      · rw [dialogue, List.map_append, sent_append, feed_append, ← List.append_assoc]
        exact o
    | .ok (x :: xs) :: rest, h =>
      cases c with
      | false =>
        have : dialogue false (.ok (x :: xs) :: rest) = [.ask] := by
          rcases rest with _ | ⟨_ | _ | _, _⟩ <;> simp [dialogue]
        rw [this]
        exact one v rows d
      | true =>
        match rest, h with
        | [], _ => exact two v rows d
        | .err _ :: _, _ => exact two v rows d
        | .panic _ :: _, _ => exact two v rows d
        | .ok second :: rest, h =>
          by_cases hs : second = x :: xs
          · have : dialogue true (.ok (x :: xs) :: .ok second :: rest) = [.ask, .again] := by simp [dialogue, hs]
            rw [this]
            exact two v rows d
          · have e0 : dialogue true (.ok (x :: xs) :: .ok second :: rest) = [.ask, .again, .mismatch] ++ dialogue true rest := by
              simp [dialogue, hs]
            have d3 : Complete t (v.feed (sent ([Msg.ask, .again, .mismatch].map (Msg.text prompt))))
                (rows ++ [Msg.row prompt .ask, Msg.row prompt .again, Msg.row prompt .mismatch]) := by
              simp only [List.map_cons, List.map_nil, sent_cons, sent_nil, List.append_nil, feed_append]
              rw [text_mismatch]
              have := (again _ _ _ (ask v rows d)).remark printing_mismatch l3
              simpa [Msg.row] using this
            obtain ⟨done, last, e, o⟩ := ih rest (by simp at h; omega) _ _ d3
            refine ⟨[Msg.row prompt .ask, Msg.row prompt .again, Msg.row prompt .mismatch] ++ done, last, ?_, ?_⟩
            · rw [e0, List.map_append, e]
              simp
            · rw [e0, List.map_append, sent_append, feed_append, ← List.append_assoc]
              exact o

/-! ## What is seen -/

theorem fresh_emptyFrom {t : Term} {row : Nat} (h : EmptyFrom t row) : Fresh t :=
  ⟨h.ready.1, h.start.2, h.ready.2, h.start.1, h.window.1, h.window.2, by rw [h.at_row]; exact h.blank⟩

theorem Complete.emptyFrom {t u : Term} {rows : List (List Cell)} (d : Complete t u rows) :
    EmptyFrom u (t.row + rows.length) :=
  ⟨d.row, ⟨d.fresh.col, d.fresh.wrap⟩, ⟨d.fresh.esc, d.fresh.faint⟩, ⟨d.fresh.topRow, d.fresh.rowTop⟩,
    by rw [← d.row]; exact d.fresh.blank⟩

theorem Complete.shows {t u : Term} {rows : List (List Cell)} (d : Complete t u rows) : ShowsRows t u rows :=
  ⟨d.width, d.above, d.shown, by rw [← d.row]; exact d.fresh.blank⟩

theorem Open.shows {t u : Term} {rows : List (List Cell)} {cells : List Cell} (o : Open t u rows cells) :
    ShowsRows t u (rows ++ [cells]) ∧ AtEnd t u (rows ++ [cells]) := by
  obtain ⟨v, d, w⟩ := o
  have hrow := d.row
  refine ⟨⟨w.width.trans d.width, ?_, ?_, ?_⟩, ⟨?_, ?_, w.esc, w.faint, w.wrap⟩⟩
  · intro r c hr
    rw [w.others r c (by omega), d.above r c hr]
  · intro i hi
    rw [List.length_append, List.length_singleton] at hi
    by_cases h : i < rows.length
    · rw [List.getElem_append_left h]
      intro c hc
      rw [w.others _ _ (by omega)]
      exact d.shown i h c (by rw [w.width] at hc; exact hc)
    · have : i = rows.length := by omega
      subst this
      rw [List.getElem_append_right (Nat.le_refl _), ← hrow]
      intro c hc
      rw [w.shown]
      simp
  · intro r c hr
    rw [List.length_append, List.length_singleton] at hr
    rw [w.others _ _ (by omega)]
    exact d.fresh.blank r c (by omega)
  · rw [w.row, hrow, List.length_append, List.length_singleton]
    omega
  · simp [w.col]

end Verif.Proofs
