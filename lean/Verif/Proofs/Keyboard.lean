import Verif.Model.Cli.Typed
import Verif.Proofs.SimpleScreen

/-! # Corrections on the screen -/

namespace Verif.Proofs

open Verif.Model Verif.Model.Cli Verif.Spec

/-- The same terminals, but for the cells of one row from a column on -/
def Off (row col : Nat) (s t : Term) : Prop :=
  t = { s with cell := t.cell } ∧ ∀ r c, ¬ (r = row ∧ col ≤ c) → t.cell r c = s.cell r c

theorem off_of {row col : Nat} {s : Term} {f : Nat → Nat → Cell}
    (h : ∀ r c, ¬ (r = row ∧ col ≤ c) → f r c = s.cell r c) : Off row col s { s with cell := f } := ⟨rfl, h⟩

theorem off_clear {row col : Nat} {s t : Term} (h : Off row col s t) (r c : Nat) :
    Off row col (s.clear r c) (t.clear r c) := by
  obtain ⟨e, hc⟩ := h
  rw [e]
  refine off_of fun r' c' hn => ?_
  simp only [Term.clear]
  split
  · rfl
  · exact hc r' c' hn

theorem off_lineFeed {row col : Nat} {s t : Term} (h : Off row col s t) : Off row col s.lineFeed t.lineFeed := by
  have h2 := off_clear h (s.row + 1) 0
  obtain ⟨e, hc⟩ := h
  have er : t.row = s.row := by rw [e]
  have et : t.top = s.top := by rw [e]
  have eh : t.height = s.height := by rw [e]
  unfold Term.lineFeed
  rw [er, et, eh]
  split
  · rw [e]
    exact off_of hc
  · obtain ⟨e2, hc2⟩ := h2
    rw [e2]
    exact off_of hc2

theorem off_put {row col : Nat} {s t : Term} (h : Off row col s t) (b : Byte) : Off row col (s.put b) (t.put b) := by
  have h1 : Off row col (if s.wrap then { s.lineFeed with col := 0 } else s)
      (if t.wrap then { t.lineFeed with col := 0 } else t) := by
    have ew : t.wrap = s.wrap := by rw [h.1]
    rw [ew]
    split
    · obtain ⟨e, hc⟩ := off_lineFeed h
      rw [e]
      exact off_of hc
    · exact h
  unfold Term.put
  dsimp only
  generalize (if s.wrap then { s.lineFeed with col := 0 } else s : Term) = s1 at h1 ⊢
  generalize (if t.wrap then { t.lineFeed with col := 0 } else t : Term) = t1 at h1 ⊢
  obtain ⟨e, hc⟩ := h1
  rw [e]
  dsimp only
  split
  · refine off_of fun r c hn => ?_
    dsimp only
    split
    · rfl
    · exact hc r c hn
  · refine off_of fun r c hn => ?_
    dsimp only
    split
    · rfl
    · exact hc r c hn

theorem off_control {row col : Nat} {s t : Term} (h : Off row col s t) (ps : Bytes) (b : Byte) :
    Off row col (s.control ps b) (t.control ps b) := by
  have hk := off_clear h s.row s.col
  have er : t.row = s.row := by rw [h.1]
  have ec : t.col = s.col := by rw [h.1]
  unfold Term.control
  rw [er, ec]
  obtain ⟨e, hc⟩ := h
  split
  · rw [e]; exact off_of hc
  split
  · rw [e]; exact off_of hc
  split
  · rw [e]; exact off_of hc
  split
  · exact hk
  split
  · rw [e]; exact off_of hc
  split
  · rw [e]; exact off_of hc
  · exact ⟨e, hc⟩

theorem off_esc {row col : Nat} {s t : Term} (h : Off row col s t) (x : Esc) :
    Off row col { s with esc := x } { t with esc := x } := by
  obtain ⟨e, hc⟩ := h
  rw [e]
  exact off_of hc

theorem off_step {row col : Nat} {s t : Term} (h : Off row col s t) (b : Byte) : Off row col (s.step b) (t.step b) := by
  have ee : t.esc = s.esc := by rw [h.1]
  unfold Term.step
  rw [ee]
  cases s.esc with
  | ground =>
    dsimp only
    split
    · exact off_esc h _
    split
    · obtain ⟨e, hc⟩ := h
      rw [e]; exact off_of hc
    split
    · exact off_lineFeed h
    split
    · obtain ⟨e, hc⟩ := h
      rw [e]; exact off_of hc
    split
    · exact h
    · exact off_put h b
  | escape =>
    dsimp only
    split
    · exact off_esc h _
    split
    · obtain ⟨e, hc⟩ := h
      rw [e]; exact off_of hc
    split
    · obtain ⟨e, hc⟩ := h
      rw [e]; exact off_of hc
    · exact off_esc h _
  | csi ps =>
    dsimp only
    split
    · exact off_esc h _
    · exact off_esc (off_control h ps b) _

/-- Whatever is written later, it is the same for both. -/
theorem off_feed {row col : Nat} : ∀ (out : Bytes) {s t : Term}, Off row col s t → Off row col (s.feed out) (t.feed out)
  | [], _, _, h => h
  | b :: out, _, _, h => off_feed out (off_step h b)

/-- Erasing the row makes them equal. -/
theorem off_erased {row col : Nat} {s t : Term} (h : Off row col s t) (hr : s.row = row) (hc : s.col ≤ col)
    (he : s.esc = .ground) : t.feed eraseLineForward = s.feed eraseLineForward := by
  obtain ⟨e, hcell⟩ := h
  have et : t.esc = .ground := by rw [e]; exact he
  have er : t.row = s.row := by rw [e]
  have ec : t.col = s.col := by rw [e]
  rw [feed_erase he, feed_erase et, er, ec]
  have : (t.clear s.row s.col).cell = (s.clear s.row s.col).cell := by
    funext r c
    simp only [Term.clear]
    split
    · rfl
    · rename_i hn
      exact hcell r c fun hh => hn ⟨hh.1.trans hr.symm, by omega⟩
  rw [e] at this ⊢
  simp only [Term.clear] at this ⊢
  rw [this]

/-! ## What the driver echoes -/

theorem withoutLast_ascii {line : Bytes} (h : ∀ b ∈ line, Printing b) : withoutLast line = line.dropLast := by
  unfold withoutLast
  rcases List.eq_nil_or_concat line with rfl | ⟨l, b, rfl⟩
  · rfl
  · have hb := h b (by simp)
    have hc : continues b = false := by
      obtain ⟨h1, h2⟩ := hb
      have : ¬ (0x80 ≤ b) := fun h => absurd (UInt8.lt_of_lt_of_le h2 (UInt8.le_trans (by decide) h)) (UInt8.lt_irrefl _)
      simp [continues, this]
    simp [hc]

theorem press_printing {line : Bytes} (h : ∀ b ∈ line, Printing b) {k : Stroke}
    (hk : ∀ b, k = .char b → 0x20 ≤ b ∧ b < 0x7F) : ∀ b ∈ press line k, Printing b := by
  cases k with
  | char c =>
    intro b hb
    simp only [press, List.mem_append, List.mem_singleton] at hb
    rcases hb with hb | rfl
    · exact h b hb
    · exact hk _ rfl
  | erase =>
    intro b hb
    simp only [press, withoutLast_ascii h] at hb
    exact h b (List.dropLast_subset _ hb)
  | kill => intro b hb; simp [press] at hb

/-- What is written to take the last character back -/
theorem feed_rubOut {t : Term} (he : t.esc = .ground) (hw : t.wrap = false) (hc : 0 < t.col) (hlt : t.col < t.width) :
    t.feed rubOut = { t with cell := written t.cell t.row (t.col - 1) [0x20] t.faint, col := t.col - 1 } := by
  have e : rubOut = [0x08] ++ ([0x20] ++ [0x08]) := rfl
  rw [e, feed_append, feed_append]
  have back : ∀ u : Term, u.esc = .ground → u.feed [0x08] = { u with col := u.col - 1, wrap := false } := by
    intro u hu
    simp [Term.feed, Term.step, hu]
  rw [back t he, feed_text [0x20] { t with col := t.col - 1, wrap := false } he rfl
    (by intro b hb; rw [List.mem_singleton.1 hb]; exact ⟨by decide, by decide⟩) (by
      show t.col - 1 + 1 < t.width
      omega)]
  rw [back _ (by exact he)]
  simp [hw]

/-- The screen shows the line as if it had been typed without corrections, but what stood to the right of it may be
blank. -/
def Looks (t u : Term) (line : Bytes) : Prop :=
  u = { t with cell := u.cell, col := t.col + line.length } ∧
  ∀ r c, u.cell r c = written t.cell t.row t.col line false r c ∨
    r = t.row ∧ t.col + line.length ≤ c ∧ u.cell r c = .blank

theorem looks_rubOut {t u : Term} {line : Bytes} (he : t.esc = .ground) (hw : t.wrap = false) (hf : t.faint = false)
    (h : Looks t u line) (hne : line ≠ []) (hlt : t.col + line.length < t.width) :
    Looks t (u.feed rubOut) line.dropLast := by
  obtain ⟨e, hc⟩ := h
  have hpos : 0 < line.length := List.length_pos_iff.2 hne
  have uesc : u.esc = .ground := by rw [e]; exact he
  have uwrap : u.wrap = false := by rw [e]; exact hw
  have ucol : u.col = t.col + line.length := by rw [e]
  have urow : u.row = t.row := by rw [e]
  have uwidth : u.width = t.width := by rw [e]
  have ufaint : u.faint = false := by rw [e]; exact hf
  rw [feed_rubOut uesc uwrap (by omega) (by omega), ucol, urow, ufaint]
  have hcol : t.col + line.length - 1 = t.col + line.dropLast.length := by rw [List.length_dropLast]; omega
  refine ⟨?_, fun r c => ?_⟩
  · rw [hcol]
    conv_lhs => rw [e]
    simp [hf]
  · simp only
    by_cases hin : r = t.row ∧ c = t.col + line.length - 1
    · obtain ⟨rfl, rfl⟩ := hin
      refine .inr ⟨rfl, by omega, ?_⟩
      unfold written
      rw [if_pos ⟨rfl, Nat.le_refl _, by simp⟩]
      simp [Cell.blank]
    · have : written u.cell t.row (t.col + line.length - 1) [0x20] false r c = u.cell r c := by
        unfold written
        rw [if_neg]
        rintro ⟨h1, h2, h3⟩
        simp only [List.length_singleton] at h3
        exact hin ⟨h1, by omega⟩
      rw [this]
      rcases hc r c with h | ⟨h1, h2, h3⟩
      · left
        rw [h]
        unfold written
        rw [List.length_dropLast]
        by_cases hc1 : r = t.row ∧ t.col ≤ c ∧ c < t.col + line.length
        · have hlt' : c < t.col + (line.length - 1) := by
            have : c ≠ t.col + line.length - 1 := fun hh => hin ⟨hc1.1, hh⟩
            omega
          rw [if_pos hc1, if_pos ⟨hc1.1, hc1.2.1, hlt'⟩]
          simp only [List.getD_eq_getElem?_getD, List.getElem?_dropLast]
          rw [if_pos (by omega)]
        · rw [if_neg hc1, if_neg fun hh => hc1 ⟨hh.1, hh.2.1, by omega⟩]
      · exact .inr ⟨h1, by rw [List.length_dropLast]; omega, h3⟩

theorem looks_kill {t : Term} (he : t.esc = .ground) (hw : t.wrap = false) (hf : t.faint = false) :
    ∀ (n : Nat) (line : Bytes) (u : Term), line.length = n → t.col + line.length < t.width → Looks t u line →
      Looks t (u.feed (List.replicate n rubOut).flatten) []
  | 0, line, u, hn, _, h => by
    rw [List.length_eq_zero_iff.1 hn] at h
    exact h
  | n + 1, line, u, hn, hlt, h => by
    rw [List.replicate_succ, List.flatten_cons, feed_append]
    refine looks_kill he hw hf n line.dropLast _ (by rw [List.length_dropLast]; omega)
      (by rw [List.length_dropLast]; omega) (looks_rubOut he hw hf h ?_ hlt)
    rintro rfl
    simp at hn

theorem looks_char {t u : Term} {line : Bytes} {b : Byte} (he : t.esc = .ground) (hw : t.wrap = false)
    (hf : t.faint = false) (h : Looks t u line) (hb : Printing b) (hlt : t.col + line.length + 1 < t.width) :
    Looks t (u.feed [b]) (line ++ [b]) := by
  obtain ⟨e, hc⟩ := h
  have uesc : u.esc = .ground := by rw [e]; exact he
  have uwrap : u.wrap = false := by rw [e]; exact hw
  have ucol : u.col = t.col + line.length := by rw [e]
  have urow : u.row = t.row := by rw [e]
  have uwidth : u.width = t.width := by rw [e]
  have ufaint : u.faint = false := by rw [e]; exact hf
  rw [feed_text [b] u uesc uwrap (by intro c hc; rw [List.mem_singleton.1 hc]; exact hb)
    (by rw [ucol, uwidth]; exact hlt), ucol, urow, ufaint]
  refine ⟨?_, fun r c => ?_⟩
  · conv_lhs => rw [e]
    simp [hf, Nat.add_assoc]
  · simp only
    by_cases hin : r = t.row ∧ c = t.col + line.length
    · obtain ⟨rfl, rfl⟩ := hin
      left
      unfold written
      rw [if_pos ⟨rfl, Nat.le_refl _, by simp⟩, if_pos ⟨rfl, by omega, by simp⟩]
      simp
    · have : written u.cell t.row (t.col + line.length) [b] false r c = u.cell r c := by
        unfold written
        rw [if_neg]
        rintro ⟨h1, h2, h3⟩
        simp only [List.length_singleton] at h3
        exact hin ⟨h1, by omega⟩
      rw [this]
      rcases hc r c with h | ⟨h1, h2, h3⟩
      · left
        rw [h]
        unfold written
        rw [List.length_append, List.length_singleton]
        by_cases hc1 : r = t.row ∧ t.col ≤ c ∧ c < t.col + line.length
        · rw [if_pos hc1, if_pos ⟨hc1.1, hc1.2.1, by omega⟩]
          simp only [List.getD_eq_getElem?_getD]
          rw [List.getElem?_append_left (by omega)]
        · rw [if_neg hc1, if_neg fun hh => ?_]
          have : c ≠ t.col + line.length := fun h => hin ⟨hh.1, h⟩
          exact hc1 ⟨hh.1, hh.2.1, by omega⟩
      · refine .inr ⟨h1, ?_, h3⟩
        have : c ≠ t.col + line.length := fun h => hin ⟨h1, h⟩
        rw [List.length_append, List.length_singleton]
        omega

theorem looks_keys {t : Term} (he : t.esc = .ground) (hw : t.wrap = false) (hf : t.faint = false) {n : Nat}
    (hn : t.col + n < t.width) : ∀ (keys : List Stroke) (line : Bytes) (u : Term), Looks t u line →
      (∀ b ∈ line, Printing b) → Ascii keys → (∀ ks, ks <+: keys → (ks.foldl press line).length ≤ n) →
      Looks t (u.feed (echoFrom line keys)) (keys.foldl press line)
  | [], line, u, h, _, _, _ => h
  | k :: keys, line, u, h, hp, ha, hlen => by
    have hk := ha k List.mem_cons_self
    have h0 : line.length ≤ n := hlen [] List.nil_prefix
    have h1 : (press line k).length ≤ n := hlen [k] ⟨keys, rfl⟩
    show Looks t (u.feed (echoOf line k ++ echoFrom (press line k) keys)) (keys.foldl press (press line k))
    rw [feed_append]
    refine looks_keys he hw hf hn keys (press line k) _ ?_ (press_printing hp hk) (fun k' hk' => ha k' (.tail _ hk'))
      (fun ks hks => hlen (k :: ks) (by obtain ⟨r, rfl⟩ := hks; exact ⟨r, rfl⟩))
    cases k with
    | char b =>
      refine looks_char he hw hf h (hk b rfl) ?_
      simp only [press, List.length_append, List.length_singleton] at h1
      omega
    | erase =>
      simp only [echoOf, press, withoutLast_ascii hp]
      by_cases hne : line = []
      · subst hne
        exact h
      · rw [if_neg hne]
        exact looks_rubOut he hw hf h hne (by omega)
    | kill => exact looks_kill he hw hf line.length line u rfl (by omega) h

/-- Keys on a terminal, and the line typed without corrections -/
theorem keys_off {t : Term} (he : t.esc = .ground) (hw : t.wrap = false) (hf : t.faint = false) {keys : List Stroke}
    {n : Nat} (ha : Ascii keys) (hin : Within n keys) (hn : t.col + n < t.width) :
    Off t.row (t.col + (edited keys).length) (t.feed (edited keys)) (t.feed (echoed keys)) ∧
      (∀ b ∈ edited keys, Printing b) ∧
      ∀ r c, (t.feed (echoed keys)).cell r c = (t.feed (edited keys)).cell r c ∨
        r = t.row ∧ t.col + (edited keys).length ≤ c ∧ (t.feed (echoed keys)).cell r c = .blank := by
  have hstart : Looks t t [] := by
    refine ⟨by simp, fun r c => .inl ?_⟩
    unfold written
    rw [if_neg]
    simp only [List.length_nil]
    omega
  have hl := looks_keys he hw hf hn keys [] t hstart (by simp) ha hin
  have hpr : ∀ (keys : List Stroke) (line : Bytes), (∀ b ∈ line, Printing b) → Ascii keys →
      ∀ b ∈ keys.foldl press line, Printing b := by
    intro keys
    induction keys with
    | nil => intro line h _; exact h
    | cons k ks ih =>
      intro line h ha
      exact ih _ (press_printing h (ha k List.mem_cons_self)) fun k' hk' => ha k' (.tail _ hk')
  have hp := hpr keys [] (by simp) ha
  have hlen : (edited keys).length ≤ n := hin keys (List.prefix_refl _)
  obtain ⟨e, hc⟩ := hl
  have es : t.feed (edited keys) = _ := feed_text (edited keys) t he hw hp (by omega)
  rw [hf] at es
  change (t.feed (echoed keys)) = { t with cell := (t.feed (echoed keys)).cell, col := t.col + (edited keys).length } at e
  have hcells : ∀ r c, (t.feed (echoed keys)).cell r c = (t.feed (edited keys)).cell r c ∨
      r = t.row ∧ t.col + (edited keys).length ≤ c ∧ (t.feed (echoed keys)).cell r c = .blank := by
    rw [es]
    exact hc
  refine ⟨⟨?_, fun r c hn => ?_⟩, hp, hcells⟩
  · rw [es]
    refine e.trans ?_
    simp [hf]
  · rcases hcells r c with h | ⟨h1, h2, -⟩
    · exact h
    · exact absurd ⟨h1, h2⟩ hn

theorem rubOut_not_lf : ∀ b ∈ rubOut, b ≠ 0x0A := by decide

theorem echoed_not_lf : ∀ (keys : List Stroke) (line : Bytes), Ascii keys → ∀ b ∈ echoFrom line keys, b ≠ 0x0A
  | [], _, _, b, hb => absurd hb (by simp [echoFrom])
  | k :: keys, line, ha, b, hb => by
    simp only [echoFrom, List.mem_append] at hb
    rcases hb with hb | hb
    · cases k with
      | char c =>
        simp only [echoOf, List.mem_singleton] at hb
        subst hb
        rintro rfl
        exact absurd (ha _ List.mem_cons_self _ rfl).1 (by decide)
      | erase =>
        simp only [echoOf] at hb
        split at hb
        · simp at hb
        · exact rubOut_not_lf b hb
      | kill =>
        simp only [echoOf, List.mem_flatten] at hb
        obtain ⟨l, hl, hb⟩ := hb
        rw [(List.mem_replicate.1 hl).2] at hb
        exact rubOut_not_lf b hb
    · exact echoed_not_lf keys _ (fun k' hk' => ha k' (.tail _ hk')) b hb

theorem esc_previous (t : Term) : (t.feed previousLine).esc = .ground := by
  have e : previousLine = [0x1B, 0x5B, 0x46] := rfl
  rw [e]
  have hput : ∀ (u : Term) (b : Byte), (u.put b).esc = u.esc := by
    intro u b
    have hl : u.lineFeed.esc = u.esc := by
      unfold Term.lineFeed
      split <;> rfl
    unfold Term.put
    dsimp only
    by_cases hw : u.wrap = true
    · simp only [hw, if_true]
      split <;> exact hl
    · simp only [Bool.eq_false_iff.2 hw, Bool.false_eq_true, if_false]
      split <;> rfl
  have h1 : ∀ u : Term, u.esc = .ground → (u.feed [0x5B, 0x46]).esc = .ground := by
    intro u hu
    simp [Term.feed, Term.step, hu, hput]
  show ((t.step 0x1B).feed [0x5B, 0x46]).esc = .ground
  cases he : t.esc with
  | ground => simp [Term.feed, Term.step, he]
  | escape => exact h1 _ (by simp [Term.step, he])
  | csi ps => exact h1 _ (by simp [Term.step, he])

theorem simpleRound_erases (L : WordList) (n : Nat) (words : List Bytes) (line : Bytes) :
    ∃ x, (simpleRound L n words line).1 = x ++ (previousLine ++ eraseLineForward) := by
  unfold simpleRound
  dsimp only
  exact ⟨_, rfl⟩

/-- A line with corrections leaves what it would leave without. -/
theorem typed_round {L : WordList} (hL : L.Lawful) {h t : Term} (r : Ready h) (w : Pre h t []) (n : Nat)
    (words : List Bytes) {keys : List Stroke} {m : Nat} (ha : Ascii keys) (hin : Within m keys)
    (hlt : (promptText words.length).length + m < h.width) :
    t.feed (cooked (simplePrompt words ++ (echoed keys ++ str "\n") ++ (simpleRound L n words (edited keys)).1)) =
    t.feed (cooked (simplePrompt words ++ (edited keys ++ str "\n") ++ (simpleRound L n words (edited keys)).1)) := by
  have w1 := w.prompted (i := words.length) (by omega)
  have hcol := w1.col
  obtain ⟨off, hp, -⟩ := keys_off w1.esc w1.wrap w1.faint ha hin (by rw [hcol, w1.width]; exact hlt)
  have hlen : (edited keys).length ≤ m := hin keys (List.prefix_refl _)
  obtain ⟨wait, -⟩ := simple_round hL r w n words (edited keys) hp (by rw [List.length_append]; omega)
  obtain ⟨x, hx⟩ := simpleRound_erases L n words (edited keys)
  rw [hx] at wait ⊢
  have e : ∀ ks : Bytes, (∀ b ∈ ks, b ≠ 0x0A) →
      t.feed (cooked (simplePrompt words ++ (ks ++ str "\n") ++ (x ++ (previousLine ++ eraseLineForward)))) =
      ((((t.feed (bold (cyan (promptText words.length)))).feed ks).feed (cooked (str "\n") ++ cooked x)).feed
        previousLine).feed eraseLineForward := by
    intro ks hks
    unfold simplePrompt
    simp only [cooked_append, feed_append]
    rw [cooked_boldcyan (printing_promptText _), cooked_id hks, show cooked previousLine = previousLine by decide,
      cooked_erase]
  rw [e _ (printing_not_lf hp)] at wait
  rw [e _ (printing_not_lf hp), e (echoed keys) (echoed_not_lf keys [] ha)]
  have off2 := off_feed previousLine (off_feed (cooked (str "\n") ++ cooked x) off)
  have hesc := esc_previous (((t.feed (bold (cyan (promptText words.length)))).feed (edited keys)).feed
    (cooked (str "\n") ++ cooked x))
  generalize ((((t.feed (bold (cyan (promptText words.length)))).feed (edited keys)).feed
    (cooked (str "\n") ++ cooked x)).feed previousLine) = s at off2 hesc wait ⊢
  have hr := wait.row
  have hc := wait.col
  rw [feed_erase hesc] at hr hc
  refine off_erased off2 (hr.trans w1.row.symm) ?_ hesc
  have : s.col = 0 := hc
  omega

/-- All lines -/
theorem typed_lines {L : WordList} (hL : L.Lawful) {h : Term} (r : Ready h) : ∀ (typed : List (List Stroke)) (t : Term)
    (n : Nat) (words : List Bytes), Pre h t [] → words.length < n → n ≤ 16 → (∀ keys ∈ typed, Ascii keys) →
    (∀ keys ∈ typed, ∃ m, Within m keys ∧ m + 11 < h.width) →
    t.feed (cooked (typedShows L n words typed).1) = t.feed (cooked (simpleShows L n words (typed.map edited)).1) ∧
    (typedShows L n words typed).2 = (simpleShows L n words (typed.map edited)).2
  | [], t, n, words, _, _, _, _, _ => ⟨rfl, rfl⟩
  | keys :: typed, t, n, words, w, hlt, h16, ha, hf => by
    obtain ⟨m, hm, hmw⟩ := hf keys (by simp)
    have hl := promptText_length (k := words.length) (by omega)
    have e := typed_round hL r w n words (ha keys (by simp)) hm (by omega)
    obtain ⟨-, hp, -⟩ := keys_off (t := t.feed (bold (cyan (promptText words.length))))
      (w.prompted (i := words.length) (by omega)).esc (w.prompted (i := words.length) (by omega)).wrap
      (w.prompted (i := words.length) (by omega)).faint (ha keys (by simp)) hm
      (by rw [(w.prompted (i := words.length) (by omega)).col, (w.prompted (i := words.length) (by omega)).width]; omega)
    have hlen : (edited keys).length ≤ m := hm keys (List.prefix_refl _)
    obtain ⟨w1, -⟩ := simple_round hL r w n words (edited keys) hp (by rw [List.length_append]; omega)
    have h16' := simpleRound_count (L := L) h16 words (edited keys)
    rw [List.map_cons, simpleShows.eq_2, typedShows.eq_2]
    rcases hr : simpleRound L n words (edited keys) with ⟨out, n1, words1⟩
    rw [hr] at w1 h16' e
    simp only at w1 h16' e ⊢
    by_cases hlt : words1.length < n1
    · rw [if_pos hlt, if_pos hlt]
      simp only
      rw [cooked_append, cooked_append (simplePrompt words ++ (edited keys ++ str "\n") ++ out), feed_append, feed_append, e]
      exact typed_lines hL r typed _ n1 words1 w1.pre hlt h16' (fun k hk => ha k (by simp [hk]))
        (fun k hk => hf k (by simp [hk]))
    · rw [if_neg hlt, if_neg hlt]
      exact ⟨e, rfl⟩

/-! ## What is read -/

/-- Keys that are no control characters -/
theorem deliver_line (keys : List Stroke) (rest : List Pressed) : ∀ line, deliverFrom line (keys.map .key ++ rest) =
    deliverFrom (keys.foldl press line) rest := by
  induction keys with
  | nil => intro line; rfl
  | cons k ks ih => intro line; exact ih (press line k)

theorem read_line : ∀ (line ret : Bytes) (rest : List (Option Byte)), (∀ b ∈ line, 0x20 ≤ b) →
    readPasswordLine ret (line.map some ++ rest) = readPasswordLine (ret ++ line) rest
  | [], ret, rest, _ => by simp
  | b :: line, ret, rest, h => by
    have hb := h b (by simp)
    have h1 : b ≠ 0x08 := by rintro rfl; exact absurd hb (by decide)
    have h2 : b ≠ 0x0A := by rintro rfl; exact absurd hb (by decide)
    have h3 : b ≠ 0x0D := by rintro rfl; exact absurd hb (by decide)
    show readPasswordLine ret (some b :: (line.map some ++ rest)) = _
    rw [readPasswordLine, if_neg h1, if_neg h2, if_neg h3, read_line line _ rest (fun c hc => h c (by simp [hc]))]
    simp

theorem withoutLast_sub (line : Bytes) : ∀ b ∈ withoutLast line, b ∈ line := by
  intro b hb
  unfold withoutLast at hb
  split at hb
  · exact hb
  · rename_i x rest he
    have : b ∈ line.reverse.dropWhile continues := by rw [he]; simp at hb; simp [hb]
    exact List.mem_reverse.1 (List.dropWhile_subset _ this)

theorem edited_sub {P : Byte → Prop} : ∀ (keys : List Stroke) (line : Bytes), (∀ b ∈ line, P b) →
    (∀ k ∈ keys, ∀ b, k = .char b → P b) → ∀ b ∈ keys.foldl press line, P b
  | [], _, h, _ => h
  | k :: keys, line, h, hk => by
    refine edited_sub keys (press line k) ?_ (fun k' hk' => hk k' (.tail _ hk'))
    cases k with
    | char c =>
      intro b hb
      simp only [press, List.mem_append, List.mem_singleton] at hb
      rcases hb with hb | rfl
      · exact h b hb
      · exact hk _ List.mem_cons_self _ rfl
    | erase => exact fun b hb => h b (withoutLast_sub line b hb)
    | kill => intro b hb; simp [press] at hb

end Verif.Proofs
