import Verif.Proofs.Page
import Verif.Spec.PhraseScreen
import Verif.Spec.Prompt
import Verif.Props.Layout

/-! # The screen on which a phrase was printed -/

namespace Verif.Proofs

open Verif.Model Verif.Model.Cli Verif.Props Verif.Spec Verif.Spec.Term

theorem formatInt_nat (n : Nat) : formatInt (n : Int) = str (toString n) := rfl

theorem formatInt_succ (n : Nat) : formatInt ((n : Int) + 1) = str (toString (n + 1)) := by
  rw [← formatInt_nat]; rfl

theorem phraseRow_eq (i : Nat) (w : Bytes) : ∃ label, phraseRow i w = label ++ bold (magenta w) ++ str "\n" ∧
    (∀ b ∈ label, Printing b) ∧ numberedRow (i + 1) w = label ++ w := by
  refine ⟨str (toString (i + 1)) ++ str ":" ++ List.replicate (4 - (str (toString (i + 1))).length) 0x20, ?_, ?_, ?_⟩
  · unfold phraseRow
    simp only [formatInt_succ]
  · refine printing_append (printing_append ?_ (by decide)) ?_
    · rw [← formatInt_succ]; exact printing_formatInt _
    · intro b hb
      rw [List.eq_of_mem_replicate hb]
      decide
  · unfold numberedRow
    have e : str ":" = [0x3A] := by decide
    rw [e]
    simp only [List.length_append, List.length_singleton]
    congr 3
    omega

theorem cooked_boldmagenta {m : Bytes} (h : ∀ b ∈ m, Printing b) : cooked (bold (magenta m)) = bold (magenta m) := by
  unfold bold magenta
  simp only [cooked_append, cooked_id (printing_not_lf h)]
  congr 1

/-- One row -/
theorem row_shown {t : Term} (f : Fresh t) (i : Nat) {w : Bytes} (hw : ∀ b ∈ w, Printing b)
    (hlt : (numberedRow (i + 1) w).length < t.width) :
    let u := t.feed (cooked (phraseRow i w))
    Fresh u ∧ u.row = t.row + 1 ∧ u.width = t.width ∧ Shows u t.row (plain (numberedRow (i + 1) w)) ∧
      ∀ r c, r < t.row → u.cell r c = t.cell r c := by
  obtain ⟨label, e, hp, hn⟩ := phraseRow_eq i w
  rw [hn] at hlt ⊢
  rw [List.length_append] at hlt
  dsimp only
  rw [e, cooked_append, cooked_append, cooked_id (printing_not_lf hp), cooked_boldmagenta hw, feed_append, feed_append]
  have w1 := f.written.text hp (by simp only [List.length_nil]; omega)
  have w2 := w1.boldMagenta hw (by simp [plain]; omega)
  have := w2.end f
  rw [List.nil_append, show plain label ++ plain w = plain (label ++ w) by simp [plain]] at this
  exact this

/-- The rows of a phrase from the word with index i on -/
theorem rows_shown : ∀ (words : List Bytes) (i : Nat) {t : Term}, Fresh t → (∀ w ∈ words, ∀ b ∈ w, Printing b) →
    (∀ j (hj : j < words.length), (numberedRow (i + j + 1) words[j]).length < t.width) →
    let u := t.feed (cooked (phraseRows i words).flatten)
    Fresh u ∧ u.row = t.row + words.length ∧ u.width = t.width ∧
      (∀ j (hj : j < words.length), Shows u (t.row + j) (plain (numberedRow (i + j + 1) words[j]))) ∧
      ∀ r c, r < t.row → u.cell r c = t.cell r c
  | [], i, t, f, _, _ => ⟨f, rfl, rfl, fun _ hj => absurd hj (by simp), fun _ _ _ => rfl⟩
  | w :: words, i, t, f, hp, hlt => by
    dsimp only
    have h0 : (phraseRows i (w :: words)).flatten = phraseRow i w ++ (phraseRows (i + 1) words).flatten := rfl
    rw [h0, cooked_append, feed_append]
    obtain ⟨f1, r1, w1, s1, a1⟩ := row_shown f i (hp w (by simp)) (hlt 0 (by simp))
    generalize t.feed (cooked (phraseRow i w)) = v at f1 r1 w1 s1 a1
    obtain ⟨f2, r2, w2, s2, a2⟩ := rows_shown words (i + 1) f1 (fun x hx => hp x (by simp [hx])) (by
      intro j hj
      have := hlt (j + 1) (by simp; omega)
      rw [w1, show i + 1 + j + 1 = i + (j + 1) + 1 by omega]
      simpa using this)
    generalize v.feed (cooked (phraseRows (i + 1) words).flatten) = u at f2 r2 w2 s2 a2
    refine ⟨f2, by rw [r2, r1, List.length_cons]; omega, w2.trans w1, ?_, ?_⟩
    · intro j hj
      cases j with
      | zero =>
        intro c hc
        rw [show t.row + 0 = t.row from rfl, a2 _ _ (by omega)]
        exact s1 c (by rw [w2] at hc; exact hc)
      | succ j =>
        have hj' : j < words.length := by simpa using hj
        have := s2 j hj'
        rw [r1, show t.row + 1 + j = t.row + (j + 1) by omega, show i + 1 + j + 1 = i + (j + 1) + 1 by omega] at this
        exact this
    · intro r c hr
      rw [a2 _ _ (by omega), a1 _ _ hr]

theorem mem_intercalate {sep : Bytes} {b : Byte} : ∀ {ls : List Bytes}, b ∈ List.intercalate sep ls →
    b ∈ sep ∨ ∃ l ∈ ls, b ∈ l
  | [], h => by simp [List.intercalate] at h
  | [l], h => by
    simp [List.intercalate] at h
    exact .inr ⟨l, by simp, h⟩
  | l :: m :: ls, h => by
    rw [List.intercalate_cons_cons] at h
    simp only [List.append_assoc, List.mem_append] at h
    rcases h with h | h | h
    · exact .inr ⟨l, by simp, h⟩
    · exact .inl h
    · rcases mem_intercalate h with h | ⟨x, hx, h⟩
      · exact .inl h
      · exact .inr ⟨x, by simp [hx], h⟩

/-- The notice is made of printing characters and line feeds. -/
theorem notice_text {columns : Nat} (h : 17 ≤ columns) : ∃ out,
    justifyTerminalWidth 19 columns 0 notice = some (.ok out) ∧ ∀ b ∈ out, Printing b ∨ b = 0x0D ∨ b = 0x0A := by
  have ht : IsSpaced notice (split 0x20 notice) := ⟨split_ne _, split_mem _, (intercalate_split _).symm⟩
  have hlen : (split 0x20 notice).length = 19 := by decide +kernel
  have hmax : ∀ w ∈ split 0x20 notice, w.length ≤ 12 := by decide +kernel
  have hpr : ∀ w ∈ split 0x20 notice, ∀ b ∈ w, Printing b ∨ b = 0x0D ∨ b = 0x0A := by
    decide +kernel
  have hdiv : ((columns : Int) * 4).tdiv 5 = ((columns * 4 / 5 : Nat) : Int) := by
    rw [Int.tdiv_eq_ediv_of_nonneg (by omega)]; omega
  obtain ⟨gs, h1, _, _, h4⟩ := c57_layout 0 ((columns * 4 / 5 : Nat) : Int) notice _ ht
    (fun w hw => by have := hmax w hw; omega)
  unfold justifyTerminalWidth
  rw [hdiv]
  refine ⟨_, h4 19 (by omega), ?_⟩
  intro b hb
  rcases mem_intercalate hb with hb | ⟨l, hl, hb⟩
  · exact .inr (.inr (by simpa using hb))
  · obtain ⟨g, hg, rfl⟩ := List.mem_map.1 hl
    unfold lineText at hb
    rw [List.replicate_zero, List.nil_append] at hb
    rcases mem_intercalate hb with hb | ⟨w, hw, hb⟩
    · left
      rw [List.mem_singleton.1 hb]; decide
    · refine hpr w ?_ b hb
      rw [← h1]
      exact List.mem_flatten.2 ⟨g, hg, (List.dropWhile_sublist _).subset hw⟩

/-- What printMnemonic writes -/
def phraseTexts (words : List Bytes) (out : Bytes) : List Bytes :=
  phraseHeader :: phraseRows 0 words ++ [phraseAdvice, out, phraseWarning]

theorem printMnemonicV_ok {env : Env} {out : Bytes}
    (h : justifyTerminalWidth 19 env.columns 0 notice = some (.ok out)) (words : List Bytes) (st : StV) :
    printMnemonicV env words st = (.ok (), { st with
      events := st.events ++ Ev.act (.showPhrase words) :: (phraseTexts words out).map .err }) := by
  unfold printMnemonicV
  rw [h]
  show (Outcome.ok (), StV.mk _ _ _) = (Outcome.ok (), _)
  simp [phraseTexts, lift]

/-- The screen after a phrase was printed -/
theorem phrase_screen {words : List Bytes} {out : Bytes} (hout : ∀ b ∈ out, Printing b ∨ b = 0x0D ∨ b = 0x0A)
    {t : Term} (he : t.esc = .ground) (hf : t.faint = false) (h1 : t.top ≤ t.row) (h2 : t.row < t.top + t.height)
    (hb : BlankBelow t) (hp : ∀ w ∈ words, ∀ b ∈ w, Printing b)
    (hlt : ∀ j (hj : j < words.length), (numberedRow (j + 1) words[j]).length < t.width) :
    let u := t.feed (sent (phraseTexts words out))
    u.esc = .ground ∧ u.width = t.width ∧ (∀ r c, r < t.row → u.cell r c = t.cell r c) ∧
      ∃ row, t.row < row ∧ row + words.length < u.row ∧
        (∀ j (hj : j < words.length), Shows u (row + j) (plain (numberedRow (j + 1) words[j]))) ∧
        Shows u (row + words.length) [] := by
  dsimp only
  have e1 : sent (phraseTexts words out) = cooked (str "\nThis is the mnemonic phrase which can be used to recover the private key:\n") ++
      (cooked (str "\n") ++ (cooked (phraseRows 0 words).flatten ++ (cooked (str "\n") ++
        cooked (str "Save this phrase in a secure place, preferably offline, on paper.\n\n" ++ out ++ phraseWarning)))) := by
    have a : phraseHeader = str "\nThis is the mnemonic phrase which can be used to recover the private key:\n" ++ str "\n" := by
      decide +kernel
    have b : phraseAdvice = str "\n" ++ str "Save this phrase in a secure place, preferably offline, on paper.\n\n" := by
      decide +kernel
    unfold sent phraseTexts
    rw [List.flatten_append, List.flatten_cons, a]
    have c : [phraseAdvice, out, phraseWarning].flatten = str "\n" ++
        (str "Save this phrase in a secure place, preferably offline, on paper.\n\n" ++ out ++ phraseWarning) := by
      rw [b]; simp
    rw [c]
    simp only [cooked_append, List.append_assoc]
  have htail : tame .ground (cooked (str "Save this phrase in a secure place, preferably offline, on paper.\n\n" ++ out ++ phraseWarning)) = true := by
    apply tame_cooked
    refine tame_append _ _ _ (tame_append _ _ _ (by decide +kernel) (tame_text hout)) (by decide +kernel)
  generalize cooked (str "Save this phrase in a secure place, preferably offline, on paper.\n\n" ++ out ++ phraseWarning) = tail at e1 htail
  rw [e1]
  simp only [feed_append]
  -- the header
  have ht0 : ∀ b ∈ cooked (str "\nThis is the mnemonic phrase which can be used to recover the private key:\n"),
      Printing b ∨ b = 0x0D ∨ b = 0x0A := by decide +kernel
  obtain ⟨o0, hf0⟩ := onward_text _ t he h1 h2 ht0
  obtain ⟨g0, -⟩ := gone_tame _ t (by rw [he]; exact tame_text ht0) h1 h2
  generalize t.feed (cooked (str "\nThis is the mnemonic phrase which can be used to recover the private key:\n")) = t0 at o0 hf0 g0
  obtain ⟨f1, r1, w1, a1⟩ := fresh_lf o0.esc (hf0.trans hf) o0.topRow o0.rowTop (g0.below hb)
  generalize t0.feed (cooked (str "\n")) = t1 at f1 r1 w1 a1
  -- the words
  obtain ⟨f2, r2, w2, s2, a2⟩ := rows_shown words 0 f1 hp (by
    intro j hj
    rw [w1, o0.width, Nat.zero_add]
    exact hlt j hj)
  generalize t1.feed (cooked (phraseRows 0 words).flatten) = t2 at f2 r2 w2 s2 a2
  obtain ⟨f3, r3, w3, a3⟩ := fresh_lf f2.esc f2.faint f2.topRow f2.rowTop (fun r c hr => f2.blank r c (by omega))
  generalize t2.feed (cooked (str "\n")) = t3 at f3 r3 w3 a3
  -- the rest
  obtain ⟨g4, e4⟩ := gone_tame tail t3 (by rw [f3.esc]; exact htail) f3.topRow f3.rowTop
  generalize t3.feed tail = t4 at g4 e4
  have hw : t4.width = t.width := by rw [g4.width, w3, w2, w1, o0.width]
  have d0 := o0.down
  have d4 := g4.down
  refine ⟨e4, hw, ?_, t1.row, by omega, by omega, ?_, ?_⟩
  · intro r c hr
    rw [g4.above _ _ (by omega), a3 _ _ (by omega), a2 _ _ (by omega), a1 _ _ (by omega), o0.above _ _ hr]
  · intro j hj c hc
    rw [g4.above _ _ (by omega), a3 _ _ (by omega)]
    have := s2 j hj c (by rw [w2, w1, o0.width, ← hw]; exact hc)
    rw [Nat.zero_add] at this
    exact this
  · intro c _
    rw [g4.above _ _ (by omega), a3 _ _ (by omega), f2.blank _ _ (by omega)]
    rfl

theorem label_length {n : Nat} (h : n < 10 ^ 4) (w : Bytes) : (numberedRow n w).length = 5 + w.length ∧
    (numberedRow n w).drop 5 = w := by
  have hl : (str (toString n)).length ≤ 4 := by
    rw [str_ascii fun c hc => Nat.lt_succ_of_lt (printing_nat n c hc).2, List.length_map, Nat.toString_eq_repr]
    simpa [Nat.repr] using Nat.toDigits_length 10 n 4 (by decide) h
  have e : (str (toString n) ++ [(0x3A : Byte)] ++ List.replicate (5 - (str (toString n) ++ [(0x3A : Byte)]).length) (0x20 : Byte)).length = 5 := by
    simp only [List.length_append, List.length_singleton, List.length_replicate]
    omega
  unfold numberedRow
  dsimp only
  generalize str (toString n) ++ [(0x3A : Byte)] ++ List.replicate (5 - (str (toString n) ++ [(0x3A : Byte)]).length) (0x20 : Byte) = l at e
  rw [List.length_append, e, ← e, List.drop_left]
  exact ⟨rfl, rfl⟩

theorem takeWhile_append_replicate {w : Bytes} (hw : ∀ b ∈ w, b ≠ 0x20) (n : Nat) :
    (w ++ List.replicate n (0x20 : Byte)).takeWhile (fun b => b != 0x20) = w := by
  rw [List.takeWhile_append_of_pos (by simpa using hw)]
  cases n <;> simp [List.replicate_succ]

/-- A word is read off its row. -/
theorem wordAt_row {t : Term} {row n : Nat} {w : Bytes} (h : Shows t row (plain (numberedRow n w))) (hn : n < 10 ^ 4)
    (hw : ∀ b ∈ w, b ≠ 0x20) (hlt : 5 + w.length < t.width) : t.wordAt row = w := by
  obtain ⟨h1, h2⟩ := label_length hn w
  have : (List.range (t.width - 5)).map (fun c => (t.cell row (5 + c)).char) =
      w ++ List.replicate (t.width - 5 - w.length) 0x20 := by
    apply List.ext_getElem
    · simp; omega
    · intro c hc _
      simp only [List.length_map, List.length_range] at hc
      rw [List.getElem_map, List.getElem_range, h (5 + c) (by omega)]
      unfold plain
      by_cases hcw : c < w.length
      · rw [List.getElem_append_left hcw, List.getD_eq_getElem _ _ (by rw [List.length_map, h1]; omega), List.getElem_map]
        have : w[c] = ((numberedRow n w).drop 5)[c]'(by rw [h2]; exact hcw) := by simp only [h2]
        rw [this, List.getElem_drop]
      · rw [List.getElem_append_right (by omega), List.getElem_replicate, List.getD_eq_default _ _ (by rw [List.length_map, h1]; omega)]
        rfl
  unfold wordAt
  rw [this]
  exact takeWhile_append_replicate hw _

end Verif.Proofs
