import Verif.Proofs.Lower
import Verif.Props.Files
import Verif.Props.Phrase
import Verif.Proofs.Words

/-! # How the words can be written (C101) -/

namespace Verif.Props

open Verif.Model Verif.Model.Cli Verif.Spec Verif.Proofs Verif.Instances

/-- The characters that the examples know to have a lower case -/
def plainTable (r : Nat) : Nat :=
  if r = 0x212A then 0x6B else if r = 0x130 then 0x69 else if 0x41 ≤ r ∧ r ≤ 0x5A then r + 0x20 else r

theorem plainTable_table : LowerTable plainTable where
  ascii := by
    intro r h
    unfold plainTable
    rw [if_neg (by omega), if_neg (by omega)]
  kelvin := rfl
  dotted := rfl
  other := by
    intro r h h1 h2
    unfold plainTable
    rw [if_neg h1, if_neg h2, if_neg (by omega)]
    exact h

/-- The word list of the examples, with Go's function -/
def spellingList : WordList := { toyWordList with toLower := goToLower plainTable }

/-- C101. Go's function turns a text into a word of letters a-z exactly if the text spells the word. -/
theorem c101_spelling {lower : Nat → Nat} (hl : LowerTable lower) (t w : Bytes) (hw : ∀ b ∈ w, 0x61 ≤ b ∧ b ≤ 0x7A) :
    goToLower lower t = w ↔ Spells t w :=
  goToLower_spells hl t w (fun b hb => by simpa [isLowerAz] using hw b hb)

/-- "KİD", with the Kelvin sign and the dotted I, is the word "kid". -/
example : goToLower plainTable [0xE2, 0x84, 0xAA, 0xC4, 0xB0, 0x44] = [0x6B, 0x69, 0x64] :=
  (c101_spelling plainTable_table _ _ (by decide)).2 (.kelvin (.dotted (.letter (by unfold sameLetter; decide) .nil)))

/-- "kıd", with the dotless i, is none. -/
example : goToLower plainTable [0x6B, 0xC4, 0xB1, 0x64] ≠ [0x6B, 0x69, 0x64] := by
  rw [ne_eq, c101_spelling plainTable_table _ _ (by decide)]
  intro h
  cases h with
  | letter _ h =>
    cases h with
    | letter h _ => exact absurd h.1 (by decide)

/-- A text spells one word at most. -/
theorem c101_unique (t w w' : Bytes) (hw : ∀ b ∈ w, 0x61 ≤ b ∧ b ≤ 0x7A) (hw' : ∀ b ∈ w', 0x61 ≤ b ∧ b ≤ 0x7A)
    (h : Spells t w) (h' : Spells t w') : w = w' :=
  ((c101_spelling plainTable_table t w hw).2 h).symm.trans ((c101_spelling plainTable_table t w' hw').2 h')

/-- "KID" spells "kid". -/
example (w : Bytes) (hw : ∀ b ∈ w, 0x61 ≤ b ∧ b ≤ 0x7A) (h : Spells [0x4B, 0x49, 0x44] w) : w = [0x6B, 0x69, 0x64] :=
  c101_unique _ _ _ hw (by decide) h (.letter (by unfold sameLetter; decide)
    (.letter (by unfold sameLetter; decide) (.letter (by unfold sameLetter; decide) .nil)))

/-- Go's function meets what is assumed of it everywhere else. -/
theorem c101_lawful {L : WordList} (hL : L.Lawful) (lower : Nat → Nat) :
    ({ L with toLower := goToLower lower } : WordList).Lawful where
  lookup_iff := hL.lookup_iff
  word_ne := hL.word_ne
  word_az := hL.word_az
  word_short := hL.word_short
  lower_ascii := by
    intro w h
    show goToLower lower w = _
    rw [goToLower, if_pos (by simpa using h)]
  suffix_word := hL.suffix_word
  suffix_exact := hL.suffix_exact
  exact_iff := hL.exact_iff

theorem spellingList_lawful : spellingList.Lawful := c101_lawful toyWordList_lawful _

theorem az_word {L : WordList} (hL : L.Lawful) {i : Nat} (h : i < 4096) : ∀ b ∈ L.word i, 0x61 ≤ b ∧ b ≤ 0x7A := by
  intro b hb
  simpa [isLowerAz] using hL.word_az i h b hb

/-- A text is looked up as the word that it spells, and as no word if it spells none. -/
theorem c101_lookup {L : WordList} (hL : L.Lawful) {lower : Nat → Nat} (hl : LowerTable lower)
    (hlow : L.toLower = goToLower lower) (t : Bytes) (i : Nat) :
    L.lookup (L.toLower t) = some i ↔ i < 4096 ∧ Spells t (L.word i) := by
  rw [hL.lookup_iff, hlow]
  refine and_congr_right fun h => ?_
  rw [← c101_spelling hl t _ (az_word hL h), eq_comm]

example : spellingList.lookup (spellingList.toLower [0xE2, 0x84, 0xAA, 0xC4, 0xB0, 0x44]) = some 2691 :=
  (c101_lookup spellingList_lawful plainTable_table rfl _ _).2 ⟨by decide, by
    show Spells _ (toyWord 2691)
    rw [show toyWord 2691 = [0x6B, 0x69, 0x64] by decide]
    exact .kelvin (.dotted (.letter (by unfold sameLetter; decide) .nil))⟩

theorem spelled_words {L : WordList} (hL : L.Lawful) {lower : Nat → Nat} (hl : LowerTable lower)
    (hlow : L.toLower = goToLower lower) : ∀ (ts ws : List Bytes), (∀ w ∈ ws, IsWord L.word w) →
    (ts.map L.toLower = ws ↔ List.Forall₂ Spells ts ws)
  | [], [], _ => by simp
  | [], _ :: _, _ => by simp
  | _ :: _, [], _ => by simp
  | t :: ts, w :: ws, h => by
    obtain ⟨i, hi, e⟩ := h w List.mem_cons_self
    rw [List.map_cons, List.cons.injEq, List.forall₂_cons,
      spelled_words hL hl hlow ts ws (fun w hw => h w (List.mem_cons_of_mem _ hw)), hlow,
      c101_spelling hl t w (by rw [← e]; exact az_word hL hi)]

/-- What the prompts and the reader of word files take for a word -/
theorem c101_entry {L : WordList} (hL : L.Lawful) {lower : Nat → Nat} (hl : LowerTable lower)
    (hlow : L.toLower = goToLower lower) (t w : Bytes) :
    IsWord L.word w ∧ L.toLower t = w ↔ IsWord L.word w ∧ Spells t w := by
  refine and_congr_right fun ⟨i, hi, e⟩ => ?_
  rw [hlow, c101_spelling hl t w (by rw [← e]; exact az_word hL hi)]

example : spellingList.toLower [0xE2, 0x84, 0xAA, 0xC4, 0xB0, 0x44] = [0x6B, 0x69, 0x64] :=
  ((c101_entry spellingList_lawful plainTable_table rfl _ _).2 ⟨⟨2691, by decide, by decide⟩,
    .kelvin (.dotted (.letter (by unfold sameLetter; decide) .nil))⟩).2

theorem group_short (k : Nat) : ∀ (n : Nat) (l : List Bool), ∀ g ∈ groups k n l, g.length ≤ k
  | 0, _, g, h => by simp [groups] at h
  | n + 1, l, g, h => by
    rw [groups, List.mem_cons] at h
    rcases h with rfl | h
    · exact List.length_take_le _ _
    · exact group_short k n _ g h

theorem spells_self : ∀ (w : Bytes), (∀ b ∈ w, 0x61 ≤ b ∧ b ≤ 0x7A) → Spells w w
  | [], _ => .nil
  | b :: w, h => by
    have hb : b < 0x80 := UInt8.lt_of_le_of_lt (h b List.mem_cons_self).2 (by decide)
    exact .letter ⟨hb, hb, .inl rfl⟩ (spells_self w fun b hb => h b (List.mem_cons_of_mem _ hb))

theorem contents_words {c : Contents} (word : Nat → Bytes) : ∀ w ∈ c.words word, IsWord word w := by
  intro w hw
  obtain ⟨i, hi, rfl⟩ := List.mem_map.1 hw
  obtain ⟨g, hg, rfl⟩ := List.mem_map.1 hi
  exact ⟨_, Nat.lt_of_lt_of_le (val_lt g) (Nat.pow_le_pow_right (by decide) (group_short _ _ _ g hg)), rfl⟩

/-- A phrase is accepted exactly if its words spell those of an encoding, and it is read as that encoding. -/
theorem c101_decode {L : WordList} (hL : L.Lawful) {lower : Nat → Nat} (hl : LowerTable lower)
    (hlow : L.toLower = goToLower lower) (ts : List Bytes) (dm : DecodedMnemonic) :
    decodeMnemonic L ts = .ok dm ↔
      ∃ c : Contents, c.Fits ∧ List.Forall₂ Spells ts (c.words L.word) ∧ dm = decodedOf c := by
  constructor
  · intro h
    obtain ⟨c, hc, e, hw⟩ := decode_ok_words' hL h
    exact ⟨c, hc, (spelled_words hL hl hlow ts _ (contents_words _)).1 hw.symm, e⟩
  · rintro ⟨c, hc, hs, rfl⟩
    have hm := (spelled_words hL hl hlow ts _ (contents_words _)).2 hs
    have hself : (c.words L.word).map L.toLower = c.words L.word := by
      refine (spelled_words hL hl hlow _ _ (contents_words _)).2 (List.forall₂_same.2 fun w hw => ?_)
      obtain ⟨i, hi, rfl⟩ := contents_words L.word w hw
      exact spells_self _ (az_word hL hi)
    rw [← decode_words hL hc]
    refine decode_congr hL ?_
    have e : ∀ l : List Bytes, l.map (indexOf L) = (l.map L.toLower).map L.lookup := by simp [indexOf]
    rw [e, e, hm, hself]

/-- Written with the Kelvin sign and the dotted I -/
def fancy : Bytes → Bytes
  | [] => []
  | b :: w => (if b = 0x6B then [0xE2, 0x84, 0xAA] else if b = 0x69 then [0xC4, 0xB0] else [b]) ++ fancy w

theorem fancy_spells : ∀ (w : Bytes), (∀ b ∈ w, 0x61 ≤ b ∧ b ≤ 0x7A) → Spells (fancy w) w
  | [], _ => .nil
  | b :: w, h => by
    have hw := fancy_spells w fun b hb => h b (List.mem_cons_of_mem _ hb)
    have hb : b < 0x80 := UInt8.lt_of_le_of_lt (h b List.mem_cons_self).2 (by decide)
    rw [fancy]
    by_cases h1 : b = 0x6B
    · rw [if_pos h1, h1]; exact .kelvin hw
    · by_cases h2 : b = 0x69
      · rw [if_neg h1, if_pos h2, h2]; exact .dotted hw
      · rw [if_neg h1, if_neg h2]; exact .letter ⟨hb, hb, .inl rfl⟩ hw

/-- Three characters of this phrase can be written so. -/
example : decodeMnemonic spellingList (((Contents.plaintext 0x8A 4).words spellingList.word).map fancy) =
    .ok (decodedOf (.plaintext 0x8A 4)) :=
  (c101_decode spellingList_lawful plainTable_table rfl _ _).2 ⟨.plaintext 0x8A 4, ⟨by norm_num, by norm_num⟩, by
    rw [List.forall₂_map_left_iff, List.forall₂_same]
    intro w hw
    obtain ⟨i, hi, rfl⟩ := contents_words _ w hw
    exact fancy_spells _ (az_word spellingList_lawful hi), rfl⟩

/-- A word file is accepted exactly if the words in it spell a phrase, and that phrase is read. -/
theorem c101_file {L : WordList} (hL : L.Lawful) {lower : Nat → Nat} (hl : LowerTable lower)
    (hlow : L.toLower = goToLower lower) (content : Bytes) (ws : List Bytes) :
    readWordFile L (some content) = .ok ws ↔
      Complete L.word ws ∧ ∃ ts, WordsIn content ts ∧ List.Forall₂ Spells ts ws := by
  rw [c47_reader hL]
  constructor
  · rintro ⟨e, hc⟩
    exact ⟨hc, _, words_iff.2 rfl, (spelled_words hL hl hlow _ _ hc.1).1 e.symm⟩
  · rintro ⟨hc, ts, hw, hs⟩
    rw [words_iff.1 hw]
    exact ⟨((spelled_words hL hl hlow _ _ hc.1).2 hs).symm, hc⟩

/-- Fourteen times "aki", with the Kelvin sign and the dotted I -/
def fancyFile : Bytes := (List.replicate 14 [0x41, 0xE2, 0x84, 0xAA, 0xC4, 0xB0, 0x0A]).flatten

example : readWordFile spellingList (some fancyFile) = .ok (List.replicate 14 [0x61, 0x6B, 0x69]) := by
  set_option maxRecDepth 100000 in decide +kernel

example : ∃ ts, WordsIn fancyFile ts ∧ List.Forall₂ Spells ts (List.replicate 14 [0x61, 0x6B, 0x69]) :=
  ((c101_file spellingList_lawful plainTable_table rfl fancyFile _).1
    (by set_option maxRecDepth 100000 in decide +kernel)).2

end Verif.Props
