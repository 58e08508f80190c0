import Verif.Proofs.Scanner
import Verif.Props.Seed
import Verif.Props.Words

/-!
# C107: pieces do not matter, and prompts take no more than their lines

Words and lines are what they are in the whole input, wherever the reads of the operating system divide it. On a terminal,
which gives a line at a time, the prompt for a phrase by lines reads exactly the lines it needs, and the password prompt
behind it gets the next one. `-unsafe-entropy -` takes 16 bytes, so that it shares its line with the prompt that follows.
-/

namespace Verif.Props

open Verif.Model Verif.Model.Cli Verif.Spec Verif.Proofs Verif.Instances

/-- The words that recover and convert find in a file -/
theorem c107_words (input : List Bytes) (ws : List Bytes) :
    (newScanner input).tokens splitWords (input.flatten.length + 1) = ws ↔ WordsIn (beforeEnd input) ws := by
  rw [tokens_eq splits_words _ _ (inv_new input) (before_lt input), words_iff]
  rfl

/-- The lines that the prompt finds -/
theorem c107_lines (input : List Bytes) (ls : List Bytes) :
    (newScanner input).tokens splitLines (input.flatten.length + 1) = ls ↔ LinesIn (beforeEnd input) ls := by
  rw [tokens_eq splits_lines _ _ (inv_new input) (before_lt input), linesIn_iff]
  rfl

/-- On a terminal, the prompt returns with the line that completes the phrase. What is typed behind it is left to those
who read later. -/
theorem c107_prompt {L : WordList} (hL : L.Lawful) (ls : List Bytes) (behind : List Bytes) (words : List Bytes)
    (hls : ∀ l ∈ ls, 0x0A ∉ l ∧ l.length < 65536) (h : ByLines L.word L.toLower (enteredLines ls).flatten (.words words)) :
    ∃ used unused, ls = used ++ unused ∧
      simplePrompted L (enteredLines ls ++ behind) = (.ok words, enteredLines unused ++ behind) ∧
      ByLines L.word L.toLower (enteredLines used).flatten (.words words) ∧
      ∀ fewer, fewer <+: used → fewer ≠ used → ByLines L.word L.toLower (enteredLines fewer).flatten .ended := by
  obtain ⟨k, hk, h1, h2, h3⟩ := simplePrompted_lines L ls behind hls (((c94_lines hL _).2.1 _).2 h)
  refine ⟨ls.take k, ls.drop k, (List.take_append_drop _ _).symm, h1, ((c94_lines hL _).2.1 _).1 h2, ?_⟩
  intro fewer hp hne
  have hl := hp.length_le
  have he : fewer = (ls.take k).take fewer.length := (List.prefix_iff_eq_take.1 hp)
  rw [List.length_take] at hl
  have hlt : fewer.length ≠ k := by
    intro e
    rw [e, List.take_take, Nat.min_self] at he
    exact hne he
  rw [List.take_take, Nat.min_eq_left (by omega)] at he
  rw [he]
  exact (c94_lines hL _).2.2.1 (h3 _ (by omega))

/-- So the password prompt reads the next line: the password is not lost, and no word is taken for one. -/
theorem c107_password {L : WordList} (hL : L.Lawful) (ls rest : List Bytes) (words : List Bytes) (password : Bytes)
    (hls : ∀ l ∈ ls, 0x0A ∉ l ∧ l.length < 65536) (h : ByLines L.word L.toLower (enteredLines ls).flatten (.words words))
    (hmin : ∀ fewer, fewer <+: ls → fewer ≠ ls → ByLines L.word L.toLower (enteredLines fewer).flatten .ended)
    (hp : ∀ b ∈ password, b ≠ 0x08 ∧ b ≠ 0x0A ∧ b ≠ 0x0D) :
    (simplePrompted L (enteredLines (ls ++ [password] ++ rest))).1 = .ok words ∧
    readPasswordLine [] ((simplePrompted L (enteredLines (ls ++ [password] ++ rest))).2.flatten.map some) =
      .password password ((enteredLines rest).flatten.map some) := by
  obtain ⟨used, unused, e, h1, h2, h3⟩ := c107_prompt hL ls (enteredLines ([password] ++ rest)) words hls h
  have hu : used = ls := by
    by_contra hne
    have := hmin used ⟨unused, e.symm⟩ hne
    obtain ⟨r, -, hr⟩ := (c94_lines hL (enteredLines used).flatten).1
    have := (hr _ this).trans (hr _ h2).symm
    cases this
  subst hu
  obtain rfl : unused = [] := by simpa using e
  have hcat : enteredLines (used ++ [password] ++ rest) = enteredLines used ++ enteredLines ([password] ++ rest) := by
    simp [enteredLines]
  rw [hcat, h1]
  refine ⟨rfl, ?_⟩
  have : ((enteredLines [] ++ enteredLines ([password] ++ rest)).flatten.map some : List (Option Byte)) =
      password.map some ++ some 0x0A :: (enteredLines rest).flatten.map some := by simp [enteredLines]
  dsimp only
  rw [this, read_plain password [] _ hp]
  rfl

/-- The seed comes from the first 16 bytes, line feeds included, wherever the reads divide them; what is behind them in the
same line is left to those who read later. With fewer bytes there is no seed. -/
theorem c107_entropy (input : List Bytes) (hin : ∀ p ∈ input, p ≠ []) :
    (∀ seed rest, generateSeed input.flatten = .ok (seed, rest) →
      ∃ e left, readFull 16 16 input = (some e, left) ∧ input.flatten = e ++ rest ∧ e.length = 16 ∧
        seed.bytes = .ok e ∧ left.flatten = rest) ∧
    (input.flatten.length < 16 → (readFull 16 16 input).1 = none ∧ generateSeed input.flatten = .err .randomRead) := by
  obtain ⟨h1, h2⟩ := readFull_eq 16 16 input (le_refl _) hin
  constructor
  · intro seed rest h
    have hlen : 16 ≤ input.flatten.length := by
      by_contra hlt
      rw [c14_generate_seed, if_pos (by omega)] at h
      cases h
    obtain ⟨left, e1, e2, -⟩ := h1 hlen
    have hl : (input.flatten.take 16).length = 16 := by rw [List.length_take]; omega
    obtain ⟨s, hs, hb⟩ := c14_seed_bytes (input.flatten.take 16) (input.flatten.drop 16) hl
    rw [List.take_append_drop, h] at hs
    cases hs
    exact ⟨_, left, e1, (List.take_append_drop _ _).symm, hl, hb, e2⟩
  · intro hlt
    exact ⟨h2 hlt, by rw [c14_generate_seed, if_pos hlt]⟩

/-- The rest of a line longer than 16 bytes is taken for the password by the prompt that follows. -/
theorem c107_entropy_overrun (e more : Bytes) (rest : List Bytes) (he : e.length = 16)
    (hm : ∀ b ∈ more, b ≠ 0x08 ∧ b ≠ 0x0A ∧ b ≠ 0x0D) :
    ∃ left, readFull 16 16 (enteredLines ((e ++ more) :: rest)) = (some e, left) ∧
      readPasswordLine [] (left.flatten.map some) = .password more ((enteredLines rest).flatten.map some) := by
  have hf : (enteredLines ((e ++ more) :: rest)).flatten = e ++ (more ++ 0x0A :: (enteredLines rest).flatten) := by
    simp [enteredLines]
  obtain ⟨left, e1, e2, -⟩ := (readFull_eq 16 16 (enteredLines ((e ++ more) :: rest)) (le_refl _) (by simp [enteredLines])).1
    (by rw [hf, List.length_append]; omega)
  rw [hf, ← he, List.take_left] at e1
  rw [hf, ← he, List.drop_left] at e2
  refine ⟨left, ?_, ?_⟩
  · rw [← he]
    exact e1
  · rw [e2, List.map_append, read_plain more [] _ hm]
    rfl

/-! Examples -/

/-- A file read in three pieces, one of which ends in the middle of an ideographic space -/
example : (newScanner [[0x61, 0xE3, 0x80], [0x80], [0x62, 0x0A]]).tokens splitWords 7 = [[0x61], [0x62]] := by decide +kernel

example : WordsIn [0x61, 0xE3, 0x80, 0x80, 0x62, 0x0A] [[0x61], [0x62]] :=
  (c107_words [[0x61, 0xE3, 0x80], [0x80], [0x62, 0x0A]] _).1 (by decide +kernel)

/-- A carriage return in one piece and its line feed in the next; nothing is read behind the end of the input. -/
example : (newScanner [str "one\r", str "\ntwo", [], str "three"]).tokens splitLines 14 = [str "one", str "two"] := by
  decide +kernel

example : LinesIn (str "one\r\ntwo") [str "one", str "two"] :=
  (c107_lines [str "one\r", str "\ntwo", [], str "three"] _).1 (by decide +kernel)

/-- A line that is no word, the 14 words, the password twice as much as needed -/
example :
    let ls := [str "xyz"] ++ List.replicate 14 (toyWord 5)
    ByLines toyWordList.word toyWordList.toLower (enteredLines ls).flatten (.words (List.replicate 14 (toyWord 5))) ∧
    simplePrompted toyWordList (enteredLines (ls ++ [str "secret", str "more"])) =
      (.ok (List.replicate 14 (toyWord 5)), enteredLines [str "secret", str "more"]) :=
  ⟨((c94_lines toyWordList_lawful _).2.1 _).1 (by decide +kernel), by decide +kernel⟩

/-- The password prompt behind them -/
example :
    let ls := [str "xyz"] ++ List.replicate 14 (toyWord 5)
    readPasswordLine [] ((simplePrompted toyWordList (enteredLines (ls ++ [str "secret"] ++ [str "more"]))).2.flatten.map some) =
      .password (str "secret") ((enteredLines [str "more"]).flatten.map some) := by
  refine (c107_password toyWordList_lawful _ [str "more"] (List.replicate 14 (toyWord 5)) (str "secret") (by decide +kernel)
    (((c94_lines toyWordList_lawful _).2.1 _).1 (by decide +kernel)) ?_ (by decide)).2
  intro fewer hp hne
  have hl := hp.length_le
  have he := List.prefix_iff_eq_take.1 hp
  have hlt : fewer.length < 15 := by
    rcases Nat.lt_or_ge fewer.length 15 with h | h
    · exact h
    · exact absurd (hp.eq_of_length_le h) hne
  rw [he]
  exact (c94_lines toyWordList_lawful _).2.2.1 ((by decide +kernel : ∀ j < 15, userInputMnemonicSimple toyWordList
    (enteredLines (([str "xyz"] ++ List.replicate 14 (toyWord 5)).take j)).flatten = .err .stdinRead) _ hlt)

/-- From a pipe, all is read at once, and what is behind the words is gone. -/
example : simplePrompted toyWordList [(enteredLines (List.replicate 14 (toyWord 5) ++ [str "secret"])).flatten] =
    (.ok (List.replicate 14 (toyWord 5)), []) := by decide +kernel

/-- Short lines: their line feeds are entropy too. -/
example : readFull 16 16 (enteredLines [str "four", str "fives", str "sixty", str "x"]) =
    (some (str "four\nfives\nsixty"), [str "\n", str "x\n"]) := by decide +kernel

/-- Somebody types 22 characters, and the prompt has got its password already. -/
example : ∃ left, readFull 16 16 (enteredLines [str "0123456789abcdef" ++ str "secret"]) =
      (some (str "0123456789abcdef"), left) ∧
    readPasswordLine [] (left.flatten.map some) = .password (str "secret") [] :=
  c107_entropy_overrun (str "0123456789abcdef") (str "secret") [] (by decide) (by decide)

end Verif.Props
