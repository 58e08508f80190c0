import Verif.Proofs.CliSimple
import Verif.Instances

/-!
# Entering a phrase (C50-C52)
-/

namespace Verif.Props

open Verif.Model Verif.Model.Cli Verif.Proofs Verif.Spec Verif.Instances

/-! ## C50 Simple word entry -/

/-- The prompt returns exactly what its specification says about the lines read. -/
theorem c50_simple {L : WordList} (hL : L.Lawful) (stdin : Bytes) :
    userInputMnemonicSimple L stdin =
      match simpleWanted L.word ((scanLines stdin).map (fun line => L.toLower (trimSpace line))) with
      | none => .err .stdinRead
      | some ws => .ok ws :=
  simpleLoop_spec hL (scanLines stdin) 1

/-- Whatever it returns is a complete phrase, made of lines entered, in order. -/
theorem c50_complete {L : WordList} (hL : L.Lawful) (stdin : Bytes) (ws : List Bytes)
    (h : userInputMnemonicSimple L stdin = .ok ws) :
    Complete L.word ws ∧
      List.Sublist ws ((scanLines stdin).map (fun line => L.toLower (trimSpace line))) := by
  rw [c50_simple hL] at h
  split at h
  · cases h
  · rename_i ws' h'
    cases h
    exact simpleWanted_complete hL h'

/-- A blank or a tab. -/
def Blank (b : Byte) : Prop := b = 32 ∨ b = 9

/-- One line of the simple prompt: a word in any case with blanks around it. -/
structure TypedLine where
  before : Bytes
  typed : Bytes
  after : Bytes

def TypedLine.text (l : TypedLine) : Bytes := l.before ++ l.typed ++ l.after

/-- The line enters the word `w`. -/
def TypedLine.Enters (l : TypedLine) (w : Bytes) : Prop :=
  (∀ b ∈ l.before, Blank b) ∧ (∀ b ∈ l.after, Blank b) ∧ l.typed.map asciiLower = w ∧
    l.text.length < 65536

theorem enters_props {L : WordList} (hL : L.Lawful) {l : TypedLine} {j : Nat} (hj : j < 4096)
    (h : l.Enters (L.word j)) :
    entry L l.text = L.word j ∧ 0x0A ∉ l.text ∧ l.text.length < 65536 ∧
      l.text.getLast? ≠ some 0x0D := by
  obtain ⟨h1, h2, h3, h4⟩ := h
  have hb : ∀ s : Bytes, (∀ b ∈ s, Blank b) → ∀ b ∈ s, isBlank b = true := by
    intro s hs b hb
    rcases hs b hb with rfl | rfl <;> decide
  have hlet : ∀ b ∈ l.typed, isLetter b = true := by
    intro b hb
    refine hL.word_az j hj _ ?_
    rw [← h3]
    exact List.mem_map_of_mem hb
  have hne : l.typed ≠ [] := by
    intro hc
    rw [hc] at h3
    exact hL.word_ne j hj h3.symm
  have hno : ∀ b ∈ l.text, b ≠ 0x0A ∧ b ≠ 0x0D := by
    intro b hmem
    unfold TypedLine.text at hmem
    simp only [List.mem_append] at hmem
    rcases hmem with (hm | hm) | hm
    · rcases h1 b hm with rfl | rfl <;> decide
    · have := letter_bounds b (hlet b hm)
      constructor <;> · rintro rfl; revert this; decide
    · rcases h2 b hm with rfl | rfl <;> decide
  refine ⟨?_, fun hc => (hno _ hc).1 rfl, h4, fun hc => ?_⟩
  · unfold entry TypedLine.text
    rw [trimSpace_word _ _ _ (hb _ h1) (hb _ h2) hlet hne, hL.lower_ascii _ ?_, h3]
    intro b hm
    have := letter_bounds b (hlet b hm)
    rw [UInt8.lt_iff_toNat_lt]
    show b.toNat < 128
    omega
  · exact (hno _ (List.mem_of_getLast? hc)).2 rfl

/-- Entering a complete phrase line by line returns it. -/
theorem c50_typed {L : WordList} (hL : L.Lawful) (ws : List Bytes) (hc : Complete L.word ws)
    (ls : List TypedLine) (h : List.Forall₂ TypedLine.Enters ls ws) :
    userInputMnemonicSimple L (ls.flatMap (fun l => l.text ++ [10])) = .ok ws := by
  have hprops : List.Forall₂ (fun l w => entry L l.text = w ∧ 0x0A ∉ l.text ∧ l.text.length < 65536 ∧
      l.text.getLast? ≠ some 0x0D) ls ws := by
    have hmem := hc.1
    clear hc
    induction h with
    | nil => exact .nil
    | cons hl _ ih =>
      refine .cons ?_ (ih (fun w hw => hmem w (by simp [hw])))
      obtain ⟨j, hj, rfl⟩ := hmem _ List.mem_cons_self
      exact enters_props hL hj hl
  have hent : (ls.map TypedLine.text).map (entry L) = ws := by
    clear hc h
    induction hprops with
    | nil => rfl
    | cons hl _ ih => simp [hl.1, ih]
  have hscan : scanLines (ls.flatMap (fun l => l.text ++ [10])) = ls.map TypedLine.text := by
    rw [← scanLines_lines (ls.map TypedLine.text) ?_]
    · rw [List.flatMap_map]
    · clear hc h hent
      induction hprops with
      | nil => simp
      | cons hl _ ih =>
        intro l hmem
        rcases List.mem_cons.1 hmem with rfl | hmem
        · exact hl.2
        · exact ih l hmem
  rw [c50_simple hL, hscan]
  change (match simpleWanted L.word ((ls.map TypedLine.text).map (entry L)) with
    | none => (.err .stdinRead : Res (List Bytes))
    | some ws => .ok ws) = _
  rw [hent]
  rw [simpleWanted_of_complete hL hc]

/-! ## C51 Interactive word entry without the left arrow -/

/-- Without the left-arrow byte (68) the prompt fails or returns a complete phrase. -/
theorem c51_no_left_arrow {L : WordList} (hL : L.Lawful) (stdin : Bytes) (h : 68 ∉ stdin) :
    userInputMnemonic L stdin = .err .aborted ∨ userInputMnemonic L stdin = .err .stdinRead ∨
      ∃ ws, userInputMnemonic L stdin = .ok ws ∧ Complete L.word ws := by
  obtain ⟨used, h1, h2⟩ := keyLoop_inv hL stdin 0 .start (keyInv_start L)
  have hk : used.count 68 = 0 := by
    rw [List.count_eq_zero]
    intro hc
    exact h (by rw [h1]; simp [hc])
  unfold userInputMnemonic
  rcases h2 with h2 | h2 | ⟨ws, h2, _, _, h3⟩
  · exact .inr (.inl h2)
  · exact .inl h2
  · exact .inr (.inr ⟨ws, h2, h3 (by omega)⟩)

/-- Typing each word of a complete phrase followed by enter or space returns the phrase. -/
theorem c51_typed {L : WordList} (hL : L.Lawful) (entries : List (Bytes × Byte)) (rest : Bytes)
    (he : ∀ e ∈ entries, e.2 = 13 ∨ e.2 = 32) (hc : Complete L.word (entries.map Prod.fst)) :
    userInputMnemonic L (entries.flatMap (fun e => e.1 ++ [e.2]) ++ rest) =
      .ok (entries.map Prod.fst) := by
  have := keyLoop_phrase hL 1 [] entries rest he hc
  unfold userInputMnemonic
  exact congrArg Prod.fst this

/-! ## C52 The left arrow never removes a word -/

/-- However the prompt is used, it returns as many words too many as the left arrow was pressed:
`n` is the number of words asked for by one of the words entered. -/
theorem c52_extra_words {L : WordList} (hL : L.Lawful) (stdin rest : Bytes) (ws : List Bytes)
    (h : keyLoop L .start stdin = (.ok ws, rest)) :
    ∃ used n, stdin = used ++ rest ∧ (∀ w ∈ ws, IsWord L.word w) ∧
      (∃ w ∈ ws, Needs L.word w n) ∧ ws.length = n + used.count 68 := by
  obtain ⟨used, h1, h2⟩ := keyLoop_inv hL stdin 0 .start (keyInv_start L)
  rw [h] at h1 h2
  dsimp only at h1 h2
  rcases h2 with h2 | h2 | ⟨ws', h2, h3, ⟨n, h4, _, h5⟩, _⟩
  · cases h2
  · cases h2
  · cases h2
    exact ⟨used, n, h1, h3, h4, by omega⟩

/-- So the phrase is rejected, unless the arrow was pressed exactly twice, some word asks for 14
words and the first one for 16. -/
theorem c52_rejected {L : WordList} (hL : L.Lawful) (used rest : Bytes) (ws : List Bytes)
    (h : keyLoop L .start (used ++ rest) = (.ok ws, rest)) (hk : 0 < used.count 68)
    (dm : DecodedMnemonic) (hd : decodeMnemonic L ws = .ok dm) :
    used.count 68 = 2 ∧ ws.length = 16 ∧ dm.version = 1 ∧ ∃ w ∈ ws, Needs L.word w 14 := by
  obtain ⟨used', n, h1, h2, ⟨w, hw, hn⟩, h4⟩ := c52_extra_words hL _ _ _ h
  have : used = used' := List.append_cancel_right h1
  subst this
  have hn' : n = 14 ∨ n = 16 := by cases hn <;> simp
  rcases decode_size hL hd with ⟨hv, hl⟩ | ⟨hv, hl⟩
  · omega
  · rcases hn' with rfl | rfl
    · exact ⟨by omega, hl, hv, w, hw, hn⟩
    · omega

/-- Revising the first word: a word, the left arrow, then a complete phrase gives one word too many,
which no decoder accepts. -/
theorem c52_revise {L : WordList} (hL : L.Lawful) (w : Bytes) (n : Nat) (hw : IsWord L.word w)
    (hn : Needs L.word w n) (ws : List Bytes) (hc : Complete L.word ws) :
    userInputMnemonic L (w ++ [13, 68] ++ ws.flatMap (fun w => w ++ [13])) = .ok (w :: ws) ∧
      ∀ dm, decodeMnemonic L (w :: ws) ≠ .ok dm := by
  constructor
  · have h := keyLoop_revise hL w n hw hn (ws.map (fun w => (w, 13))) []
      (by simp) (by simpa [Function.comp_def] using hc)
    have hk : keysFor (ws.map (fun w => (w, 13))) = ws.flatMap (fun w => w ++ [13]) := by
      simp [keysFor, List.flatMap_map]
    rw [hk, List.append_nil] at h
    unfold userInputMnemonic
    rw [h]
    simp [Function.comp_def]
  · intro dm hd
    obtain ⟨_, w', rest, _, hn'⟩ := hc
    have : ws.length = 14 ∨ ws.length = 16 := by
      generalize ws.length = m at hn'
      cases hn' <;> simp
    rcases decode_size hL hd with ⟨_, h⟩ | ⟨_, h⟩ <;> simp only [List.length_cons] at h <;> omega

/-! ## Examples -/

/-- Fourteen words of version 0. -/
theorem toy_complete : Complete toyWordList.word (List.replicate 14 (toyWord 5)) := by
  refine ⟨?_, toyWord 5, List.replicate 13 (toyWord 5), rfl, ?_⟩
  · intro w hw
    rw [List.eq_of_mem_replicate hw]
    exact ⟨5, by norm_num, rfl⟩
  · rw [List.length_replicate]
    exact .plaintext 5 (by norm_num)

example := c51_typed toyWordList_lawful ((List.replicate 14 (toyWord 5)).map (fun w => (w, 32))) []
  (by simp) (by simpa [Function.comp_def] using toy_complete)

example : userInputMnemonic toyWordList ((List.replicate 14 (toyWord 5 ++ [13])).flatten) =
    .ok (List.replicate 14 (toyWord 5)) := by decide +kernel

/-- ctrl-C; the end of the input; a word of unknown version is refused. -/
example : userInputMnemonic toyWordList (toyWord 5 ++ [13, 3]) = .err .aborted ∧
    userInputMnemonic toyWordList (toyWord 5) = .err .stdinRead ∧
    userInputMnemonic toyWordList ((List.replicate 14 (toyWord 512 ++ [13])).flatten) =
      .err .stdinRead := by decide +kernel

example := c52_revise toyWordList_lawful (toyWord 256) 16 ⟨256, by norm_num, rfl⟩
  (.encrypted 256 (by norm_num)) _ toy_complete

/-- The exceptional case of `c52_rejected` can occur: sixteen words after two arrows. -/
example : ∃ ws, keyLoop toyWordList .start (toyWord 256 ++ [13, 68, 68] ++
      ((List.replicate 15 (toyWord 5 ++ [13])).flatten)) = (.ok ws, []) ∧ ws.length = 16 := by
  refine ⟨toyWord 256 :: List.replicate 15 (toyWord 5), by decide +kernel, by simp⟩

/-- Blanks, capitals, an unknown word and a word of unknown version. -/
example : userInputMnemonicSimple toyWordList (toyWord 512 ++ str "\n  AAF\t\nxyz\n" ++
      ((List.replicate 13 (toyWord 5 ++ [10])).flatten)) =
    .ok (List.replicate 14 (toyWord 5)) := by decide +kernel

example := c50_typed toyWordList_lawful _ toy_complete
  (List.replicate 14 ⟨[32, 9], str "AaF", [32]⟩)
  (by
    rw [List.forall₂_iff_get]
    refine ⟨by simp, ?_⟩
    intro i h1 h2
    simp only [List.get_eq_getElem, List.getElem_replicate]
    refine ⟨?_, ?_, by decide, by decide⟩ <;> · intro b hb; simp at hb; simp [Blank, hb])

end Verif.Props
