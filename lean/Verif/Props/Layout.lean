import Verif.Proofs.CliLayout

/-!
# Layout of help texts (C57)
-/

namespace Verif.Props

open Verif.Model Verif.Model.Cli Verif.Proofs Verif.Spec

/-- The text of a line: an indentation, then the words separated by single spaces. Empty words at its
start are dropped. -/
def lineText (indent : Nat) (g : List Bytes) : Bytes :=
  List.replicate indent 32 ++ List.intercalate [32] (g.dropWhile (fun w => w = []))

/-- If every word is shorter than the width, the loop ends after at most one round per word. The
lines are the words in order, cut into non-empty groups, and none is longer than indent + width. -/
theorem c57_layout (indent : Nat) (width : Int) (text : Bytes) (words : List Bytes)
    (ht : IsSpaced text words) (hfit : ∀ w ∈ words, (w.length : Int) < width) :
    ∃ groups : List (List Bytes), groups.flatten = words ∧ (∀ g ∈ groups, g ≠ []) ∧
      (∀ g ∈ groups, ((lineText indent g).length : Int) ≤ indent + width) ∧
      ∀ steps, words.length ≤ steps →
        justifyWidth steps indent width text =
          some (.ok (List.intercalate [10] (groups.map (lineText indent)))) := by
  obtain ⟨hne, hfree, rfl⟩ := ht
  have hs := split_intercalate words hne hfree
  have hw0 : 0 < width := by
    obtain ⟨w, ws, rfl⟩ := List.exists_cons_of_ne_nil hne
    have := hfit w (by simp)
    omega
  have hM : ∀ w ∈ words, ((List.replicate indent (0x20 : Byte)).length : Int) + w.length + 1 ≤
      indent + width := by
    intro w hw; have := hfit w hw; simp only [List.length_replicate]; omega
  obtain ⟨gs, h1, h2, h3, h4⟩ :=
    justifyLoop_spec (List.replicate indent 0x20) (indent + width) words.length words [] le_rfl hM
  refine ⟨gs, h1, h2, h3, ?_⟩
  intro steps hsteps
  obtain ⟨gs', h1', h2', h3', h4'⟩ :=
    justifyLoop_spec (List.replicate indent 0x20) (indent + width) steps words [] hsteps hM
  have hmono : ∀ (a : Nat) (ws ls r : List Bytes) (b : Nat), a ≤ b →
      justifyLoop (List.replicate indent 0x20) (indent + width) a ls ws = some r →
      justifyLoop (List.replicate indent 0x20) (indent + width) b ls ws = some r := by
    intro a
    induction a with
    | zero => intro ws ls r b _ h; cases ws with
      | nil => simpa [justifyLoop] using h
      | cons => simp [justifyLoop] at h
    | succ a ih => intro ws ls r b hb h; cases ws with
      | nil => simpa [justifyLoop] using h
      | cons w ws =>
        obtain ⟨b', rfl⟩ : ∃ b', b = b' + 1 := ⟨b - 1, by omega⟩
        rw [justifyLoop] at h ⊢
        exact ih _ _ _ _ (by omega) h
  have h5 := hmono _ _ _ _ steps hsteps h4
  unfold justifyWidth
  rw [hs]
  simp only [if_neg (by omega : ¬ ((indent : Int) + width = 0))]
  rw [if_neg, h5]
  · simp only [List.nil_append, Option.map_some, join_eq_intercalate]
    rfl
  · have : 0 ≤ ((List.intercalate [32] words).length : Int).tdiv (indent + width) :=
      Int.tdiv_nonneg (by omega) (by omega)
    omega

/-- A word as long as the width: after any number of rounds the loop is still running, unless the
function panicked first. -/
theorem c57_diverges (indent : Nat) (width : Int) (text : Bytes) (words : List Bytes)
    (ht : IsSpaced text words) (hbad : ∃ w ∈ words, width ≤ (w.length : Int)) (steps : Nat) :
    justifyWidth steps indent width text =
      if indent + width = 0 then some (.panic .divideByZero)
      else if (text.length : Int).tdiv (indent + width) + 1 < 0 then some (.panic .makeSliceCap)
      else none := by
  obtain ⟨hne, hfree, rfl⟩ := ht
  have hs := split_intercalate words hne hfree
  have := justifyLoop_none (List.replicate indent 0x20) (indent + width) steps words [] (by
    obtain ⟨w, hw, hl⟩ := hbad
    exact ⟨w, hw, by simp only [List.length_replicate]; omega⟩)
  unfold justifyWidth
  rw [hs]
  simp only [this, Option.map_none]

/-- So the function returns a text exactly if every word is shorter than the width. -/
theorem c57_terminates_iff (indent : Nat) (width : Int) (text : Bytes) (words : List Bytes)
    (ht : IsSpaced text words) :
    (∃ steps out, justifyWidth steps indent width text = some (.ok out)) ↔
      ∀ w ∈ words, (w.length : Int) < width := by
  constructor
  · rintro ⟨steps, out, h⟩ w hw
    by_contra hc
    rw [c57_diverges indent width text words ht ⟨w, hw, by omega⟩ steps] at h
    split at h
    · cases h
    · split at h <;> cases h
  · intro h
    obtain ⟨gs, _, _, _, h⟩ := c57_layout indent width text words ht h
    exact ⟨_, _, h _ le_rfl⟩

/-- Every text is the spaced list of its words. -/
theorem c57_every_text (text : Bytes) : ∃ words, IsSpaced text words :=
  ⟨_, split_ne text, split_mem text, (intercalate_split text).symm⟩

/-- The notice printed after every new phrase (generate.go:190-191). -/
def phraseNotice : Bytes :=
  str ("Once you have saved it, use the 'mnemonikey recover' command " ++
    "to verify that you have saved the phrase correctly.\n\n")

/-- On terminals narrower than 17 columns `generate` and `convert` never get past the notice; at zero
and one columns they panic. -/
theorem c57_phrase_notice (termWidth : Nat) :
    (17 ≤ termWidth → ∃ out, ∀ steps, 19 ≤ steps →
      justifyTerminalWidth steps termWidth 0 phraseNotice = some (.ok out)) ∧
    (2 ≤ termWidth → termWidth < 17 → ∀ steps,
      justifyTerminalWidth steps termWidth 0 phraseNotice = none) ∧
    (termWidth < 2 → ∀ steps,
      justifyTerminalWidth steps termWidth 0 phraseNotice = some (.panic .divideByZero)) := by
  have ht : IsSpaced phraseNotice (split 0x20 phraseNotice) :=
    ⟨split_ne _, split_mem _, (intercalate_split _).symm⟩
  have hlen : (split 0x20 phraseNotice).length = 19 := by decide +kernel
  have hmax : ∀ w ∈ split 0x20 phraseNotice, w.length ≤ 12 := by decide +kernel
  have hlong : ∃ w ∈ split 0x20 phraseNotice, 12 ≤ w.length := by decide +kernel
  have hdiv : ((termWidth : Int) * 4).tdiv 5 = ((termWidth * 4 / 5 : Nat) : Int) := by
    rw [Int.tdiv_eq_ediv_of_nonneg (by omega)]; omega
  unfold justifyTerminalWidth
  rw [hdiv]
  refine ⟨fun h => ?_, fun h1 h2 steps => ?_, fun h steps => ?_⟩
  · obtain ⟨gs, _, _, _, h⟩ := c57_layout 0 ((termWidth * 4 / 5 : Nat) : Int) phraseNotice _ ht
      (fun w hw => by have := hmax w hw; omega)
    exact ⟨_, fun steps hs => h steps (by omega)⟩
  · rw [c57_diverges 0 _ _ _ ht (by
      obtain ⟨w, hw, hl⟩ := hlong; exact ⟨w, hw, by omega⟩), if_neg (by omega), if_neg]
    have := Int.tdiv_nonneg (a := (phraseNotice.length : Int))
      (b := ((0 : Nat) : Int) + ((termWidth * 4 / 5 : Nat) : Int)) (by omega) (by omega)
    omega
  · rw [c57_diverges 0 _ _ _ ht (by
      obtain ⟨w, hw, hl⟩ := hlong; exact ⟨w, hw, by omega⟩), if_pos (by omega)]

theorem spaced_abc : IsSpaced (str "a bc  def") [str "a", str "bc", [], str "def"] := by
  refine ⟨by simp, ?_, by decide⟩
  intro e he
  simp only [List.mem_cons, List.not_mem_nil, or_false] at he
  rcases he with rfl | rfl | rfl | rfl <;> decide

example : justifyWidth 4 2 4 (str "a bc  def") = some (.ok (str "  a bc\n  def")) := by
  decide +kernel

example := c57_layout 2 4 _ _ spaced_abc (by
  intro w hw
  simp only [List.mem_cons, List.not_mem_nil, or_false] at hw
  rcases hw with rfl | rfl | rfl | rfl <;> decide)

example := c57_diverges 2 3 _ _ spaced_abc ⟨str "def", by simp, by decide⟩

end Verif.Props
