import Verif.Model.Cli.Screen
import Verif.Spec.Terminal
import Verif.Spec.Prompt

/-! # The screen of the interactive prompt -/

namespace Verif.Proofs

open Verif.Model Verif.Model.Cli Verif.Spec
open Verif.Spec.Term (Starts)

theorem typeKey_snd (w : Bytes) (c : Byte) :
    (typeKey w c).2 = if c = 127 then (if 0x61 ≤ c ∧ c ≤ 0x7A then w ++ [c] else w).dropLast
      else (if 0x61 ≤ c ∧ c ≤ 0x7A then w ++ [c] else w) := by
  unfold typeKey
  by_cases hl : 0x61 ≤ c ∧ c ≤ 0x7A
  · have : c ≠ 127 := by rintro rfl; revert hl; decide
    simp [hl, this]
  · by_cases h : c = 127
    · subst h
      cases w <;> simp
    · simp [hl, h]

/-- The step of a round is that of `keyStep`. -/
theorem keyRound_snd (L : WordList) (s : WordState) (c : Byte) : (keyRound L s c).2 = keyStep L s c := by
  unfold keyRound keyStep
  by_cases h3 : c = 3 ∨ c = 4
  · simp [h3]
  rw [if_neg h3, if_neg h3]
  dsimp only
  rw [← typeKey_snd]
  generalize typeKey s.wordInput c = p
  obtain ⟨out, w⟩ := p
  dsimp only
  by_cases h68 : c = 68
  · rw [if_pos h68, if_pos h68]
  rw [if_neg h68, if_neg h68]
  cases hs : L.suffixes w with
  | nil =>
    by_cases h9 : c = 9
    · subst h9; simp
    · by_cases h13 : c = 13 ∨ c = 32
      · simp [h9, h13]
      · simp [h9, h13]
  | cons x r =>
    by_cases h9 : c = 9
    · subst h9; simp
    · by_cases h13 : c = 13 ∨ c = 32
      · simp only [h9, h13, decide_false, if_true]
        by_cases hi : s.i = 0
        · simp only [hi, if_true]
          cases parseMnemonicVersion L (w ++ x) <;> rfl
        · simp only [hi, if_false]
      · simp [h9, h13]


/-! ## The control sequences -/

theorem feed_append (t : Term) (a b : Bytes) : t.feed (a ++ b) = (t.feed a).feed b := by
  simp [Term.feed, List.foldl_append]

theorem feed_nil (t : Term) : t.feed [] = t := rfl

theorem str_cr : str "\r" = [0x0D] := by decide

theorem str_crlf : str "\r\n" = [0x0D, 0x0A] := by decide

theorem str_lf : str "\n" = [0x0A] := by decide

theorem feed_cr {t : Term} (h : t.esc = .ground) : t.feed [0x0D] = { t with col := 0, wrap := false } := by
  simp [Term.feed, Term.step, h]

theorem feed_lf {t : Term} (h : t.esc = .ground) : t.feed [0x0A] = t.lineFeed := by
  simp [Term.feed, Term.step, h]

theorem feed_backspace {t : Term} (h : t.esc = .ground) :
    t.feed backspaceCode = { t with col := t.col - 1, wrap := false } := by
  simp [Term.feed, Term.step, h, backspaceCode]

theorem esc_self {t : Term} (h : t.esc = .ground) : { t with esc := .ground } = t := by
  cases t; simp only at h; rw [h]

theorem feed_erase {t : Term} (h : t.esc = .ground) : t.feed eraseLineForward = t.clear t.row t.col := by
  have e : eraseLineForward = [0x1B, 0x5B, 0x30, 0x4B] := by decide
  rw [e]
  simp [Term.feed, Term.step, h, Term.control, Term.clear]

theorem feed_previous {t : Term} (h : t.esc = .ground) :
    t.feed previousLine = { t with row := max t.top (t.row - 1), col := 0, wrap := false } := by
  have e : previousLine = [0x1B, 0x5B, 0x46] := by decide
  rw [e]
  simp [Term.feed, Term.step, h, Term.control]

theorem feed_save {t : Term} (h : t.esc = .ground) : t.feed saveCursor = t.save := by
  have e : saveCursor = [0x1B, 0x37, 0x1B, 0x5B, 0x73] := by decide
  rw [e]
  simp [Term.feed, Term.step, h, Term.control, Term.save]

theorem feed_load {t : Term} (h : t.esc = .ground) : t.feed loadCursor = t.restore := by
  have e : loadCursor = [0x1B, 0x38, 0x1B, 0x5B, 0x75] := by decide
  rw [e]
  simp [Term.feed, Term.step, h, Term.control, Term.restore]

/-- A sequence that chooses the rendition -/
def sgr (p : Bytes) : Bytes := [0x1B, 0x5B] ++ p ++ [0x6D]

/-- A sequence that only chooses bold or a colour -/
theorem feed_sgr {t : Term} (h : t.esc = .ground) {p : Bytes} (hp : p ∈ [[0x31], [0x33, 0x31], [0x33, 0x36], [0x33, 0x39], [0x33, 0x35]]) :
    t.feed (sgr p) = t := by
  unfold sgr
  simp only [List.mem_cons, List.not_mem_nil, or_false] at hp
  rcases hp with rfl | rfl | rfl | rfl | rfl <;>
  · simp [Term.feed, Term.step, h, Term.control]
    exact esc_self h

theorem feed_faintOn {t : Term} (h : t.esc = .ground) :
    t.feed [0x1B, 0x5B, 0x32, 0x6D] = { t with faint := true } := by
  simp [Term.feed, Term.step, h, Term.control]

theorem feed_faintOff {t : Term} (h : t.esc = .ground) :
    t.feed [0x1B, 0x5B, 0x32, 0x32, 0x6D] = { t with faint := false } := by
  simp [Term.feed, Term.step, h, Term.control]

/-! ## Text -/

/-- A printing character -/
def Printing (b : Byte) : Prop := 0x20 ≤ b ∧ b < 0x7F

theorem step_printing {t : Term} (h : t.esc = .ground) {b : Byte} (hb : Printing b) : t.step b = t.put b := by
  obtain ⟨h1, h2⟩ := hb
  have e1 : b ≠ 0x1B := by rintro rfl; revert h1; decide
  have e2 : b ≠ 0x0D := by rintro rfl; revert h1; decide
  have e3 : b ≠ 0x0A := by rintro rfl; revert h1; decide
  have e4 : b ≠ 0x08 := by rintro rfl; revert h1; decide
  have e5 : ¬ (b < 0x20 ∨ b = 0x7F) := by
    rintro (h | rfl)
    · exact absurd h (UInt8.not_lt.2 h1)
    · revert h2; decide
  simp only [Term.step, h, if_neg e1, if_neg e2, if_neg e3, if_neg e4, if_neg e5]

/-- The cells after a text was written at a place -/
def written (f : Nat → Nat → Cell) (row col : Nat) (bs : Bytes) (fa : Bool) : Nat → Nat → Cell :=
  fun r c => if r = row ∧ col ≤ c ∧ c < col + bs.length then ⟨bs.getD (c - col) 0, fa⟩ else f r c

theorem feed_text : ∀ (bs : Bytes) (t : Term), t.esc = .ground → t.wrap = false → (∀ b ∈ bs, Printing b) →
    t.col + bs.length < t.width →
    t.feed bs = { t with cell := written t.cell t.row t.col bs t.faint, col := t.col + bs.length }
  | [], t, _, _, _, _ => by
    have : written t.cell t.row t.col [] t.faint = t.cell := by
      funext r c
      unfold written
      rw [if_neg]
      simp only [List.length_nil]; omega
    rw [this]; rfl
  | b :: bs, t, he, hw, hp, hlt => by
    have hlt' : t.col + (bs.length + 1) < t.width := by simpa using hlt
    have h1 : t.feed (b :: bs) = (t.put b).feed bs := by
      show List.foldl _ _ _ = _
      rw [List.foldl_cons, step_printing he (hp b (by simp))]
      rfl
    have h2 : t.put b = { t with cell := written t.cell t.row t.col [b] t.faint, col := t.col + 1 } := by
      have : (fun r c => if r = t.row ∧ c = t.col then ⟨b, t.faint⟩ else t.cell r c) =
          written t.cell t.row t.col [b] t.faint := by
        funext r c
        unfold written
        by_cases h : r = t.row ∧ c = t.col
        · obtain ⟨rfl, rfl⟩ := h
          simp
        · rw [if_neg h, if_neg]
          simp only [List.length_singleton]; omega
      unfold Term.put
      simp only [hw, Bool.false_eq_true, if_false]
      rw [if_pos (by omega), this]
    rw [h1, h2]
    refine (feed_text bs { t with cell := written t.cell t.row t.col [b] t.faint, col := t.col + 1 } he hw
      (fun x hx => hp x (by simp [hx])) (by simp only; omega)).trans ?_
    have : written (written t.cell t.row t.col [b] t.faint) t.row (t.col + 1) bs t.faint =
        written t.cell t.row t.col (b :: bs) t.faint := by
      funext r c
      unfold written
      by_cases hr : r = t.row
      · by_cases h1 : t.col + 1 ≤ c ∧ c < t.col + 1 + bs.length
        · obtain ⟨k, rfl⟩ : ∃ k, c = t.col + 1 + k := ⟨c - (t.col + 1), by omega⟩
          have e1 : t.col + 1 + k - (t.col + 1) = k := by omega
          have e2 : t.col + 1 + k - t.col = k + 1 := by omega
          rw [if_pos ⟨hr, h1⟩, if_pos ⟨hr, by simp only [List.length_cons]; omega⟩, e1, e2]
          simp
        · rw [if_neg (fun h => h1 h.2)]
          by_cases h2 : c = t.col
          · subst h2; simp [hr]
          · rw [if_neg (by simp only [List.length_singleton]; omega),
              if_neg (by simp only [List.length_cons]; omega)]
      · simp [hr]
    simp only [this, List.length_cons]
    congr 1
    omega

/-! ## What is written is printing text -/

theorem str_append (a b : String) : str (a ++ b) = str a ++ str b := by simp [str]

/-- ASCII text is its own encoding. -/
theorem str_ascii {s : String} (h : ∀ c ∈ s.toList, c.toNat < 128) :
    str s = s.toList.map (fun c => UInt8.ofNat c.toNat) := by
  have e : str s = s.toList.flatMap String.utf8EncodeChar := by
    have e : ∀ l : List Char, str (String.ofList l) = l.flatMap String.utf8EncodeChar := fun l => by
      simp [str, List.utf8Encode]
    rw [← e, String.ofList_toList]
  rw [e]
  generalize s.toList = l at h
  induction l with
  | nil => rfl
  | cons c l ih =>
    rw [List.flatMap_cons, List.map_cons, ih fun x hx => h x (List.mem_cons_of_mem _ hx)]
    have hc := h c List.mem_cons_self
    have : String.utf8EncodeChar c = [UInt8.ofNat c.toNat] := by
      unfold String.utf8EncodeChar
      simp
      omega
    rw [this, List.singleton_append]

theorem printing_str {s : String} (h : ∀ c ∈ s.toList, 0x20 ≤ c.toNat ∧ c.toNat < 0x7F) : ∀ b ∈ str s, Printing b := by
  intro b hb
  rw [str_ascii fun c hc => Nat.lt_succ_of_lt (h c hc).2] at hb
  obtain ⟨c, hc, rfl⟩ := List.mem_map.1 hb
  obtain ⟨h1, h2⟩ := h c hc
  have e : (UInt8.ofNat c.toNat).toNat = c.toNat := by
    rw [UInt8.toNat_ofNat']
    omega
  exact ⟨UInt8.le_iff_toNat_le.2 (by rw [e]; exact h1), UInt8.lt_iff_toNat_lt.2 (by rw [e]; exact h2)⟩

theorem printing_nat (n : Nat) : ∀ c ∈ (toString n).toList, 0x20 ≤ c.toNat ∧ c.toNat < 0x7F := by
  intro c hc
  rw [Nat.toString_eq_ofList_toDigits, String.toList_ofList] at hc
  have := Char.isDigit_iff_toNat.1 (Nat.isDigit_of_mem_toDigits (by decide) (by decide) hc)
  have e0 : '0'.toNat = 48 := rfl
  have e9 : '9'.toNat = 57 := rfl
  omega

theorem printing_formatInt (n : Int) : ∀ b ∈ formatInt n, Printing b := by
  apply printing_str
  intro c hc
  cases n with
  | ofNat n => exact printing_nat n c hc
  | negSucc n =>
    have : toString (Int.negSucc n) = "-" ++ toString (n + 1) := rfl
    rw [this, String.toList_append, List.mem_append] at hc
    rcases hc with hc | hc
    · have : c = '-' := by simpa using hc
      subst this; decide
    · exact printing_nat _ c hc

theorem printing_append {a b : Bytes} (ha : ∀ x ∈ a, Printing x) (hb : ∀ x ∈ b, Printing x) :
    ∀ x ∈ a ++ b, Printing x := by
  intro x hx
  rcases List.mem_append.1 hx with h | h
  · exact ha x h
  · exact hb x h

instance (b : Byte) : Decidable (Printing b) := inferInstanceAs (Decidable (_ ∧ _))

theorem promptText_eq (i : Int) : promptText i = promptFor (i + 1) := by
  simp [promptText, promptFor, formatInt, str_append]

theorem printing_promptText (i : Int) : ∀ b ∈ promptText i, Printing b :=
  printing_append (printing_append (by decide +kernel) (printing_formatInt _)) (by decide +kernel)

theorem printing_message {m : Bytes} (h : IsMessage m) : ∀ b ∈ m, Printing b := by
  cases h with
  | noWord => decide +kernel
  | badVersion h1 h2 =>
    rw [str_append]
    exact printing_append (by decide +kernel) (printing_str (printing_nat _))

theorem message_length {m : Bytes} (h : IsMessage m) : m.length ≤ 45 := by
  cases h with
  | noWord => decide +kernel
  | @badVersion v h1 h2 =>
    have : ∀ v < 16, (str ("invalid version number in recovery phrase: " ++ toString v)).length ≤ 45 := by
      decide +kernel
    exact this v h2

/-! ## The state of the screen -/

/-- A cell below the prompt: as it was, blank, or part of a message -/
def MsgCell (old : Cell) (c : Nat) (x : Cell) : Prop :=
  x = old ∨ x = .blank ∨ ∃ m, IsMessage m ∧ c < m.length ∧ x = ⟨m.getD c 0, false⟩

/-- The screen when the first prompt is about to be written -/
structure Ready (h : Term) : Prop where
  esc : h.esc = .ground
  wrap : h.wrap = false
  faint : h.faint = false
  col : h.col = 0
  top : h.top ≤ h.row
  bottom : h.row + 1 < h.top + h.height
  wide : 46 ≤ h.width

/-- Only the row of the prompt and the row below have changed. -/
structure Base (h t : Term) : Prop where
  esc : t.esc = .ground
  wrap : t.wrap = false
  faint : t.faint = false
  width : t.width = h.width
  height : t.height = h.height
  top : t.top = h.top
  row : t.row = h.row
  msg : ∀ c, MsgCell (h.cell (h.row + 1) c) c (t.cell (h.row + 1) c)
  others : ∀ r c, r ≠ h.row → r ≠ h.row + 1 → t.cell r c = h.cell r c

/-- The line is written and the cursor is after it. -/
structure Pre (h t : Term) (line : Bytes) : Prop extends Base h t where
  col : t.col = line.length
  line : ∀ c, c < line.length → t.cell h.row c = ⟨line.getD c 0, false⟩

/-- The line and the suggestion are written, nothing else, and the cursor is between them. -/
structure Wait (h t : Term) (line sug : Bytes) : Prop extends Base h t where
  col : t.col = line.length
  shown : ∀ c, t.cell h.row c = (plain line ++ faintly sug).getD c .blank

theorem getD_plain {bs : Bytes} {c : Nat} (h : c < bs.length) : (plain bs).getD c .blank = ⟨bs.getD c 0, false⟩ := by
  simp [plain, List.getD_eq_getElem?_getD, h]

theorem getD_plain_append {bs : Bytes} {x : List Cell} {c : Nat} (h : c < bs.length) :
    (plain bs ++ x).getD c .blank = ⟨bs.getD c 0, false⟩ := by
  rw [← getD_plain h]
  simp only [List.getD_eq_getElem?_getD]
  rw [List.getElem?_append_left (by simpa [plain] using h)]

theorem getD_plain_append_right {bs : Bytes} {x : List Cell} {c : Nat} (h : bs.length ≤ c) :
    (plain bs ++ x).getD c .blank = x.getD (c - bs.length) .blank := by
  simp only [List.getD_eq_getElem?_getD]
  rw [List.getElem?_append_right (by simpa [plain] using h)]
  simp [plain]

theorem getD_faintly {bs : Bytes} {c : Nat} (h : c < bs.length) : (faintly bs).getD c .blank = ⟨bs.getD c 0, true⟩ := by
  simp [faintly, List.getD_eq_getElem?_getD, h]

theorem getD_faintly_out {bs : Bytes} {c : Nat} (h : bs.length ≤ c) : (faintly bs).getD c .blank = .blank := by
  simp [faintly, List.getD_eq_getElem?_getD, h]

theorem Wait.pre {h t : Term} {line sug : Bytes} (w : Wait h t line sug) : Pre h t line :=
  { w.toBase with
    col := w.col
    line := fun c hc => by rw [w.shown, getD_plain_append hc] }

/-- Text is added to the line. -/
theorem Pre.text {h t : Term} {line bs : Bytes} (p : Pre h t line) (hb : ∀ b ∈ bs, Printing b)
    (hlt : (line ++ bs).length < h.width) : Pre h (t.feed bs) (line ++ bs) := by
  rw [List.length_append] at hlt
  rw [feed_text bs t p.esc p.wrap hb (by rw [p.col, p.width]; exact hlt)]
  refine { p.toBase with msg := ?_, others := ?_, col := ?_, line := ?_ }
  · intro c
    show MsgCell _ _ (written t.cell t.row t.col bs t.faint (h.row + 1) c)
    rw [written, if_neg (by rw [p.row]; omega)]
    exact p.msg c
  · intro r c h1 h2
    show written t.cell t.row t.col bs t.faint r c = _
    rw [written, if_neg (by rw [p.row]; omega)]
    exact p.others r c h1 h2
  · simp [p.col]
  · intro c hc
    show written t.cell t.row t.col bs t.faint h.row c = _
    rw [List.length_append] at hc
    unfold written
    by_cases h1 : line.length ≤ c
    · rw [if_pos ⟨p.row.symm, by rw [p.col]; omega⟩, p.col, p.faint]
      simp only [List.getD_eq_getElem?_getD]
      rw [List.getElem?_append_right h1]
    · rw [if_neg (by rw [p.col]; omega), p.line c (by omega)]
      simp only [List.getD_eq_getElem?_getD]
      rw [List.getElem?_append_left (by omega)]

/-- The suggestion is accepted. -/
theorem Wait.text {h t : Term} {line sug bs : Bytes} (w : Wait h t line sug) (hs : sug = [] ∨ sug = bs)
    (hb : ∀ b ∈ bs, Printing b) (hlt : (line ++ bs).length < h.width) : Wait h (t.feed bs) (line ++ bs) [] := by
  have p := w.pre.text hb hlt
  refine { p.toBase with col := p.col, shown := ?_ }
  intro c
  by_cases hc : c < (line ++ bs).length
  · rw [p.line c hc, getD_plain_append hc]
  · rw [List.length_append] at hlt hc
    rw [feed_text bs t w.esc w.wrap hb (by rw [w.col, w.width]; exact hlt)]
    show written t.cell t.row t.col bs t.faint h.row c = _
    rw [written, if_neg (by rw [w.col]; omega), w.shown, getD_plain_append_right (by omega),
      getD_plain_append_right (by rw [List.length_append]; omega)]
    rw [getD_faintly_out, getD_faintly_out]
    · simp
    · rcases hs with rfl | rfl
      · simp
      · omega

/-- The last character is taken away. -/
theorem Pre.backspace {h t : Term} {line : Bytes} {x : Byte} (p : Pre h t (line ++ [x])) :
    Pre h (t.feed backspaceCode) line := by
  rw [feed_backspace p.esc]
  refine { p.toBase with wrap := rfl, col := ?_, line := ?_ }
  · simp [p.col]
  · intro c hc
    have := p.line c (by rw [List.length_append]; omega)
    show t.cell h.row c = _
    rw [this]
    simp only [List.getD_eq_getElem?_getD]
    rw [List.getElem?_append_left hc]

theorem code_bold : str "[1m" = [0x5B, 0x31, 0x6D] := by decide +kernel
theorem code_faint : str "[2m" = [0x5B, 0x32, 0x6D] := by decide +kernel
theorem code_boldEnd : str "[22m" = [0x5B, 0x32, 0x32, 0x6D] := by decide +kernel
theorem code_red : str "[31m" = [0x5B, 0x33, 0x31, 0x6D] := by decide +kernel
theorem code_magenta : str "[35m" = [0x5B, 0x33, 0x35, 0x6D] := by decide +kernel
theorem code_cyan : str "[36m" = [0x5B, 0x33, 0x36, 0x6D] := by decide +kernel
theorem code_colorEnd : str "[39m" = [0x5B, 0x33, 0x39, 0x6D] := by decide +kernel

theorem feed_red {t : Term} {m : Bytes} (he : t.esc = .ground) (hw : t.wrap = false) (hm : ∀ b ∈ m, Printing b)
    (hlt : t.col + m.length < t.width) :
    t.feed (red m) = { t with cell := written t.cell t.row t.col m t.faint, col := t.col + m.length } := by
  have e : red m = sgr [0x33, 0x31] ++ m ++ sgr [0x33, 0x39] := by
    simp [red, escapeCode, code_red, code_colorEnd, sgr]
  rw [e, feed_append, feed_append, feed_sgr he (by decide), feed_text m t he hw hm hlt, feed_sgr (by exact he) (by decide)]

theorem feed_boldcyan {t : Term} {m : Bytes} (he : t.esc = .ground) (hf : t.faint = false) (hw : t.wrap = false)
    (hm : ∀ b ∈ m, Printing b) (hlt : t.col + m.length < t.width) :
    t.feed (bold (cyan m)) = { t with cell := written t.cell t.row t.col m false, col := t.col + m.length } := by
  have e : bold (cyan m) = sgr [0x31] ++ sgr [0x33, 0x36] ++ m ++
      sgr [0x33, 0x39] ++ [0x1B, 0x5B, 0x32, 0x32, 0x6D] := by
    simp [bold, cyan, escapeCode, code_bold, code_boldEnd, code_cyan, code_colorEnd, sgr]
  rw [e, feed_append, feed_append, feed_append, feed_append, feed_sgr he (by decide), feed_sgr he (by decide),
    feed_text m t he hw hm hlt, feed_sgr (by exact he) (by decide), feed_faintOff (by exact he), hf]

theorem feed_faint {t : Term} {m : Bytes} (he : t.esc = .ground) (hw : t.wrap = false)
    (hm : ∀ b ∈ m, Printing b) (hlt : t.col + m.length < t.width) :
    t.feed (faint m) =
      { t with cell := written t.cell t.row t.col m true, col := t.col + m.length, faint := false } := by
  have e : faint m = [0x1B, 0x5B, 0x32, 0x6D] ++ m ++ [0x1B, 0x5B, 0x32, 0x32, 0x6D] := by
    simp [faint, escapeCode, code_faint, code_boldEnd]
  rw [e, feed_append, feed_append, feed_faintOn he, feed_text m { t with faint := true } he hw hm hlt,
    feed_faintOff (by exact he)]

theorem feed_crlf {t : Term} (he : t.esc = .ground) (hb : t.row + 1 < t.top + t.height) :
    t.feed (str "\r\n") = { t with row := t.row + 1, col := 0, wrap := false } := by
  have e : str "\r\n" = [0x0D] ++ [0x0A] := by decide
  rw [e, feed_append, feed_cr he, feed_lf (by exact he), Term.lineFeed]
  simp only
  rw [if_pos hb]

theorem save_esc (t : Term) : t.save.esc = t.esc := rfl

/-- A message is written below and the cursor returns. -/
theorem feed_message {t : Term} {m : Bytes} {k : Nat} (he : t.esc = .ground) (hf : t.faint = false)
    (ht : t.top ≤ t.row) (hb : t.row + 1 < t.top + t.height) (hs : t.saved = (t.row - t.top, k, false))
    (hm : IsMessage m) (hw : 46 ≤ t.width) :
    t.feed (str "\r\n" ++ red m ++ loadCursor) =
      { t with cell := written t.cell (t.row + 1) 0 m false, col := k, wrap := false } := by
  have hl := message_length hm
  rw [feed_append, feed_append, feed_crlf he hb,
    feed_red (by exact he) rfl (printing_message hm) (by show 0 + m.length < t.width; omega), feed_load (by exact he)]
  have : t.top + (t.row - t.top) = t.row := by omega
  simp [Term.restore, this, hf, hs]

/-- The row below is erased and the cursor returns. -/
theorem feed_clean {t : Term} {k : Nat} (he : t.esc = .ground) (ht : t.top ≤ t.row)
    (hb : t.row + 1 < t.top + t.height) (hs : t.saved = (t.row - t.top, k, false)) :
    t.feed (str "\r\n" ++ eraseLineForward ++ loadCursor) =
      { t.clear (t.row + 1) 0 with col := k, wrap := false } := by
  rw [feed_append, feed_append, feed_crlf he hb, feed_erase (by exact he), feed_load (by exact he)]
  have : t.top + (t.row - t.top) = t.row := by omega
  simp [Term.restore, this, Term.clear, hs]

theorem written_out {f : Nat → Nat → Cell} {row col : Nat} {bs : Bytes} {fa : Bool} {r c : Nat} (h : r ≠ row) :
    written f row col bs fa r c = f r c := by
  rw [written, if_neg (fun x => h x.1)]

theorem written_zero {f : Nat → Nat → Cell} {row : Nat} {bs : Bytes} {c : Nat} (h : c < bs.length) :
    written f row 0 bs false row c = ⟨bs.getD c 0, false⟩ := by
  rw [written, if_pos ⟨rfl, by omega, by omega⟩]
  rfl

theorem written_after {f : Nat → Nat → Cell} {row : Nat} {bs : Bytes} {c : Nat} (h : bs.length ≤ c) :
    written f row 0 bs false row c = f row c := by
  rw [written, if_neg (by omega)]

theorem Base.message {h t : Term} {m : Bytes} {k : Nat} (r : Ready h) (b : Base h t)
    (hs : t.saved = (t.row - t.top, k, false)) (hm : IsMessage m) :
    Base h (t.feed (str "\r\n" ++ red m ++ loadCursor)) ∧
    Starts (t.feed (str "\r\n" ++ red m ++ loadCursor)) (h.row + 1) m ∧
    (t.feed (str "\r\n" ++ red m ++ loadCursor)).col = k ∧
    ∀ c, (t.feed (str "\r\n" ++ red m ++ loadCursor)).cell h.row c = t.cell h.row c := by
  have ht : t.top ≤ t.row := by rw [b.top, b.row]; exact r.top
  have hb : t.row + 1 < t.top + t.height := by rw [b.top, b.row, b.height]; exact r.bottom
  rw [feed_message b.esc b.faint ht hb hs hm (by rw [b.width]; exact r.wide)]
  refine ⟨{ b with msg := ?_, others := ?_, wrap := rfl }, ?_, rfl, ?_⟩
  · intro c
    show MsgCell _ _ (written t.cell (t.row + 1) 0 m false (h.row + 1) c)
    rw [b.row]
    by_cases hc : c < m.length
    · rw [written_zero hc]
      exact Or.inr (Or.inr ⟨m, hm, hc, rfl⟩)
    · rw [written_after (by omega)]
      exact b.msg c
  · intro r' c h1 h2
    show written t.cell (t.row + 1) 0 m false r' c = _
    rw [written_out (by rw [b.row]; exact h2)]
    exact b.others r' c h1 h2
  · intro c hc
    show written t.cell (t.row + 1) 0 m false (h.row + 1) c = _
    rw [b.row, written_zero hc]
  · intro c
    show written t.cell (t.row + 1) 0 m false h.row c = _
    rw [written_out (by rw [b.row]; omega)]

theorem Base.clean {h t : Term} {k : Nat} (r : Ready h) (b : Base h t) (hs : t.saved = (t.row - t.top, k, false)) :
    Base h (t.feed (str "\r\n" ++ eraseLineForward ++ loadCursor)) ∧
    (∀ c, (t.feed (str "\r\n" ++ eraseLineForward ++ loadCursor)).cell (h.row + 1) c = .blank) ∧
    (t.feed (str "\r\n" ++ eraseLineForward ++ loadCursor)).col = k ∧
    ∀ c, (t.feed (str "\r\n" ++ eraseLineForward ++ loadCursor)).cell h.row c = t.cell h.row c := by
  have ht : t.top ≤ t.row := by rw [b.top, b.row]; exact r.top
  have hb : t.row + 1 < t.top + t.height := by rw [b.top, b.row, b.height]; exact r.bottom
  rw [feed_clean b.esc ht hb hs]
  have key : ∀ c, (t.clear (t.row + 1) 0).cell (h.row + 1) c = .blank := by
    intro c
    simp only [Term.clear]
    rw [if_pos ⟨by rw [b.row], by omega⟩]
  have out : ∀ r' c, r' ≠ h.row + 1 → (t.clear (t.row + 1) 0).cell r' c = t.cell r' c := by
    intro r' c hr
    simp only [Term.clear]
    rw [if_neg (fun x => hr (by rw [x.1, b.row]))]
  refine ⟨{ b with msg := ?_, others := ?_, wrap := rfl }, key, rfl, ?_⟩
  · intro c
    exact Or.inr (Or.inl (key c))
  · intro r' c h1 h2
    exact (out r' c h2).trans (b.others r' c h1 h2)
  · intro c
    exact out _ c (by omega)

/-- The rest of the line is erased. -/
theorem Pre.erase {h t : Term} {line : Bytes} (p : Pre h t line) :
    Wait h (t.feed eraseLineForward) line [] ∧ (t.feed eraseLineForward).saved = t.saved := by
  rw [feed_erase p.esc]
  have out : ∀ r c, r ≠ h.row → (t.clear t.row t.col).cell r c = t.cell r c := by
    intro r' c hr
    simp only [Term.clear]
    rw [if_neg (fun x => hr (by rw [x.1, p.row]))]
  refine ⟨{ p.toBase with msg := ?_, others := ?_, col := p.col, shown := ?_ }, rfl⟩
  · intro c
    rw [out _ c (by omega)]
    exact p.msg c
  · intro r c h1 h2
    rw [out _ c h1]
    exact p.others r c h1 h2
  · intro c
    by_cases hc : c < line.length
    · rw [getD_plain_append hc, ← p.line c hc]
      simp only [Term.clear]
      rw [if_neg (by rw [p.col]; omega)]
    · rw [getD_plain_append_right (by omega), getD_faintly_out (by simp)]
      simp only [Term.clear]
      rw [if_pos ⟨by rw [p.row], by rw [p.col]; omega⟩]

/-- The suggestion is written. -/
theorem Wait.suggest {h t : Term} {line sug : Bytes} (w : Wait h t line []) (hp : ∀ b ∈ sug, Printing b)
    (hlt : (line ++ sug).length < h.width) :
    Base h (t.feed (faint sug)) ∧ (t.feed (faint sug)).saved = t.saved ∧
    ∀ c, (t.feed (faint sug)).cell h.row c = (plain line ++ faintly sug).getD c .blank := by
  rw [List.length_append] at hlt
  rw [feed_faint w.esc w.wrap hp (by rw [w.col, w.width]; exact hlt)]
  refine ⟨{ w.toBase with msg := ?_, others := ?_, faint := rfl }, rfl, ?_⟩
  · intro c
    show MsgCell _ _ (written t.cell t.row t.col sug true (h.row + 1) c)
    rw [written_out (by rw [w.row]; omega)]
    exact w.msg c
  · intro r c h1 h2
    show written t.cell t.row t.col sug true r c = _
    rw [written_out (by rw [w.row]; exact h1)]
    exact w.others r c h1 h2
  · intro c
    show written t.cell t.row t.col sug true h.row c = _
    by_cases hc : c < line.length
    · rw [written, if_neg (by rw [w.col]; omega), w.shown, getD_plain_append hc, getD_plain_append hc]
    · by_cases hc2 : c < line.length + sug.length
      · rw [getD_plain_append_right (by omega), getD_faintly (by omega), written,
          if_pos ⟨by rw [w.row], by rw [w.col]; omega, by rw [w.col]; omega⟩, w.col]
      · rw [written, if_neg (by rw [w.col]; omega), w.shown, getD_plain_append_right (by omega),
          getD_plain_append_right (by omega), getD_faintly_out (by simp), getD_faintly_out (by omega)]

theorem Pre.save {h t : Term} {line : Bytes} (p : Pre h t line) : Pre h t.save line ∧
    t.save.saved = (t.row - t.top, line.length, false) :=
  ⟨{ p.toBase with col := p.col, line := p.line }, by simp [Term.save, p.col, p.wrap]⟩

theorem Wait.save {h t : Term} {line sug : Bytes} (p : Wait h t line sug) : Wait h t.save line sug ∧
    t.save.saved = (t.row - t.top, line.length, false) :=
  ⟨{ p.toBase with col := p.col, shown := p.shown }, by simp [Term.save, p.col, p.wrap]⟩

theorem Base.savedAt {h t : Term} (b : Base h t) : t.row - t.top = h.row - h.top := by rw [b.row, b.top]

/-- Redrawing with a suggestion -/
theorem redraw_suggest {h t : Term} {line sug : Bytes} (r : Ready h) (p : Pre h t line)
    (hp : ∀ b ∈ sug, Printing b) (hlt : (line ++ sug).length < h.width) :
    Wait h (t.feed (saveCursor ++ eraseLineForward ++ faint sug ++ (str "\r\n" ++ eraseLineForward) ++ loadCursor)) line sug ∧
    ∀ c, (t.feed (saveCursor ++ eraseLineForward ++ faint sug ++ (str "\r\n" ++ eraseLineForward) ++ loadCursor)).cell
      (h.row + 1) c = .blank := by
  have e : saveCursor ++ eraseLineForward ++ faint sug ++ (str "\r\n" ++ eraseLineForward) ++ loadCursor =
      saveCursor ++ (eraseLineForward ++ (faint sug ++ (str "\r\n" ++ eraseLineForward ++ loadCursor))) := by
    simp only [List.append_assoc]
  rw [e, feed_append, feed_append, feed_append, feed_save p.esc]
  obtain ⟨p1, s1⟩ := p.save
  obtain ⟨w2, s2⟩ := p1.erase
  obtain ⟨b3, s3, sh⟩ := w2.suggest hp hlt
  rw [s2, s1] at s3
  obtain ⟨b4, bl, col4, sh4⟩ := b3.clean (k := line.length) r (by rw [s3, p.savedAt, b3.savedAt])
  exact ⟨{ b4 with col := col4, shown := fun c => (sh4 c).trans (sh c) }, bl⟩

/-- Redrawing with nothing typed and no suggestion -/
theorem redraw_empty {h t : Term} {line : Bytes} (r : Ready h) (p : Pre h t line) :
    Wait h (t.feed (saveCursor ++ eraseLineForward ++ (str "\r\n" ++ eraseLineForward) ++ loadCursor)) line [] ∧
    ∀ c, (t.feed (saveCursor ++ eraseLineForward ++ (str "\r\n" ++ eraseLineForward) ++ loadCursor)).cell
      (h.row + 1) c = .blank := by
  have e : saveCursor ++ eraseLineForward ++ (str "\r\n" ++ eraseLineForward) ++ loadCursor =
      saveCursor ++ (eraseLineForward ++ (str "\r\n" ++ eraseLineForward ++ loadCursor)) := by
    simp only [List.append_assoc]
  rw [e, feed_append, feed_append, feed_save p.esc]
  obtain ⟨p1, s1⟩ := p.save
  obtain ⟨w2, s2⟩ := p1.erase
  rw [s1] at s2
  obtain ⟨b4, bl, col4, sh4⟩ := w2.toBase.clean (k := line.length) r (by rw [s2, p.savedAt, w2.savedAt])
  exact ⟨{ b4 with col := col4, shown := fun c => (sh4 c).trans (w2.shown c) }, bl⟩

/-- Redrawing with a message -/
theorem redraw_message {h t : Term} {line m : Bytes} (r : Ready h) (p : Pre h t line) (hm : IsMessage m) :
    Wait h (t.feed (saveCursor ++ eraseLineForward ++ (str "\r\n" ++ red m) ++ loadCursor)) line [] ∧
    Starts (t.feed (saveCursor ++ eraseLineForward ++ (str "\r\n" ++ red m) ++ loadCursor)) (h.row + 1) m := by
  have e : saveCursor ++ eraseLineForward ++ (str "\r\n" ++ red m) ++ loadCursor =
      saveCursor ++ (eraseLineForward ++ (str "\r\n" ++ red m ++ loadCursor)) := by
    simp only [List.append_assoc]
  rw [e, feed_append, feed_append, feed_save p.esc]
  obtain ⟨p1, s1⟩ := p.save
  obtain ⟨w2, s2⟩ := p1.erase
  rw [s1] at s2
  obtain ⟨b4, bl, col4, sh4⟩ := w2.toBase.message (k := line.length) r (by rw [s2, p.savedAt, w2.savedAt]) hm
  exact ⟨{ b4 with col := col4, shown := fun c => (sh4 c).trans (w2.shown c) }, bl⟩

/-- A message while the line stays -/
theorem stay_message {h t : Term} {line sug m : Bytes} (r : Ready h) (w : Wait h t line sug) (hm : IsMessage m) :
    Wait h (t.feed (saveCursor ++ (str "\r\n" ++ red m ++ loadCursor))) line sug ∧
    Starts (t.feed (saveCursor ++ (str "\r\n" ++ red m ++ loadCursor))) (h.row + 1) m := by
  rw [feed_append, feed_save w.esc]
  obtain ⟨w1, s1⟩ := w.save
  obtain ⟨b4, bl, col4, sh4⟩ := w1.toBase.message (k := line.length) r (by rw [s1, w.savedAt, w1.savedAt]) hm
  exact ⟨{ b4 with col := col4, shown := fun c => (sh4 c).trans (w1.shown c) }, bl⟩

theorem Base.atStart {h t : Term} (b : Base h t) : Pre h (t.feed (str "\r")) [] := by
  rw [str_cr, feed_cr b.esc]
  exact { b with col := rfl, wrap := rfl, line := fun c hc => absurd hc (by simp) }

/-- A new prompt -/
theorem Base.prompt {h t : Term} (b : Base h t) {i : Int} (hlt : (promptText i).length < h.width) :
    Wait h (t.feed (wordPrompt i)) (promptText i) [] := by
  unfold wordPrompt
  rw [feed_append, feed_append]
  obtain ⟨w1, -⟩ := b.atStart.erase
  generalize (t.feed (str "\r")).feed eraseLineForward = u at w1
  have e : u.feed (bold (cyan (promptText i))) = u.feed (promptText i) := by
    rw [feed_boldcyan w1.esc w1.faint w1.wrap (printing_promptText i) (by rw [w1.col, w1.width]; simpa using hlt),
      feed_text _ u w1.esc w1.wrap (printing_promptText i) (by rw [w1.col, w1.width]; simpa using hlt), w1.faint]
  rw [e]
  exact w1.text (Or.inl rfl) (printing_promptText i) hlt

/-! ## One round -/

/-- The completion offered for a text, or nothing -/
def headSuffix (L : WordList) (w : Bytes) : Bytes := (L.suffixes w).headD []

theorem printing_az {b : Byte} (h : isLowerAz b = true) : Printing b := by
  simp only [isLowerAz, Bool.and_eq_true, decide_eq_true_eq] at h
  exact ⟨UInt8.le_trans (by decide) h.1, UInt8.lt_of_le_of_lt h.2 (by decide)⟩

theorem printing_suffix {L : WordList} (hL : L.Lawful) {w x : Bytes} (h : x ∈ L.suffixes w) : ∀ b ∈ x, Printing b := by
  obtain ⟨i, hi, e⟩ := hL.suffix_word w x h
  intro b hb
  exact printing_az (hL.word_az i hi b (by rw [e]; simp [hb]))

theorem lower_word {L : WordList} (hL : L.Lawful) {i : Nat} (hi : i < 4096) : L.toLower (L.word i) = L.word i := by
  have haz := hL.word_az i hi
  rw [hL.lower_ascii]
  · conv_rhs => rw [← List.map_id (L.word i)]
    apply List.map_congr_left
    intro b hb
    have := haz b hb
    simp only [isLowerAz, Bool.and_eq_true, decide_eq_true_eq] at this
    rw [asciiLower, if_neg]
    · rfl
    · rintro ⟨-, h2⟩
      exact absurd (UInt8.le_trans this.1 h2) (by decide)
  · intro b hb
    have := haz b hb
    simp only [isLowerAz, Bool.and_eq_true, decide_eq_true_eq] at this
    exact UInt8.lt_of_le_of_lt this.2 (by decide)

theorem version_message {L : WordList} (hL : L.Lawful) {i : Nat} (hi : i < 4096) {e : Err}
    (h : parseMnemonicVersion L (L.word i) = .err e) :
    IsMessage (versionErrorText L (L.word i)) ∧
      versionErrorText L (L.word i) = str ("invalid version number in recovery phrase: " ++ toString (i / 256)) := by
  have hlk : L.lookup (L.toLower (L.word i)) = some i := by
    rw [lower_word hL hi]
    exact (hL.lookup_iff _ _).2 ⟨hi, rfl⟩
  have hv : i >>> (bitsPerWord - mnemonicVersionBitCount) = i / 256 := by
    rw [Nat.shiftRight_eq_div_pow]; rfl
  have e1 : versionErrorText L (L.word i) = str ("invalid version number in recovery phrase: " ++ toString (i / 256)) := by
    simp only [versionErrorText, hlk, parseMnemonicVersionRaw, hv, formatInt, str_append]
    rfl
  refine ⟨?_, e1⟩
  rw [e1]
  refine .badVersion ?_ (by omega)
  by_contra hlt
  have : parseMnemonicVersion L (L.word i) = .ok (i / 256) := by
    simp only [parseMnemonicVersion, parseMnemonicVersionRaw, hlk, hv, versionCheck]
    rw [if_neg (by simp only [mnemonicVersionLatest]; omega)]
  rw [this] at h
  cases h

/-- The text fits on its line, with its completion. -/
def Fit (L : WordList) (width : Nat) (s : WordState) : Prop :=
  (promptText s.i ++ s.wordInput ++ headSuffix L s.wordInput).length < width

/-- The suggestion shown is the completion, unless no key was pressed yet. -/
def Sug (L : WordList) (s : WordState) (sug : Bytes) : Prop :=
  sug = headSuffix L s.wordInput ∨ (sug = [] ∧ s.wordInput = [])

/-- What the row below shows after a round -/
structure Note (L : WordList) (h t : Term) (s s' : WordState) (c : Byte) : Prop where
  redrawn : c ≠ 68 → c ≠ 13 → c ≠ 32 → (c ≠ 9 ∨ L.suffixes s.wordInput = []) →
    (L.suffixes s'.wordInput ≠ [] ∨ s'.wordInput = [] → ∀ k, t.cell (h.row + 1) k = .blank) ∧
    (L.suffixes s'.wordInput = [] → s'.wordInput ≠ [] → Starts t (h.row + 1) badWordMessage)
  noWord : c = 13 ∨ c = 32 → L.suffixes s.wordInput = [] → Starts t (h.row + 1) badWordMessage
  version : c = 13 ∨ c = 32 → ∀ x r, L.suffixes s.wordInput = x :: r → s.i = 0 →
    ∀ e, parseMnemonicVersion L (s.wordInput ++ x) = .err e →
    Starts t (h.row + 1) (versionErrorText L (s.wordInput ++ x))

/-- The letter or backspace on the screen -/
theorem pre_typeKey {h t : Term} {s : WordState} {sug : Bytes} {c : Byte}
    (w : Wait h t (promptText s.i ++ s.wordInput) sug)
    (hfit : (promptText s.i ++ (typeKey s.wordInput c).2).length < h.width) :
    Pre h (t.feed (typeKey s.wordInput c).1) (promptText s.i ++ (typeKey s.wordInput c).2) := by
  revert hfit
  unfold typeKey
  by_cases hl : 0x61 ≤ c ∧ c ≤ 0x7A
  · have : c ≠ 127 := by rintro rfl; revert hl; decide
    simp only [hl, and_self, if_true, this, if_false]
    intro hfit
    rw [← List.append_assoc] at hfit ⊢
    refine w.pre.text ?_ hfit
    intro b hb
    rw [List.mem_singleton] at hb
    subst hb
    exact ⟨UInt8.le_trans (by decide) hl.1, UInt8.lt_of_le_of_lt hl.2 (by decide)⟩
  · by_cases h1 : c = 127
    · subst h1
      simp only [show ¬ ((0x61 : Byte) ≤ 127 ∧ (127 : Byte) ≤ 0x7A) by decide, if_false, if_true]
      by_cases h2 : s.wordInput.length > 0
      · rw [if_pos h2]
        intro hfit
        refine Pre.backspace (x := s.wordInput.getLast (List.ne_nil_of_length_pos h2)) ?_
        simp only
        rw [List.append_assoc, List.dropLast_append_getLast]
        exact w.pre
      · rw [if_neg h2]
        exact fun _ => w.pre
    · simp only [hl, h1, if_false]
      exact fun _ => w.pre

theorem typeKey_other {w : Bytes} {c : Byte} (hl : ¬ (0x61 ≤ c ∧ c ≤ 0x7A)) (h : c ≠ 127) : typeKey w c = ([], w) := by
  simp [typeKey, hl, h]

/-- What is written when the line is redrawn -/
def redrawOut (L : WordList) (w : Bytes) : Bytes :=
  match L.suffixes w with
  | [] =>
    if w = [] then saveCursor ++ eraseLineForward ++ (str "\r\n" ++ eraseLineForward) ++ loadCursor
    else saveCursor ++ eraseLineForward ++ (str "\r\n" ++ red badWordMessage) ++ loadCursor
  | x :: _ => saveCursor ++ eraseLineForward ++ faint x ++ (str "\r\n" ++ eraseLineForward) ++ loadCursor

theorem keyRound_redraw {L : WordList} {s : WordState} {c : Byte} (h3 : ¬ (c = 3 ∨ c = 4)) (h68 : c ≠ 68)
    (h13 : ¬ (c = 13 ∨ c = 32)) (h9 : c ≠ 9 ∨ L.suffixes (typeKey s.wordInput c).2 = []) :
    keyRound L s c = ((typeKey s.wordInput c).1 ++ redrawOut L (typeKey s.wordInput c).2,
      .next { s with wordInput := (typeKey s.wordInput c).2 }) := by
  unfold keyRound redrawOut
  rw [if_neg h3]
  generalize typeKey s.wordInput c = p at h9
  obtain ⟨out, w⟩ := p
  simp only at h9 ⊢
  rw [if_neg h68]
  cases hsx : L.suffixes w with
  | nil =>
    by_cases hw : w = []
    · simp [h13, hw, List.append_assoc]
    · simp [h13, hw, List.append_assoc]
  | cons x r =>
    have : c ≠ 9 := by
      rcases h9 with h | h
      · exact h
      · rw [hsx] at h; cases h
    simp [h13, this, List.append_assoc]

theorem keyRound_tab {L : WordList} {s : WordState} {x : Bytes} {r : List Bytes} (h : L.suffixes s.wordInput = x :: r) :
    keyRound L s 9 = (x, .next { s with wordInput := s.wordInput ++ x }) := by
  unfold keyRound
  rw [typeKey_other (by decide) (by decide)]
  simp [h]

theorem keyRound_left {L : WordList} {s : WordState} :
    keyRound L s 68 = (nextWordOut { s with i := s.i - 1 }, nextWord { s with i := s.i - 1 }) := by
  unfold keyRound
  rw [typeKey_other (by decide) (by decide)]
  simp

theorem keyRound_enter_none {L : WordList} {s : WordState} {c : Byte} (hc : c = 13 ∨ c = 32)
    (h : L.suffixes s.wordInput = []) :
    keyRound L s c = (saveCursor ++ (str "\r\n" ++ red badWordMessage ++ loadCursor), .next s) := by
  unfold keyRound
  rw [typeKey_other (by rcases hc with rfl | rfl <;> decide) (by rcases hc with rfl | rfl <;> decide)]
  rcases hc with rfl | rfl <;> simp [h]

theorem keyRound_enter_some {L : WordList} {s : WordState} {c : Byte} (hc : c = 13 ∨ c = 32) {x : Bytes} {r : List Bytes}
    (h : L.suffixes s.wordInput = x :: r) :
    (∃ e, s.i = 0 ∧ parseMnemonicVersion L (s.wordInput ++ x) = .err e ∧
      keyRound L s c = (saveCursor ++ (str "\r\n" ++ red (versionErrorText L (s.wordInput ++ x)) ++ loadCursor), .next s)) ∨
    (∃ p, keyRound L s c = (saveCursor, .finished (.panic p))) ∨
    ((¬ ∃ e, s.i = 0 ∧ parseMnemonicVersion L (s.wordInput ++ x) = .err e) ∧
      ∃ s1, keyRound L s c = (saveCursor ++ nextWordOut s1, nextWord s1)) := by
  unfold keyRound
  rw [typeKey_other (by rcases hc with rfl | rfl <;> decide) (by rcases hc with rfl | rfl <;> decide)]
  have h9 : c ≠ 9 := by rcases hc with rfl | rfl <;> decide
  have h3 : ¬ (c = 3 ∨ c = 4) := by rcases hc with rfl | rfl <;> decide
  have h68 : c ≠ 68 := by rcases hc with rfl | rfl <;> decide
  rw [if_neg h3]
  simp only [h68, if_false, h, h9, decide_false, hc, if_true, List.nil_append]
  by_cases hi : s.i = 0
  · simp only [hi, if_true]
    cases hp : parseMnemonicVersion L (s.wordInput ++ x) with
    | err e =>
      refine Or.inl ⟨e, trivial, rfl, ?_⟩
      have : ({ i := 0, wordCount := s.wordCount, words := s.words, wordInput := s.wordInput } : WordState) = s := by
        cases s; simp_all
      simp [← hi]
    | panic p => exact Or.inr (Or.inl ⟨p, rfl⟩)
    | ok v => exact Or.inr (Or.inr ⟨by simp, _, rfl⟩)
  · simp only [hi, if_false]
    exact Or.inr (Or.inr ⟨by simp, _, rfl⟩)

theorem nextWord_i {s s' : WordState} (h : nextWord s = .next s') : s' = { s with wordInput := [] } ∧ s.i < s.wordCount := by
  unfold nextWord at h
  by_cases hi : s.i < s.wordCount
  · rw [if_pos hi] at h
    cases h
    exact ⟨rfl, hi⟩
  · rw [if_neg hi] at h; cases h

theorem Base.next {L : WordList} {h t : Term} (b : Base h t) {s s' : WordState} (hn : nextWord s = .next s')
    (hf : Fit L h.width s') :
    Wait h (t.feed (nextWordOut s)) (promptText s'.i ++ s'.wordInput) [] ∧ s'.wordInput = [] := by
  obtain ⟨rfl, hi⟩ := nextWord_i hn
  refine ⟨?_, rfl⟩
  unfold nextWordOut
  rw [if_pos hi]
  simp only [List.append_nil]
  refine b.prompt ?_
  have : (promptText s.i ++ [] ++ headSuffix L []).length < h.width := hf
  rw [List.length_append, List.append_nil] at this
  omega

theorem Base.done {h t : Term} (b : Base h t) {s : WordState} {res : Res (List Bytes)}
    (hn : nextWord s = .finished res) : Base h (t.feed (nextWordOut s)) := by
  unfold nextWordOut
  unfold nextWord at hn
  by_cases hi : s.i < s.wordCount
  · rw [if_pos hi] at hn; cases hn
  · rw [if_neg hi]; exact b

theorem headSuffix_word {L : WordList} (hL : L.Lawful) {w x : Bytes} {r : List Bytes} (h : L.suffixes w = x :: r) :
    headSuffix L (w ++ x) = [] := by
  obtain ⟨i, hi, e⟩ := hL.suffix_word w x (by rw [h]; simp)
  obtain ⟨r', hr⟩ := hL.suffix_exact i hi
  rw [headSuffix, ← e, hr]
  rfl

/-- One key on the screen -/
theorem screen_round {L : WordList} (hL : L.Lawful) {h t : Term} (r : Ready h) {s : WordState} {sug : Bytes} (c : Byte)
    (w : Wait h t (promptText s.i ++ s.wordInput) sug) (hs : Sug L s sug) (hf : Fit L h.width s) :
    (∀ s', (keyRound L s c).2 = .next s' → Fit L h.width s' →
      ∃ sug', Wait h (t.feed (keyRound L s c).1) (promptText s'.i ++ s'.wordInput) sug' ∧ Sug L s' sug' ∧
        Note L h (t.feed (keyRound L s c).1) s s' c) ∧
    (∀ res, (keyRound L s c).2 = .finished res → Base h (t.feed (keyRound L s c).1)) := by
  by_cases h3 : c = 3 ∨ c = 4
  · have : keyRound L s c = ([], .finished (.err .aborted)) := by unfold keyRound; rw [if_pos h3]
    rw [this]
    exact ⟨fun s' h => (nomatch h), fun _ _ => w.toBase⟩
  by_cases h68 : c = 68
  · subst h68
    rw [keyRound_left]
    refine ⟨fun s' h1 h2 => ?_, fun res h1 => w.toBase.done h1⟩
    obtain ⟨w', e⟩ := w.toBase.next h1 h2
    refine ⟨[], w', Or.inr ⟨rfl, e⟩, ?_⟩
    exact ⟨fun h => absurd rfl h, fun h => absurd h (by decide), fun h => absurd h (by decide)⟩
  by_cases h13 : c = 13 ∨ c = 32
  · cases hsx : L.suffixes s.wordInput with
    | nil =>
      rw [keyRound_enter_none h13 hsx]
      refine ⟨fun s' h1 _ => ?_, fun res h1 => (nomatch h1)⟩
      cases h1
      obtain ⟨w1, st⟩ := stay_message r w .noWord
      refine ⟨sug, w1, hs, ?_, fun _ _ => st, ?_⟩
      · rintro - h1 h2; exact absurd h13 (by simp [h1, h2])
      · intro _ x r' e; rw [hsx] at e; cases e
    | cons x r' =>
      obtain ⟨i, hi, hw⟩ := hL.suffix_word s.wordInput x (by rw [hsx]; simp)
      rcases keyRound_enter_some h13 hsx with ⟨e, h0, hp, heq⟩ | ⟨p, heq⟩ | ⟨hne, s1, heq⟩
      · rw [heq]
        refine ⟨fun s' h1 _ => ?_, fun res h1 => (nomatch h1)⟩
        cases h1
        rw [← hw] at hp ⊢
        obtain ⟨hm, -⟩ := version_message hL hi hp
        obtain ⟨w1, st⟩ := stay_message r w hm
        refine ⟨sug, w1, hs, ?_, ?_, ?_⟩
        · rintro - h1 h2; exact absurd h13 (by simp [h1, h2])
        · intro _ e'; rw [hsx] at e'; cases e'
        · intro _ x2 r2 e2 _ _ _
          rw [hsx] at e2; cases e2
          rw [← hw]; exact st
      · rw [heq]
        refine ⟨fun s' h1 => (nomatch h1), fun res _ => ?_⟩
        simp only
        rw [feed_save w.esc]
        exact w.save.1.toBase
      · rw [heq]
        simp only
        rw [feed_append, feed_save w.esc]
        refine ⟨fun s' h1 h2 => ?_, fun res h1 => w.save.1.toBase.done h1⟩
        obtain ⟨w', e⟩ := w.save.1.toBase.next h1 h2
        refine ⟨[], w', Or.inr ⟨rfl, e⟩, ?_, ?_, ?_⟩
        · rintro - h1 h2; exact absurd h13 (by simp [h1, h2])
        · intro _ e'; rw [hsx] at e'; cases e'
        · intro _ x2 r2 e2 h0 e' hp
          rw [hsx] at e2; cases e2
          exact absurd ⟨e', h0, hp⟩ hne
  by_cases h9 : c = 9 ∧ L.suffixes s.wordInput ≠ []
  · obtain ⟨rfl, hne⟩ := h9
    cases hsx : L.suffixes s.wordInput with
    | nil => exact absurd hsx hne
    | cons x r' =>
      rw [keyRound_tab hsx]
      have hx : headSuffix L s.wordInput = x := by simp [headSuffix, hsx]
      have hfit : (promptText s.i ++ s.wordInput ++ x).length < h.width := hx ▸ hf
      refine ⟨fun s' h1 h2 => ?_, fun res h1 => (nomatch h1)⟩
      cases h1
      refine ⟨[], ?_, Or.inl (headSuffix_word hL hsx).symm, ?_⟩
      · simp only
        rw [← List.append_assoc]
        refine w.text ?_ (printing_suffix hL (by rw [hsx]; simp)) hfit
        rcases hs with hs | hs
        · exact Or.inr (hs.trans hx)
        · exact Or.inl hs.1
      · refine ⟨?_, fun h => absurd h (by decide), fun h => absurd h (by decide)⟩
        rintro - - - (h | h)
        · exact absurd rfl h
        · exact absurd h hne
  · have h9' : c ≠ 9 ∨ L.suffixes (typeKey s.wordInput c).2 = [] := by
      by_cases hc : c = 9
      · subst hc
        right
        rw [typeKey_other (by decide) (by decide)]
        by_contra hne
        exact h9 ⟨rfl, hne⟩
      · exact Or.inl hc
    rw [keyRound_redraw h3 h68 h13 h9']
    refine ⟨fun s' h1 h2 => ?_, fun res h1 => (nomatch h1)⟩
    simp only at h1
    cases h1
    have h2' : (promptText s.i ++ (typeKey s.wordInput c).2 ++ headSuffix L (typeKey s.wordInput c).2).length < h.width := h2
    have hp := pre_typeKey (c := c) w (by rw [List.length_append] at h2'; omega)
    simp only
    rw [feed_append]
    generalize t.feed (typeKey s.wordInput c).1 = u at hp
    generalize (typeKey s.wordInput c).2 = wi at hp h2'
    unfold redrawOut
    cases hsx : L.suffixes wi with
    | nil =>
      have hx : headSuffix L wi = [] := by simp [headSuffix, hsx]
      simp only
      by_cases hwi : wi = []
      · rw [if_pos hwi]
        obtain ⟨w1, bl⟩ := redraw_empty r hp
        refine ⟨[], w1, Or.inl hx.symm, ?_, fun h => absurd h h13, fun h => absurd h h13⟩
        intro _ _ _ _
        exact ⟨fun _ => bl, fun _ h => absurd hwi h⟩
      · rw [if_neg hwi]
        obtain ⟨w1, st⟩ := redraw_message r hp .noWord
        refine ⟨[], w1, Or.inl hx.symm, ?_, fun h => absurd h h13, fun h => absurd h h13⟩
        intro _ _ _ _
        exact ⟨fun h => absurd h (by simp [hsx, hwi]), fun _ _ => st⟩
    | cons x r' =>
      have hx : headSuffix L wi = x := by simp [headSuffix, hsx]
      simp only
      obtain ⟨w1, bl⟩ := redraw_suggest r hp (printing_suffix hL (by rw [hsx]; simp)) (hx ▸ h2')
      refine ⟨x, w1, Or.inl hx.symm, ?_, fun h => absurd h h13, fun h => absurd h h13⟩
      intro _ _ _ _
      exact ⟨fun _ => bl, fun h => absurd h (by simp [hsx])⟩

/-! ## The header -/

/-- The terminal went on: nothing above the row where it was has changed. -/
structure Onward (t u : Term) : Prop where
  esc : u.esc = .ground
  width : u.width = t.width
  height : u.height = t.height
  topRow : u.top ≤ u.row
  rowTop : u.row < u.top + u.height
  down : t.row ≤ u.row
  above : ∀ r c, r < t.row → u.cell r c = t.cell r c

theorem Onward.trans {t u v : Term} (a : Onward t u) (b : Onward u v) : Onward t v where
  esc := b.esc
  width := b.width.trans a.width
  height := b.height.trans a.height
  topRow := b.topRow
  rowTop := b.rowTop
  down := Nat.le_trans a.down b.down
  above := fun r c h => (b.above r c (by have := a.down; omega)).trans (a.above r c h)

theorem onward_lineFeed {t : Term} (he : t.esc = .ground) (h1 : t.top ≤ t.row) (h2 : t.row < t.top + t.height) :
    Onward t t.lineFeed ∧ t.lineFeed.wrap = false ∧ t.lineFeed.row = t.row + 1 ∧ t.lineFeed.faint = t.faint ∧
      t.lineFeed.col = t.col := by
  unfold Term.lineFeed
  by_cases h : t.row + 1 < t.top + t.height
  · rw [if_pos h]
    refine ⟨⟨he, rfl, rfl, ?_, h, ?_, fun _ _ _ => rfl⟩, rfl, rfl, rfl, rfl⟩
    · show t.top ≤ t.row + 1; omega
    · show t.row ≤ t.row + 1; omega
  · rw [if_neg h]
    refine ⟨⟨he, rfl, rfl, ?_, ?_, ?_, ?_⟩, rfl, rfl, rfl, rfl⟩
    · show t.top + 1 ≤ t.row + 1; omega
    · show t.row + 1 < t.top + 1 + t.height; omega
    · show t.row ≤ t.row + 1; omega
    · intro r c hr
      simp only [Term.clear]
      rw [if_neg (by omega)]

theorem lineFeed_top {t : Term} (h1 : t.top ≤ t.row) (hh : 2 ≤ t.height) : t.lineFeed.top ≤ t.row := by
  unfold Term.lineFeed
  by_cases h : t.row + 1 < t.top + t.height
  · rw [if_pos h]; exact h1
  · rw [if_neg h]
    show t.top + 1 ≤ t.row
    omega

theorem onward_put {t : Term} (he : t.esc = .ground) (h1 : t.top ≤ t.row) (h2 : t.row < t.top + t.height) (b : Byte) :
    Onward t (t.put b) ∧ (t.put b).faint = t.faint := by
  have key : ∀ u : Term, Onward t u → u.faint = t.faint →
      Onward t (let v := { u with cell := fun r c => if r = u.row ∧ c = u.col then ⟨b, u.faint⟩ else u.cell r c }
        if v.col + 1 < v.width then { v with col := v.col + 1 } else { v with wrap := true }) ∧
      (let v := { u with cell := fun r c => if r = u.row ∧ c = u.col then ⟨b, u.faint⟩ else u.cell r c }
        if v.col + 1 < v.width then { v with col := v.col + 1 } else { v with wrap := true }).faint = t.faint := by
    intro u o hf
    have ab : ∀ r c, r < t.row → (if r = u.row ∧ c = u.col then (⟨b, u.faint⟩ : Cell) else u.cell r c) = t.cell r c := by
      intro r c hr
      rw [if_neg (by have := o.down; omega)]
      exact o.above r c hr
    simp only
    split
    · exact ⟨⟨o.esc, o.width, o.height, o.topRow, o.rowTop, o.down, ab⟩, hf⟩
    · exact ⟨⟨o.esc, o.width, o.height, o.topRow, o.rowTop, o.down, ab⟩, hf⟩
  unfold Term.put
  by_cases hw : t.wrap = true
  · rw [if_pos hw]
    obtain ⟨o, -, -, hf, -⟩ := onward_lineFeed he h1 h2
    exact key { t.lineFeed with col := 0 } ⟨o.esc, o.width, o.height, o.topRow, o.rowTop, o.down, o.above⟩ hf
  · rw [if_neg hw]
    exact key t ⟨he, rfl, rfl, h1, h2, Nat.le_refl _, fun _ _ _ => rfl⟩ rfl

/-- Text with carriage returns and line feeds -/
theorem onward_text : ∀ (bs : Bytes) (t : Term), t.esc = .ground → t.top ≤ t.row → t.row < t.top + t.height →
    (∀ b ∈ bs, Printing b ∨ b = 0x0D ∨ b = 0x0A) → Onward t (t.feed bs) ∧ (t.feed bs).faint = t.faint
  | [], t, he, h1, h2, _ => ⟨⟨he, rfl, rfl, h1, h2, Nat.le_refl _, fun _ _ _ => rfl⟩, rfl⟩
  | b :: bs, t, he, h1, h2, hb => by
    have e : t.feed (b :: bs) = (t.step b).feed bs := rfl
    have one : Onward t (t.step b) ∧ (t.step b).faint = t.faint := by
      rcases hb b (by simp) with h | rfl | rfl
      · rw [step_printing he h]
        exact onward_put he h1 h2 b
      · have : t.step 0x0D = { t with col := 0, wrap := false } := feed_cr he
        rw [this]
        exact ⟨⟨he, rfl, rfl, h1, h2, Nat.le_refl _, fun _ _ _ => rfl⟩, rfl⟩
      · have : t.step 0x0A = t.lineFeed := feed_lf he
        rw [this]
        obtain ⟨o, -, -, hf, -⟩ := onward_lineFeed he h1 h2
        exact ⟨o, hf⟩
    rw [e]
    obtain ⟨o, hf⟩ := onward_text bs (t.step b) one.1.esc one.1.topRow one.1.rowTop (fun x hx => hb x (by simp [hx]))
    exact ⟨one.1.trans o, hf.trans one.2⟩

theorem onward_faint {t : Term} {bs : Bytes} (he : t.esc = .ground) (h1 : t.top ≤ t.row)
    (h2 : t.row < t.top + t.height) (hb : ∀ b ∈ bs, Printing b ∨ b = 0x0D ∨ b = 0x0A) :
    Onward t (t.feed (faint bs)) ∧ (t.feed (faint bs)).faint = false := by
  have e : faint bs = [0x1B, 0x5B, 0x32, 0x6D] ++ bs ++ [0x1B, 0x5B, 0x32, 0x32, 0x6D] := by
    simp [faint, escapeCode, code_faint, code_boldEnd]
  rw [e, feed_append, feed_append, feed_faintOn he]
  obtain ⟨o, -⟩ := onward_text bs { t with faint := true } he h1 h2 hb
  rw [feed_faintOff o.esc]
  exact ⟨⟨o.esc, o.width, o.height, o.topRow, o.rowTop, o.down, o.above⟩, rfl⟩

theorem onward_boldcyan {t : Term} {bs : Bytes} (he : t.esc = .ground) (h1 : t.top ≤ t.row)
    (h2 : t.row < t.top + t.height) (hb : ∀ b ∈ bs, Printing b ∨ b = 0x0D ∨ b = 0x0A) :
    Onward t (t.feed (bold (cyan bs))) ∧ (t.feed (bold (cyan bs))).faint = false := by
  have e : bold (cyan bs) = sgr [0x31] ++ sgr [0x33, 0x36] ++ bs ++ sgr [0x33, 0x39] ++ [0x1B, 0x5B, 0x32, 0x32, 0x6D] := by
    simp [bold, cyan, escapeCode, code_bold, code_boldEnd, code_cyan, code_colorEnd, sgr]
  rw [e, feed_append, feed_append, feed_append, feed_append, feed_sgr he (by decide), feed_sgr he (by decide)]
  obtain ⟨o, -⟩ := onward_text bs t he h1 h2 hb
  rw [feed_sgr o.esc (by decide), feed_faintOff o.esc]
  exact ⟨⟨o.esc, o.width, o.height, o.topRow, o.rowTop, o.down, o.above⟩, rfl⟩

instance (b : Byte) : Decidable (Printing b ∨ b = 0x0D ∨ b = 0x0A) := inferInstanceAs (Decidable (_ ∨ _))

/-- After the header the prompt can be written. -/
theorem ready_header {t : Term} (he : t.esc = .ground) (h1 : t.top ≤ t.row) (h2 : t.row < t.top + t.height)
    (hh : 2 ≤ t.height) (hw : 46 ≤ t.width) :
    Ready (t.feed promptHeader) ∧ t.row ≤ (t.feed promptHeader).row ∧ (t.feed promptHeader).width = t.width ∧
      ∀ r c, r < t.row → (t.feed promptHeader).cell r c = t.cell r c := by
  unfold promptHeader
  simp only [feed_append]
  obtain ⟨o1, f1⟩ := onward_boldcyan (bs := inputHeaderMessage ++ str "\r\n") he h1 h2 (by decide +kernel)
  generalize t.feed (bold (cyan (inputHeaderMessage ++ str "\r\n"))) = t1 at o1 f1
  obtain ⟨o2, f2⟩ := onward_text (str "\r\n") t1 o1.esc o1.topRow o1.rowTop (by decide +kernel)
  have o2 := o1.trans o2
  generalize t1.feed (str "\r\n") = t2 at o2 f2
  obtain ⟨o3, f3⟩ := onward_faint (bs := str "- ENTER/SPACE:    Autocomplete and submit word\r\n") o2.esc o2.topRow
    o2.rowTop (by decide +kernel)
  have o3 := o2.trans o3
  generalize t2.feed _ = t3 at o3 f3
  obtain ⟨o4, f4⟩ := onward_faint (bs := str "- TAB:            Autocomplete word without submitting\r\n") o3.esc
    o3.topRow o3.rowTop (by decide +kernel)
  have o4 := o3.trans o4
  generalize t3.feed _ = t4 at o4 f4
  obtain ⟨o5, f5⟩ := onward_faint (bs := str "- BACKSPACE:      Revise current word\r\n") o4.esc o4.topRow o4.rowTop
    (by decide +kernel)
  have o5 := o4.trans o5
  generalize t4.feed _ = t5 at o5 f5
  obtain ⟨o6, f6⟩ := onward_faint (bs := str "- LEFT ARROW:     Revise previous word\r\n") o5.esc o5.topRow o5.rowTop
    (by decide +kernel)
  have o6 := o5.trans o6
  generalize t5.feed _ = t6 at o6 f6
  obtain ⟨o7, f7⟩ := onward_faint (bs := str "- CTRL+C/CTRL+D:  Quit\r\n") o6.esc o6.topRow o6.rowTop (by decide +kernel)
  have o7 := o6.trans o7
  generalize t6.feed _ = t7 at o7 f7
  have e : str "\r\n" = [0x0D] ++ [0x0A] := by decide
  rw [e, feed_append, feed_cr o7.esc, feed_lf (by exact o7.esc)]
  obtain ⟨o8, w8, -, f8, c8⟩ := onward_lineFeed (t := { t7 with col := 0, wrap := false }) o7.esc o7.topRow o7.rowTop
  generalize Term.lineFeed { t7 with col := 0, wrap := false } = t8 at o8 w8 f8 c8
  have o8' : Onward t t8 := o7.trans ⟨o8.esc, o8.width, o8.height, o8.topRow, o8.rowTop, o8.down, o8.above⟩
  rw [str_lf, feed_lf o8'.esc]
  obtain ⟨o9, w9, r9, f9, c9⟩ := onward_lineFeed o8'.esc o8'.topRow o8'.rowTop
  have l9 := lineFeed_top o8'.topRow (by rw [o8'.height]; exact hh)
  generalize t8.lineFeed = t9 at o9 w9 r9 f9 c9 l9
  rw [feed_previous o9.esc]
  have hr : max t9.top (t9.row - 1) = t8.row := by
    omega
  rw [hr]
  have o10 := o8'.trans o9
  refine ⟨⟨o9.esc, rfl, ?_, rfl, ?_, ?_, ?_⟩, o8'.down, o10.width, o10.above⟩
  · show t9.faint = false
    rw [f9, f8]; exact f7
  · show t9.top ≤ t8.row
    omega
  · show t8.row + 1 < t9.top + t9.height
    have := o9.rowTop
    omega
  · show 46 ≤ t9.width
    rw [o10.width]; exact hw

/-! ## All keys -/

theorem keysOut_append {L : WordList} : ∀ (a : Bytes) {b : Bytes} {s s1 : WordState}, (keysOut L s a).2 = some s1 →
    (keysOut L s (a ++ b)).1 = (keysOut L s a).1 ++ (keysOut L s1 b).1 ∧ (keysOut L s (a ++ b)).2 = (keysOut L s1 b).2
  | [], b, s, s1, h => by
    cases h
    exact ⟨rfl, rfl⟩
  | c :: a, b, s, s1, h => by
    rw [List.cons_append]
    rcases hk : keyRound L s c with ⟨out, st⟩
    cases st with
    | finished r =>
      unfold keysOut at h
      rw [hk] at h
      cases h
    | next s' =>
      have e : ∀ k, keysOut L s (c :: k) = (out ++ (keysOut L s' k).1, (keysOut L s' k).2) := by
        intro k
        conv_lhs => unfold keysOut
        rw [hk]
      rw [e] at h ⊢
      rw [e]
      obtain ⟨e1, e2⟩ := keysOut_append a (b := b) h
      simp only
      rw [e1, e2, List.append_assoc]
      exact ⟨rfl, rfl⟩

theorem screen_keys {L : WordList} (hL : L.Lawful) {h : Term} (r : Ready h) : ∀ (keys : Bytes) (t : Term) (s : WordState)
    (sug : Bytes), Wait h t (promptText s.i ++ s.wordInput) sug → Sug L s sug →
    (∀ pre s', pre <+: keys → (keysOut L s pre).2 = some s' → Fit L h.width s') →
    (∀ s', (keysOut L s keys).2 = some s' →
      ∃ sug', Wait h (t.feed (keysOut L s keys).1) (promptText s'.i ++ s'.wordInput) sug' ∧ Sug L s' sug') ∧
    ((keysOut L s keys).2 = none → ∃ u, Base h u ∧ t.feed (keysOut L s keys).1 = u.feed promptDeferred)
  | [], t, s, sug, w, hs, _ => by
    refine ⟨fun s' h => ?_, fun h => (nomatch h)⟩
    cases h
    exact ⟨sug, w, hs⟩
  | c :: keys, t, s, sug, w, hs, hf => by
    have hf0 : Fit L h.width s := hf [] s ⟨_, rfl⟩ rfl
    obtain ⟨hn, hd⟩ := screen_round hL r c w hs hf0
    rcases hk : keyRound L s c with ⟨out, st⟩
    rw [hk] at hn hd
    cases st with
    | finished res =>
      have e : keysOut L s (c :: keys) = (out ++ promptDeferred, none) := by
        conv_lhs => unfold keysOut
        rw [hk]
      rw [e]
      exact ⟨fun s' h => (nomatch h), fun _ => ⟨_, hd res rfl, feed_append _ _ _⟩⟩
    | next s1 =>
      have e : ∀ k, keysOut L s (c :: k) = (out ++ (keysOut L s1 k).1, (keysOut L s1 k).2) := by
        intro k
        conv_lhs => unfold keysOut
        rw [hk]
      have hf1 : ∀ pre s', pre <+: keys → (keysOut L s1 pre).2 = some s' → Fit L h.width s' := by
        rintro pre s' ⟨x, rfl⟩ h'
        exact hf (c :: pre) s' ⟨x, rfl⟩ (by rw [e]; exact h')
      obtain ⟨sug1, w1, hs1, -⟩ := hn s1 rfl (hf1 [] s1 ⟨_, rfl⟩ rfl)
      obtain ⟨a, b⟩ := screen_keys hL r keys _ s1 sug1 w1 hs1 hf1
      rw [e]
      simp only
      rw [feed_append]
      exact ⟨a, b⟩

theorem ready_base {h : Term} (r : Ready h) : Base h h :=
  ⟨r.esc, r.wrap, r.faint, rfl, rfl, rfl, rfl, fun _ => Or.inl rfl, fun _ _ _ _ => rfl⟩

/-- The first prompt -/
theorem ready_prompt {L : WordList} {h : Term} (r : Ready h) (hf : Fit L h.width .start) :
    Wait h (h.feed (wordPrompt 0)) (promptText WordState.start.i ++ WordState.start.wordInput) [] ∧ Sug L .start [] := by
  refine ⟨?_, Or.inr ⟨rfl, rfl⟩⟩
  have : (promptText 0 ++ [] ++ headSuffix L []).length < h.width := hf
  rw [List.length_append, List.append_nil] at this
  have w := (ready_base r).prompt (i := 0) (by omega)
  rw [show promptText WordState.start.i ++ WordState.start.wordInput = promptText 0 from List.append_nil _]
  exact w

/-- The end of the prompt -/
theorem Base.deferred {h u : Term} (r : Ready h) (b : Base h u) :
    (u.feed promptDeferred).row = h.row + 2 ∧ (u.feed promptDeferred).col = 0 ∧ (u.feed promptDeferred).width = h.width ∧
    (∀ c, (u.feed promptDeferred).cell h.row c = .blank) ∧
    (∀ c, MsgCell (h.cell (h.row + 1) c) c ((u.feed promptDeferred).cell (h.row + 1) c)) ∧
    ∀ row c, row ≠ h.row → row ≠ h.row + 1 → (u.feed promptDeferred).cell row c =
      if row = h.row + 2 ∧ h.top + h.height ≤ row then .blank else h.cell row c := by
  unfold promptDeferred
  rw [feed_append, feed_append]
  obtain ⟨w1, -⟩ := b.atStart.erase
  generalize (u.feed (str "\r")).feed eraseLineForward = v at w1
  have e : str "\n\n" = [0x0A] ++ [0x0A] := by decide
  have h1 : v.lineFeed = { v with row := h.row + 1, wrap := false } := by
    unfold Term.lineFeed
    rw [if_pos (by rw [w1.row, w1.top, w1.height]; exact r.bottom), w1.row]
  rw [e, feed_append, feed_lf w1.esc, h1, feed_lf (by exact w1.esc)]
  have hb : ∀ c, v.cell h.row c = .blank := by
    intro c
    rw [w1.shown]
    simp [plain, faintly]
  have hc : v.col = 0 := w1.col
  unfold Term.lineFeed
  simp only
  have ht := w1.top
  have hh := w1.height
  by_cases hlt : h.row + 1 + 1 < v.top + v.height
  · rw [if_pos hlt]
    exact ⟨rfl, hc, w1.width, hb, w1.msg, fun row c a b => by
      rw [if_neg (by omega)]
      exact w1.others row c a b⟩
  · rw [if_neg hlt]
    have out : ∀ row c, row ≠ h.row + 2 → (Term.clear { v with row := h.row + 1, wrap := false } (h.row + 1 + 1) 0).cell row c =
        v.cell row c := by
      intro row c hr
      simp only [Term.clear]
      rw [if_neg (fun x => hr x.1)]
    refine ⟨rfl, hc, w1.width, ?_, ?_, ?_⟩
    · intro c
      exact (out _ c (by omega)).trans (hb c)
    · intro c
      have := out (h.row + 1) c (by omega)
      simp only at this ⊢
      rw [this]
      exact w1.msg c
    · intro row c a b
      by_cases hr : row = h.row + 2
      · rw [if_pos (by omega)]
        simp only [Term.clear]
        rw [if_pos ⟨hr, by omega⟩]
      · rw [if_neg (by omega)]
        exact (out row c hr).trans (w1.others row c a b)

end Verif.Proofs
