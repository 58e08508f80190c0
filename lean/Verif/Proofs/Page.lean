import Verif.Proofs.SimpleScreen
import Verif.Model.Cli.Output

/-! # Rows of text on a terminal that is not in raw mode -/

namespace Verif.Proofs

open Verif.Model Verif.Model.Cli Verif.Spec Verif.Spec.Term

/-! ## Text that only goes on -/

/-- Nothing is shown below the row of the cursor. -/
def BlankBelow (t : Term) : Prop := ∀ r c, t.row < r → t.cell r c = .blank

/-- Printing characters, carriage returns, line feeds and sequences that choose the rendition -/
def tame : Esc → Bytes → Bool
  | .ground, [] => true
  | _, [] => false
  | .ground, b :: bs =>
    if b = 0x1B then tame .escape bs
    else (decide (0x20 ≤ b ∧ b < 0x7F) || b == 0x0D || b == 0x0A) && tame .ground bs
  | .escape, b :: bs => b == 0x5B && tame (.csi []) bs
  | .csi p, b :: bs =>
    if 0x30 ≤ b ∧ b ≤ 0x3F then tame (.csi (p ++ [b])) bs
    else b == 0x6D && tame .ground bs

/-- The terminal went on, perhaps into a control sequence. -/
structure Gone (t u : Term) : Prop where
  width : u.width = t.width
  height : u.height = t.height
  topRow : u.top ≤ u.row
  rowTop : u.row < u.top + u.height
  down : t.row ≤ u.row
  above : ∀ r c, r < t.row → u.cell r c = t.cell r c
  below : BlankBelow t → BlankBelow u

theorem Gone.trans {t u v : Term} (a : Gone t u) (b : Gone u v) : Gone t v where
  width := b.width.trans a.width
  height := b.height.trans a.height
  topRow := b.topRow
  rowTop := b.rowTop
  down := Nat.le_trans a.down b.down
  above := fun r c h => (b.above r c (by have := a.down; omega)).trans (a.above r c h)
  below := fun h => b.below (a.below h)

theorem Gone.same {t u : Term} (h1 : t.top ≤ t.row) (h2 : t.row < t.top + t.height) (hw : u.width = t.width)
    (hh : u.height = t.height) (ht : u.top = t.top) (hr : u.row = t.row) (hc : u.cell = t.cell) : Gone t u where
  width := hw
  height := hh
  topRow := by rw [ht, hr]; exact h1
  rowTop := by rw [ht, hr, hh]; exact h2
  down := by rw [hr]
  above := fun r c _ => by rw [hc]
  below := fun h r c hlt => by rw [hc]; exact h r c (by rw [hr] at hlt; exact hlt)

theorem gone_lineFeed {t : Term} (h1 : t.top ≤ t.row) (h2 : t.row < t.top + t.height) : Gone t t.lineFeed := by
  unfold Term.lineFeed
  by_cases h : t.row + 1 < t.top + t.height
  · rw [if_pos h]
    refine ⟨rfl, rfl, ?_, h, ?_, fun _ _ _ => rfl, fun hb r c hr => hb r c ?_⟩
    · show t.top ≤ t.row + 1; omega
    · show t.row ≤ t.row + 1; omega
    · have : t.row + 1 < r := hr
      omega
  · rw [if_neg h]
    refine ⟨rfl, rfl, ?_, ?_, ?_, ?_, ?_⟩
    · show t.top + 1 ≤ t.row + 1; omega
    · show t.row + 1 < t.top + 1 + t.height; omega
    · show t.row ≤ t.row + 1; omega
    · intro r c hr
      simp only [Term.clear]
      rw [if_neg (by omega)]
    · intro hb r c hr
      have hr' : t.row + 1 < r := hr
      show (if r = t.row + 1 ∧ 0 ≤ c then Cell.blank else t.cell r c) = .blank
      rw [if_neg (by omega)]
      exact hb r c (by omega)

theorem gone_put {t : Term} (h1 : t.top ≤ t.row) (h2 : t.row < t.top + t.height) (b : Byte) : Gone t (t.put b) := by
  have key : ∀ u : Term, Gone t u →
      Gone t (let v := { u with cell := fun r c => if r = u.row ∧ c = u.col then ⟨b, u.faint⟩ else u.cell r c }
        if v.col + 1 < v.width then { v with col := v.col + 1 } else { v with wrap := true }) := by
    intro u o
    have ab : ∀ r c, r < t.row → (if r = u.row ∧ c = u.col then (⟨b, u.faint⟩ : Cell) else u.cell r c) = t.cell r c := by
      intro r c hr
      rw [if_neg (by have := o.down; omega)]
      exact o.above r c hr
    have bl : BlankBelow t → ∀ r c, u.row < r →
        (if r = u.row ∧ c = u.col then (⟨b, u.faint⟩ : Cell) else u.cell r c) = .blank := by
      intro hb r c hr
      rw [if_neg (by omega)]
      exact o.below hb r c hr
    simp only
    split
    · exact ⟨o.width, o.height, o.topRow, o.rowTop, o.down, ab, bl⟩
    · exact ⟨o.width, o.height, o.topRow, o.rowTop, o.down, ab, bl⟩
  unfold Term.put
  by_cases hw : t.wrap = true
  · rw [if_pos hw]
    have o := gone_lineFeed h1 h2
    exact key { t.lineFeed with col := 0 } ⟨o.width, o.height, o.topRow, o.rowTop, o.down, o.above, o.below⟩
  · rw [if_neg hw]
    exact key t (Gone.same h1 h2 rfl rfl rfl rfl rfl)

theorem tame_nil {e : Esc} (h : tame e [] = true) : e = .ground := by
  cases e <;> simp [tame] at h ⊢

theorem gone_tame : ∀ (bs : Bytes) (t : Term), tame t.esc bs = true → t.top ≤ t.row → t.row < t.top + t.height →
    Gone t (t.feed bs) ∧ (t.feed bs).esc = .ground
  | [], t, h, h1, h2 => ⟨Gone.same h1 h2 rfl rfl rfl rfl rfl, tame_nil h⟩
  | b :: bs, t, h, h1, h2 => by
    have e : t.feed (b :: bs) = (t.step b).feed bs := rfl
    rw [e]
    have one : Gone t (t.step b) ∧ tame (t.step b).esc bs = true := by
      cases he : t.esc with
      | ground =>
        rw [he] at h
        by_cases hb : b = 0x1B
        · subst hb
          rw [tame, if_pos rfl] at h
          have : t.step 0x1B = { t with esc := .escape } := by simp [Term.step, he]
          rw [this]
          exact ⟨Gone.same h1 h2 rfl rfl rfl rfl rfl, h⟩
        · rw [tame, if_neg hb] at h
          simp only [Bool.and_eq_true, Bool.or_eq_true, decide_eq_true_eq, beq_iff_eq] at h
          obtain ⟨hc, h⟩ := h
          rcases hc with (hp | rfl) | rfl
          · rw [step_printing he hp]
            have ep : (t.put b).esc = .ground := by
              have : t.feed [b] = t.put b := step_printing he hp
              rw [← this]
              exact (onward_text [b] t he h1 h2 (fun x hx => .inl (by rw [List.mem_singleton.1 hx]; exact hp))).1.esc
            rw [ep]
            exact ⟨gone_put h1 h2 b, h⟩
          · have : t.step 0x0D = { t with col := 0, wrap := false } := feed_cr he
            rw [this]
            exact ⟨Gone.same h1 h2 rfl rfl rfl rfl rfl, by show tame t.esc bs = true; rw [he]; exact h⟩
          · have : t.step 0x0A = t.lineFeed := feed_lf he
            rw [this]
            exact ⟨gone_lineFeed h1 h2, by rw [(onward_lineFeed he h1 h2).1.esc]; exact h⟩
      | escape =>
        rw [he, tame] at h
        simp only [Bool.and_eq_true, beq_iff_eq] at h
        obtain ⟨rfl, h⟩ := h
        have : t.step 0x5B = { t with esc := .csi [] } := by simp [Term.step, he]
        rw [this]
        exact ⟨Gone.same h1 h2 rfl rfl rfl rfl rfl, h⟩
      | csi p =>
        rw [he, tame] at h
        by_cases hb : 0x30 ≤ b ∧ b ≤ 0x3F
        · rw [if_pos hb] at h
          have : t.step b = { t with esc := .csi (p ++ [b]) } := by simp [Term.step, he, hb]
          rw [this]
          exact ⟨Gone.same h1 h2 rfl rfl rfl rfl rfl, h⟩
        · rw [if_neg hb] at h
          simp only [Bool.and_eq_true, beq_iff_eq] at h
          obtain ⟨rfl, h⟩ := h
          have : t.step 0x6D = { t.control p 0x6D with esc := .ground } := by simp [Term.step, he]
          rw [this]
          have hc : (t.control p 0x6D = { t with faint := true } ∨ t.control p 0x6D = { t with faint := false }) ∨
              t.control p 0x6D = t := by
            unfold Term.control
            rw [if_neg (by decide), if_neg (by decide), if_neg (by decide), if_neg (by simp)]
            split
            · exact .inl (.inl rfl)
            · split
              · exact .inl (.inr rfl)
              · exact .inr rfl
          rcases hc with (hc | hc) | hc <;> rw [hc] <;> exact ⟨Gone.same h1 h2 rfl rfl rfl rfl rfl, h⟩
    obtain ⟨g, h3⟩ := gone_tame bs (t.step b) one.2 one.1.topRow one.1.rowTop
    exact ⟨one.1.trans g, h3⟩

theorem tame_append : ∀ (a b : Bytes) (e : Esc), tame e a = true → tame .ground b = true → tame e (a ++ b) = true
  | [], b, e, ha, hb => by
    rw [tame_nil ha]; exact hb
  | x :: a, b, .ground, ha, hb => by
    rw [List.cons_append]
    by_cases hx : x = 0x1B
    · rw [tame, if_pos hx] at ha ⊢
      exact tame_append a b _ ha hb
    · rw [tame, if_neg hx, Bool.and_eq_true] at ha ⊢
      exact ⟨ha.1, tame_append a b _ ha.2 hb⟩
  | x :: a, b, .escape, ha, hb => by
    rw [List.cons_append]
    rw [tame, Bool.and_eq_true] at ha ⊢
    exact ⟨ha.1, tame_append a b _ ha.2 hb⟩
  | x :: a, b, .csi p, ha, hb => by
    rw [List.cons_append]
    rw [tame] at ha ⊢
    by_cases hx : 0x30 ≤ x ∧ x ≤ 0x3F
    · rw [if_pos hx] at ha ⊢
      exact tame_append a b _ ha hb
    · rw [if_neg hx, Bool.and_eq_true] at ha ⊢
      exact ⟨ha.1, tame_append a b _ ha.2 hb⟩

/-- Text that is tame stays so when carriage returns are added. -/
theorem tame_cooked : ∀ (a : Bytes) (e : Esc), tame e a = true → tame e (cooked a) = true
  | [], _, h => h
  | x :: a, e, h => by
    have ec : cooked (x :: a) = (if x = 0x0A then [0x0D, 0x0A] else [x]) ++ cooked a := rfl
    rw [ec]
    by_cases hx : x = 0x0A
    · subst hx
      rw [if_pos rfl]
      cases e with
      | ground =>
        rw [tame, if_neg (by decide), Bool.and_eq_true] at h
        show tame .ground (0x0D :: 0x0A :: cooked a) = true
        rw [tame, if_neg (by decide), tame, if_neg (by decide)]
        simpa using tame_cooked a _ h.2
      | escape => simp [tame] at h
      | csi p =>
        rw [tame, if_neg (by decide)] at h
        simp at h
    · rw [if_neg hx]
      cases e with
      | ground =>
        show tame .ground (x :: cooked a) = true
        rw [tame] at h ⊢
        split
        · rename_i h'
          rw [if_pos h'] at h
          exact tame_cooked a _ h
        · rename_i h'
          rw [if_neg h', Bool.and_eq_true] at h
          rw [Bool.and_eq_true]
          exact ⟨h.1, tame_cooked a _ h.2⟩
      | escape =>
        show tame .escape (x :: cooked a) = true
        rw [tame, Bool.and_eq_true] at h ⊢
        exact ⟨h.1, tame_cooked a _ h.2⟩
      | csi p =>
        show tame (.csi p) (x :: cooked a) = true
        rw [tame] at h ⊢
        split
        · rename_i h'
          rw [if_pos h'] at h
          exact tame_cooked a _ h
        · rename_i h'
          rw [if_neg h', Bool.and_eq_true] at h
          rw [Bool.and_eq_true]
          exact ⟨h.1, tame_cooked a _ h.2⟩

theorem tame_text : ∀ {a : Bytes}, (∀ b ∈ a, Printing b ∨ b = 0x0D ∨ b = 0x0A) → tame .ground a = true
  | [], _ => rfl
  | x :: a, h => by
    have hx := h x (by simp)
    have h27 : x ≠ 0x1B := by
      rcases hx with hx | rfl | rfl
      · rintro rfl
        exact absurd hx.1 (by decide)
      · decide
      · decide
    rw [tame, if_neg h27, Bool.and_eq_true]
    refine ⟨?_, tame_text (fun b hb => h b (by simp [hb]))⟩
    simp only [Bool.or_eq_true, decide_eq_true_eq, beq_iff_eq]
    rcases hx with hx | hx | hx
    · exact .inl (.inl hx)
    · exact .inl (.inr hx)
    · exact .inr hx

/-! ## Rows -/

/-- The cursor is at the start of a row, and nothing is shown from there on. -/
structure Fresh (t : Term) : Prop where
  esc : t.esc = .ground
  wrap : t.wrap = false
  faint : t.faint = false
  col : t.col = 0
  topRow : t.top ≤ t.row
  rowTop : t.row < t.top + t.height
  blank : ∀ r c, t.row ≤ r → t.cell r c = .blank

/-- A line break after anything makes a fresh row. -/
theorem fresh_lf {t : Term} (he : t.esc = .ground) (hf : t.faint = false) (h1 : t.top ≤ t.row)
    (h2 : t.row < t.top + t.height) (hb : BlankBelow t) :
    Fresh (t.feed (cooked (str "\n"))) ∧ (t.feed (cooked (str "\n"))).row = t.row + 1 ∧
      (t.feed (cooked (str "\n"))).width = t.width ∧
      ∀ r c, r ≤ t.row → (t.feed (cooked (str "\n"))).cell r c = t.cell r c := by
  have e : cooked (str "\n") = [0x0D] ++ [0x0A] := by decide
  rw [e, feed_append, feed_cr he, feed_lf (by exact he)]
  unfold Term.lineFeed
  simp only
  by_cases h : t.row + 1 < t.top + t.height
  · rw [if_pos h]
    exact ⟨⟨he, rfl, hf, rfl, by show t.top ≤ t.row + 1; omega, h, fun r c hr => hb r c (by
      have : t.row + 1 ≤ r := hr
      omega)⟩, rfl, rfl, fun _ _ _ => rfl⟩
  · rw [if_neg h]
    refine ⟨⟨he, rfl, hf, rfl, ?_, ?_, ?_⟩, rfl, rfl, ?_⟩
    · show t.top + 1 ≤ t.row + 1; omega
    · show t.row + 1 < t.top + 1 + t.height; omega
    · intro r c hr
      have hr' : t.row + 1 ≤ r := hr
      simp only [Term.clear]
      split
      · rfl
      · exact hb r c (by omega)
    · intro r c hr
      simp only [Term.clear]
      rw [if_neg (by omega)]

/-- A row that was fresh has cells written from its start. -/
structure Written (t u : Term) (cells : List Cell) : Prop where
  esc : u.esc = .ground
  wrap : u.wrap = false
  faint : u.faint = false
  width : u.width = t.width
  height : u.height = t.height
  top : u.top = t.top
  row : u.row = t.row
  col : u.col = cells.length
  shown : ∀ c, u.cell t.row c = cells.getD c .blank
  others : ∀ r c, r ≠ t.row → u.cell r c = t.cell r c

theorem Fresh.written {t : Term} (f : Fresh t) : Written t t [] :=
  ⟨f.esc, f.wrap, f.faint, rfl, rfl, rfl, rfl, f.col, fun c => by rw [f.blank _ _ (Nat.le_refl _)]; simp, fun _ _ _ => rfl⟩

/-- One more piece of text on the row -/
theorem Written.more {t u v : Term} {cells : List Cell} {bs : Bytes} {fa : Bool} (w : Written t u cells)
    (hv : v = { u with cell := Proofs.written u.cell u.row u.col bs fa, col := u.col + bs.length }) :
    Written t v (cells ++ bs.map (⟨·, fa⟩)) := by
  subst hv
  refine ⟨w.esc, w.wrap, w.faint, w.width, w.height, w.top, w.row, ?_, ?_, ?_⟩
  · simp [w.col]
  · intro c
    show Proofs.written u.cell u.row u.col bs fa t.row c = _
    unfold Proofs.written
    rw [w.row, w.col]
    simp only [List.getD_eq_getElem?_getD]
    by_cases h1 : cells.length ≤ c
    · rw [List.getElem?_append_right h1]
      by_cases h2 : c < cells.length + bs.length
      · rw [if_pos ⟨by trivial, h1, h2⟩]
        have : c - cells.length < bs.length := by omega
        simp [this]
      · rw [if_neg (by omega), w.shown]
        rw [List.getD_eq_getElem?_getD, List.getElem?_eq_none h1, List.getElem?_eq_none (by simp; omega)]
    · rw [if_neg (by omega), List.getElem?_append_left (by omega), w.shown]
      simp [List.getD_eq_getElem?_getD]
  · intro r c hr
    show Proofs.written u.cell u.row u.col bs fa r c = _
    rw [written_out (by rw [w.row]; exact hr)]
    exact w.others r c hr

theorem Written.text {t u : Term} {cells : List Cell} {bs : Bytes} (w : Written t u cells)
    (hb : ∀ b ∈ bs, Printing b) (hlt : cells.length + bs.length < t.width) :
    Written t (u.feed bs) (cells ++ plain bs) := by
  refine w.more (fa := false) ?_
  rw [feed_text bs u w.esc w.wrap hb (by rw [w.col, w.width]; exact hlt), w.faint]

theorem Written.faintText {t u : Term} {cells : List Cell} {bs : Bytes} (w : Written t u cells)
    (hb : ∀ b ∈ bs, Printing b) (hlt : cells.length + bs.length < t.width) :
    Written t (u.feed (Cli.faint bs)) (cells ++ faintly bs) := by
  refine w.more (fa := true) ?_
  rw [feed_faint w.esc w.wrap hb (by rw [w.col, w.width]; exact hlt)]
  have := w.faint
  cases u
  simp_all

theorem Written.cyanText {t u : Term} {cells : List Cell} {bs : Bytes} (w : Written t u cells)
    (hb : ∀ b ∈ bs, Printing b) (hlt : cells.length + bs.length < t.width) :
    Written t (u.feed (cyan bs)) (cells ++ plain bs) := by
  have e : cyan bs = sgr [0x33, 0x36] ++ bs ++ sgr [0x33, 0x39] := by
    simp [cyan, escapeCode, code_cyan, code_colorEnd, sgr]
  rw [e, feed_append, feed_append, feed_sgr w.esc (by decide)]
  have w2 := w.text hb hlt
  rw [feed_sgr w2.esc (by decide)]
  exact w2

theorem Written.boldMagenta {t u : Term} {cells : List Cell} {bs : Bytes} (w : Written t u cells)
    (hb : ∀ b ∈ bs, Printing b) (hlt : cells.length + bs.length < t.width) :
    Written t (u.feed (bold (magenta bs))) (cells ++ plain bs) := by
  have e : bold (magenta bs) = sgr [0x31] ++ sgr [0x33, 0x35] ++ bs ++ sgr [0x33, 0x39] ++
      [0x1B, 0x5B, 0x32, 0x32, 0x6D] := by
    simp [bold, magenta, escapeCode, code_bold, code_boldEnd, code_magenta, code_colorEnd, sgr]
  rw [e, feed_append, feed_append, feed_append, feed_append, feed_sgr w.esc (by decide), feed_sgr w.esc (by decide)]
  have w2 := w.text hb hlt
  rw [feed_sgr w2.esc (by decide), feed_faintOff w2.esc, ← w2.faint]
  exact w2

/-- The end of a row -/
theorem Written.end {t u : Term} {cells : List Cell} (f : Fresh t) (w : Written t u cells) :
    Fresh (u.feed (cooked (str "\n"))) ∧ (u.feed (cooked (str "\n"))).row = t.row + 1 ∧
      (u.feed (cooked (str "\n"))).width = t.width ∧
      Shows (u.feed (cooked (str "\n"))) t.row cells ∧
      ∀ r c, r < t.row → (u.feed (cooked (str "\n"))).cell r c = t.cell r c := by
  have h1 := f.topRow
  have h2 := f.rowTop
  obtain ⟨a1, a2, a3, a4⟩ := fresh_lf w.esc w.faint (by rw [w.top, w.row]; exact h1)
    (by rw [w.top, w.row, w.height]; exact h2) (fun r c hr => by
      rw [w.row] at hr
      rw [w.others r c (by omega)]
      exact f.blank r c (by omega))
  rw [w.row] at a2 a4
  refine ⟨a1, a2, a3.trans w.width, ?_, ?_⟩
  · intro c _
    rw [a4 _ _ (Nat.le_refl _), w.shown]
  · intro r c hr
    rw [a4 _ _ (by omega), w.others _ _ (by omega)]

end Verif.Proofs
