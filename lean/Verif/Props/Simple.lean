import Verif.Props.Prompt
import Verif.Proofs.CliTrim

/-! # C50 again: the lines of the simple prompt, independently of the model -/

namespace Verif.Props

open Verif.Model Verif.Model.Cli Verif.Proofs Verif.Spec Verif.Instances

theorem rawLines_tail : ∀ (l cur : Bytes), 0x0A ∉ l → rawLines cur l = flush (cur ++ l)
  | [], cur, _ => by simp [rawLines]
  | x :: l, cur, h => by
    have hx : x ≠ 0x0A := fun c => h (by simp [c])
    rw [rawLines, if_neg hx, rawLines_tail l _ (fun c => h (List.mem_cons_of_mem _ c))]
    simp

theorem rawLines_spec {t : Bytes} {ls : List Bytes} (h : Lines t ls) : rawLines [] t = ls := by
  induction h with
  | nil => rfl
  | @last l h1 h2 =>
    rw [rawLines_tail l [] h2]
    cases l with
    | nil => exact absurd rfl h1
    | cons x l => rfl
  | @cons l t ls h1 _ ih => rw [rawLines_free l [] t h1, ih]; rfl

/-- Every text has lines. -/
theorem lines_exist : ∀ (n : Nat) (t : Bytes), t.length ≤ n → ∃ ls, Lines t ls
  | 0, t, h => by
    have : t = [] := List.length_eq_zero_iff.1 (by omega)
    exact ⟨[], this ▸ .nil⟩
  | n + 1, t, h => by
    by_cases hm : (0x0A : Byte) ∈ t
    · obtain ⟨l, r, rfl, hl⟩ := List.eq_append_cons_of_mem hm
      obtain ⟨ls, hls⟩ := lines_exist n r (by simp at h; omega)
      exact ⟨_, .cons hl hls⟩
    · by_cases h0 : t = []
      · exact ⟨[], h0 ▸ .nil⟩
      · exact ⟨[t], .last h0 hm⟩

/-- The carriage return that the scanner removes is white space anyway. -/
theorem trim_dropCR (l : Bytes) : trimSpace (dropCR l) = trimSpace l := by
  unfold dropCR
  split
  · rename_i h
    have hl : l = l.dropLast ++ [0x0D] := by
      have hne : l ≠ [] := by rintro rfl; cases h
      rw [List.getLast?_eq_some_getLast hne] at h
      conv_lhs => rw [← List.dropLast_append_getLast hne, Option.some.inj h]
    have ht := trimSpace_trimmed l.dropLast
    refine (trimSpace_of (t := l) ⟨?_, ht.start, ht.finish⟩).symm
    obtain ⟨a, b, ha, ⟨cs, hcs, rfl⟩, e⟩ := ht.around
    refine ⟨a, cs.flatMap utf8 ++ [0x0D], ha, ⟨cs ++ [0x0D], ?_, by simp [utf8]⟩, ?_⟩
    · intro c hc
      rcases List.mem_append.1 hc with hc | hc
      · exact hcs c hc
      · rw [List.mem_singleton.1 hc]; decide
    · rw [hl]
      conv_lhs => rw [e]
      simp
  · rfl

/-- The lines are taken one by one, without the white space around them and in lower case, up to a line of
64 KiB or more. -/
theorem c50_lines {L : WordList} (hL : L.Lawful) (stdin : Bytes) (ls trimmed : List Bytes)
    (hls : Lines stdin ls)
    (ht : List.Forall₂ Trimmed (ls.takeWhile (fun l => decide (l.length < 65536))) trimmed) :
    userInputMnemonicSimple L stdin =
      match simpleWanted L.word (trimmed.map L.toLower) with
      | none => .err .stdinRead
      | some ws => .ok ws := by
  have e : (scanLines stdin).map (fun line => L.toLower (trimSpace line)) = trimmed.map L.toLower := by
    unfold scanLines
    rw [rawLines_spec hls, List.map_map]
    have hm : maxScanTokenSize = 65536 := rfl
    rw [hm]
    generalize ls.takeWhile (fun l => decide (l.length < 65536)) = short at ht
    induction ht with
    | nil => rfl
    | cons h1 _ ih =>
      rw [List.map_cons, List.map_cons, ih, Function.comp_apply, trim_dropCR, trimSpace_of h1]
  rw [c50_simple hL, e]
  rfl

open Classical in
theorem simpleWanted_more {L : WordList} (hL : L.Lawful) {ws : List Bytes} (hc : Complete L.word ws)
    (more : List Bytes) : simpleWanted L.word (ws ++ more) = some ws := by
  obtain ⟨hall, w, rest, hw, hn⟩ := hc
  have hf : ws.filter (fun e => decide (IsWord L.word e)) = ws := by
    rw [List.filter_eq_self]
    intro x hx
    simpa using hall x hx
  unfold simpleWanted
  rw [List.filter_append, hf, hw, List.cons_append, List.dropWhile_cons_of_neg (by simpa using ⟨_, hn⟩)]
  dsimp only
  obtain ⟨j, hj, hjw⟩ := hall w (by simp [hw])
  rw [hw] at hn
  have hsize : (if Needs L.word w 14 then 14 else 16) = (w :: rest).length := by
    rw [← hjw, needs_iff hL hj] at hn
    simp only [List.length_cons] at hn ⊢
    by_cases h14 : Needs L.word w 14
    · rw [if_pos h14]; rw [← hjw, needs_iff hL hj] at h14; omega
    · rw [if_neg h14]; rw [← hjw, needs_iff hL hj] at h14; omega
  rw [hsize, if_pos (by simp), ← List.cons_append, List.take_left]

/-- The lines of a text that starts with these, separated by line feeds. -/
theorem lines_start : ∀ (l : Bytes) (ls : List Bytes) (tail : Bytes), (∀ x ∈ l :: ls, x ≠ [] ∧ 0x0A ∉ x) →
    (tail = [] ∨ ∃ rest, tail = 0x0A :: rest) →
    ∃ more, Lines ((l :: ls).intersperse [0x0A] |>.flatten |> (· ++ tail)) (l :: ls ++ more)
  | l, [], tail, h, ht => by
    obtain ⟨h1, h2⟩ := h l (by simp)
    rcases ht with rfl | ⟨rest, rfl⟩
    · exact ⟨[], by simpa using .last h1 h2⟩
    · obtain ⟨more, hm⟩ := lines_exist _ rest le_rfl
      exact ⟨more, by simpa using .cons h2 hm⟩
  | l, l2 :: ls, tail, h, ht => by
    obtain ⟨more, hm⟩ := lines_start l2 ls tail (fun x hx => h x (by simp [hx])) ht
    refine ⟨more, ?_⟩
    have := Lines.cons (h l (by simp)).2 hm
    simpa using this

/-- Whoever enters a complete phrase, a word on each line, gets it back. The last line may end with the
input; otherwise nothing after it matters. -/
theorem c50_by_hand {L : WordList} (hL : L.Lawful) (ws : List Bytes) (hc : Complete L.word ws)
    (ls : List TypedLine) (h : List.Forall₂ TypedLine.Enters ls ws) (tail : Bytes)
    (ht : tail = [] ∨ ∃ rest, tail = 0x0A :: rest) :
    userInputMnemonicSimple L (((ls.map TypedLine.text).intersperse [0x0A]).flatten ++ tail) = .ok ws := by
  have hprops : List.Forall₂ (fun l w => entry L l.text = w ∧ 0x0A ∉ l.text ∧ l.text.length < 65536 ∧
      l.text ≠ []) ls ws := by
    have hmem := hc.1
    clear hc
    induction h with
    | nil => exact .nil
    | @cons l w ls ws hl _ ih =>
      refine .cons ?_ (ih (fun w hw => hmem w (by simp [hw])))
      obtain ⟨j, hj, rfl⟩ := hmem _ List.mem_cons_self
      obtain ⟨h1, h2, h3, h4⟩ := enters_props hL hj hl
      refine ⟨h1, h2, h3, fun hc => ?_⟩
      have : l.typed = [] := by
        unfold TypedLine.text at hc
        simp at hc
        exact hc.2.1
      have h5 := hl.2.2.1
      rw [this] at h5
      exact hL.word_ne j hj h5.symm
  have hent : (ls.map TypedLine.text).map (entry L) = ws := by
    clear hc h
    induction hprops with
    | nil => rfl
    | cons hl _ ih => simp [hl.1, ih]
  have hshort : ∀ l ∈ ls.map TypedLine.text, l ≠ [] ∧ 0x0A ∉ l ∧ l.length < 65536 := by
    clear hc h hent
    induction hprops with
    | nil => simp
    | cons hl _ ih =>
      intro l hmem
      rcases List.mem_cons.1 hmem with rfl | hmem
      · exact ⟨hl.2.2.2, hl.2.1, hl.2.2.1⟩
      · exact ih l hmem
  obtain ⟨l, ls', hcons⟩ : ∃ l ls', ls.map TypedLine.text = l :: ls' := by
    obtain ⟨-, w, rest, rfl, -⟩ := hc
    cases h with
    | cons _ _ => exact ⟨_, _, rfl⟩
  rw [hcons] at hent hshort ⊢
  obtain ⟨more, hm⟩ := lines_start l ls' tail (fun x hx => ⟨(hshort x hx).1, (hshort x hx).2.1⟩) ht
  have htw : (l :: ls' ++ more).takeWhile (fun l => decide (l.length < 65536)) =
      l :: ls' ++ more.takeWhile (fun l => decide (l.length < 65536)) :=
    List.takeWhile_append_of_pos (fun x hx => decide_eq_true (hshort x hx).2.2)
  have hall : ∀ xs : List Bytes, List.Forall₂ Trimmed xs (xs.map trimSpace) := by
    intro xs
    induction xs with
    | nil => exact .nil
    | cons x xs ih => exact .cons (trimSpace_trimmed x) ih
  rw [c50_lines hL _ _ _ hm (hall _), htw, List.map_append, List.map_append]
  have e : ((l :: ls').map trimSpace).map L.toLower = ws := by
    rw [List.map_map]; exact hent
  rw [e, simpleWanted_more hL hc]

/-- The last word without a line feed, in capitals. -/
example : userInputMnemonicSimple toyWordList
    ((((List.replicate 14 (⟨[32], (toyWord 5).map (fun b => b - 32), [9]⟩ : TypedLine)).map
      TypedLine.text).intersperse [0x0A]).flatten ++ []) = .ok (List.replicate 14 (toyWord 5)) := by
  refine c50_by_hand toyWordList_lawful _ toy_complete _ ?_ [] (.inl rfl)
  rw [List.forall₂_iff_get]
  refine ⟨by simp, fun i h1 h2 => ?_⟩
  simp only [List.get_eq_getElem, List.getElem_replicate]
  refine ⟨?_, ?_, ?_, ?_⟩
  · simp [Blank]
  · simp [Blank]
  · decide
  · decide

end Verif.Props
