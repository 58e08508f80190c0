import Verif.Proofs.CliInput
import Mathlib.Data.List.TakeWhile

/-! # The simple prompt -/

namespace Verif.Proofs

open Verif.Model Verif.Model.Cli Verif.Spec

/-- A line as the prompt sees it. -/
def entry (L : WordList) (line : Bytes) : Bytes := L.toLower (trimSpace line)

/-- With a first word, the prompt takes as many further list words as are missing. -/
theorem simpleLoop_more {L : WordList} (n : Nat) : ∀ (lines words : List Bytes),
    words ≠ [] → words.length < n →
    simpleLoop L n words lines =
      if n ≤ words.length + ((lines.map (entry L)).filter L.exactMatch).length then
        .ok ((words ++ (lines.map (entry L)).filter L.exactMatch).take n)
      else .err .stdinRead
  | [], words, _, hn => by
    rw [simpleLoop, if_neg (by simp; omega)]
  | line :: lines, words, hw, hn => by
    have h0 : ¬ words.length = 0 := fun h => hw (List.length_eq_zero_iff.1 h)
    rw [simpleLoop]
    change (if L.exactMatch (entry L line) = true then _ else _) = _
    by_cases he : L.exactMatch (entry L line) = true
    · rw [if_pos he, if_neg h0]
      simp only [List.map_cons, List.filter_cons, he, if_true, List.length_cons]
      change (if (words ++ [entry L line]).length < n then simpleLoop L n (words ++ [entry L line]) lines
        else .ok (words ++ [entry L line])) = _
      by_cases hl : (words ++ [entry L line]).length < n
      · rw [if_pos hl, simpleLoop_more n lines _ (by simp) hl]
        simp only [List.length_append, List.length_singleton, List.append_assoc,
          List.singleton_append]
        congr 1
        rw [Nat.add_assoc, Nat.add_comm 1]
      · rw [if_neg hl, if_pos (by simp only [List.length_append, List.length_singleton] at hl; omega)]
        have hlen : (words ++ [entry L line]).length = n := by
          simp only [List.length_append, List.length_singleton] at hl ⊢; omega
        have hcat : words ++ entry L line :: (lines.map (entry L)).filter L.exactMatch =
            (words ++ [entry L line]) ++ (lines.map (entry L)).filter L.exactMatch := by simp
        rw [hcat, ← hlen, List.take_left]
    · rw [if_neg he, simpleLoop_more n lines words hw hn]
      simp [he]

open Classical in
theorem simpleLoop_spec {L : WordList} (hL : L.Lawful) : ∀ (lines : List Bytes) (n : Nat),
    simpleLoop L n [] lines =
      match simpleWanted L.word (lines.map (entry L)) with
      | none => .err .stdinRead
      | some ws => .ok ws
  | [], n => by simp [simpleLoop, simpleWanted]
  | line :: lines, n => by
    have ih := simpleLoop_spec hL lines n
    have hex : ∀ e, L.exactMatch e = true ↔ IsWord L.word e := hL.exact_iff
    have hfil : ∀ l : List Bytes, l.filter L.exactMatch = l.filter (fun e => decide (IsWord L.word e)) := by
      intro l
      apply List.filter_congr
      intro x _
      rw [Bool.eq_iff_iff]; simp [hex]
    rw [simpleLoop]
    change (if L.exactMatch (entry L line) = true then _ else _) = _
    by_cases he : L.exactMatch (entry L line) = true
    · have hw := (hex _).1 he
      rw [if_pos he, if_pos (by simp)]
      change (match parseMnemonicVersion L (entry L line) with
        | .err _ => simpleLoop L n [] lines
        | .panic p => .panic p
        | .ok v => if ([] ++ [entry L line]).length < mnemonicSize v then
            simpleLoop L (mnemonicSize v) ([] ++ [entry L line]) lines
          else .ok ([] ++ [entry L line])) = _
      rcases version_cases hL hw with ⟨hv, hno⟩ | ⟨v, hv, hn, hsz⟩
      · rw [hv]
        dsimp only
        rw [ih]
        have : simpleWanted L.word ((line :: lines).map (entry L)) =
            simpleWanted L.word (lines.map (entry L)) := by
          unfold simpleWanted
          rw [List.map_cons, List.filter_cons_of_pos (by simpa using hw),
            List.dropWhile_cons_of_pos (by simpa using hno)]
        rw [this]
      · rw [hv]
        dsimp only
        rw [List.nil_append, if_pos (by simp only [List.length_singleton]; omega),
          simpleLoop_more _ _ _ (by simp) (by simp only [List.length_singleton]; omega)]
        have hsize : (if Needs L.word (entry L line) 14 then 14 else 16) = mnemonicSize v := by
          obtain ⟨j, hj, hjw⟩ := hw
          rw [← hjw, needs_iff hL hj] at hn
          rw [← hjw]
          by_cases h14 : Needs L.word (L.word j) 14
          · rw [if_pos h14]; rw [needs_iff hL hj] at h14; omega
          · rw [if_neg h14]; rw [needs_iff hL hj] at h14; omega
        unfold simpleWanted
        rw [List.map_cons, List.filter_cons_of_pos (by simpa using hw),
          List.dropWhile_cons_of_neg (by simpa using ⟨_, hn⟩), hfil]
        dsimp only
        rw [hsize]
        by_cases hc : mnemonicSize v ≤ [entry L line].length +
            ((lines.map (entry L)).filter (fun e => decide (IsWord L.word e))).length
        · rw [if_pos hc, if_pos (by simp only [List.length_cons, List.length_nil] at hc ⊢; omega)]
          rfl
        · rw [if_neg hc, if_neg (by simp only [List.length_cons, List.length_nil] at hc ⊢; omega)]
    · rw [if_neg he, ih]
      have : simpleWanted L.word ((line :: lines).map (entry L)) =
          simpleWanted L.word (lines.map (entry L)) := by
        unfold simpleWanted
        rw [List.map_cons, List.filter_cons_of_neg (by rw [decide_eq_true_iff]; exact fun c => he ((hex _).2 c))]
      rw [this]

open Classical in
theorem simpleWanted_complete {L : WordList} (hL : L.Lawful) {es ws : List Bytes}
    (h : simpleWanted L.word es = some ws) : Complete L.word ws ∧ List.Sublist ws es := by
  unfold simpleWanted at h
  dsimp only at h
  split at h
  · cases h
  · rename_i w rest hw
    have hmem : ∀ x ∈ w :: rest, IsWord L.word x := by
      intro x hx
      rw [← hw] at hx
      have h2 := (List.mem_filter.1 ((List.dropWhile_sublist _).subset hx)).2
      simpa using h2
    have hneed : ∃ n, Needs L.word w n := by
      have := List.head_dropWhile_not (fun w => decide (¬ ∃ n, Needs L.word w n))
        (l := es.filter (fun e => decide (IsWord L.word e))) (by rw [hw]; simp)
      simp only [hw, List.head_cons] at this
      simpa using this
    have hsize : Needs L.word w (if Needs L.word w 14 then 14 else 16) := by
      obtain ⟨n, hn⟩ := hneed
      obtain ⟨j, hj, rfl⟩ := hmem w (by simp)
      by_cases h14 : Needs L.word (L.word j) 14
      · rw [if_pos h14]; exact h14
      · rw [if_neg h14]; rw [needs_iff hL hj] at h14 hn ⊢; omega
    generalize hsz : (if Needs L.word w 14 then 14 else 16) = size at h hsize
    have hpos : 0 < size := by rw [← hsz]; split <;> norm_num
    split at h
    · rename_i hle
      cases h
      rw [hw] at hle ⊢
      refine ⟨⟨fun x hx => hmem x (List.mem_of_mem_take hx), w, rest.take (size - 1), ?_, ?_⟩, ?_⟩
      · obtain ⟨m, rfl⟩ : ∃ m, size = m + 1 := ⟨size - 1, by omega⟩
        simp
      · rw [List.length_take, Nat.min_eq_left hle]; exact hsize
      · refine (List.take_sublist _ _).trans ?_
        rw [← hw]
        exact (List.dropWhile_sublist _).trans List.filter_sublist
    · cases h

open Classical in
theorem simpleWanted_of_complete {L : WordList} (hL : L.Lawful) {ws : List Bytes}
    (hc : Complete L.word ws) : simpleWanted L.word ws = some ws := by
  obtain ⟨hall, w, rest, hw, hn⟩ := hc
  have hf : ws.filter (fun e => decide (IsWord L.word e)) = ws := by
    rw [List.filter_eq_self]
    intro x hx
    simpa using hall x hx
  have hd : ws.dropWhile (fun w => decide (¬ ∃ n, Needs L.word w n)) = ws := by
    rw [hw, List.dropWhile_cons_of_neg]
    simp only [decide_eq_true_eq, not_not]
    exact ⟨_, hn⟩
  unfold simpleWanted
  rw [hf, hd]
  subst hw
  dsimp only
  obtain ⟨j, hj, hjw⟩ := hall w (by simp)
  have hsize : (if Needs L.word w 14 then 14 else 16) = (w :: rest).length := by
    rw [← hjw, needs_iff hL hj] at hn
    simp only [List.length_cons] at hn ⊢
    by_cases h14 : Needs L.word w 14
    · rw [if_pos h14]; rw [← hjw, needs_iff hL hj] at h14; omega
    · rw [if_neg h14]; rw [← hjw, needs_iff hL hj] at h14; omega
  rw [hsize, if_pos le_rfl, List.take_length]

/-! ## Lines and blanks -/

theorem rawLines_free : ∀ (l cur rest : Bytes), 0x0A ∉ l →
    rawLines cur (l ++ 0x0A :: rest) = (cur ++ l) :: rawLines [] rest
  | [], cur, rest, _ => by simp [rawLines]
  | x :: l, cur, rest, h => by
    have hx : x ≠ 0x0A := fun c => h (by simp [c])
    rw [List.cons_append, rawLines, if_neg hx, rawLines_free l _ _ (fun c => h (List.mem_cons_of_mem _ c))]
    simp

theorem rawLines_lines : ∀ (ls : List Bytes), (∀ l ∈ ls, 0x0A ∉ l) →
    rawLines [] (ls.flatMap (fun l => l ++ [0x0A])) = ls
  | [], _ => by simp [rawLines, flush]
  | l :: ls, h => by
    rw [List.flatMap_cons, List.append_assoc, List.singleton_append,
      rawLines_free l [] _ (h l (by simp)), rawLines_lines ls (fun x hx => h x (by simp [hx]))]
    simp

theorem scanLines_lines (ls : List Bytes)
    (h : ∀ l ∈ ls, 0x0A ∉ l ∧ l.length < 65536 ∧ l.getLast? ≠ some 0x0D) :
    scanLines (ls.flatMap (fun l => l ++ [0x0A])) = ls := by
  unfold scanLines
  rw [rawLines_lines ls (fun l hl => (h l hl).1), List.takeWhile_eq_self_iff.2]
  · conv_rhs => rw [← List.map_id ls]
    apply List.map_congr_left
    intro l hl
    simp [dropCR, (h l hl).2.2]
  · intro l hl
    exact decide_eq_true (h l hl).2.1

/-- A letter of either case. -/
def isLetter (b : Byte) : Bool := isLowerAz (asciiLower b)

theorem letter_bounds : ∀ b : Byte, isLetter b = true →
    (0x41 ≤ b.toNat ∧ b.toNat ≤ 0x5A) ∨ (0x61 ≤ b.toNat ∧ b.toNat ≤ 0x7A) := by
  have key : ∀ n : Fin 256, isLetter (UInt8.ofNat n) = true →
      (0x41 ≤ (UInt8.ofNat n).toNat ∧ (UInt8.ofNat n).toNat ≤ 0x5A) ∨
      (0x61 ≤ (UInt8.ofNat n).toNat ∧ (UInt8.ofNat n).toNat ≤ 0x7A) := by decide +kernel
  intro b
  have := key ⟨b.toNat, b.toNat_lt⟩
  simpa using this

theorem spaces_ends : ∀ s ∈ spaces, s ≠ [] ∧ isLetter (s.headD 0) = false ∧
    isLetter (s.getLastD 0) = false := by decide +kernel

theorem headSpace_letter {x : Byte} {rest : Bytes} (h : isLetter x = true) :
    headSpace (x :: rest) = none := by
  rw [headSpace, List.find?_eq_none]
  intro s hs hp
  obtain ⟨hne, h1, _⟩ := spaces_ends s hs
  obtain ⟨a, t, rfl⟩ := List.exists_cons_of_ne_nil hne
  have : a = x := by
    have := List.isPrefixOf_iff_prefix.1 hp
    simpa using (List.cons_prefix_cons.1 this).1
  subst this
  rw [List.headD_cons, h] at h1
  cases h1

theorem lastSpace_letter {x : Byte} {rest : Bytes} (h : isLetter x = true) :
    lastSpace (rest ++ [x]) = none := by
  rw [lastSpace, List.find?_eq_none]
  intro s hs hp
  obtain ⟨hne, _, h1⟩ := spaces_ends s hs
  have hp := List.isSuffixOf_iff_suffix.1 hp
  obtain ⟨t, ht⟩ := hp
  have : s.getLastD 0 = x := by
    have h2 := congrArg (fun l => List.getLastD l 0) ht
    rw [List.getLastD_eq_getLast?, List.getLastD_eq_getLast?, List.getLast?_append_of_ne_nil _ hne,
      List.getLast?_concat] at h2
    rw [List.getLastD_eq_getLast?]; exact h2
  rw [this, h] at h1
  cases h1

/-- A blank or a tab. -/
def isBlank (b : Byte) : Bool := b == 0x20 || b == 0x09

theorem headSpace_blank {x : Byte} {rest : Bytes} (h : isBlank x = true) :
    headSpace (x :: rest) = some [x] := by
  simp only [isBlank, Bool.or_eq_true, beq_iff_eq] at h
  rcases h with rfl | rfl <;> simp [headSpace, spaces, List.find?, List.isPrefixOf]

theorem trimLeft_blank : ∀ (a rest : Bytes), (∀ b ∈ a, isBlank b = true) →
    trimLeft 0 (a ++ rest) = trimLeft 0 rest
  | [], rest, _ => by simp
  | x :: a, rest, h => by
    rw [List.cons_append, trimLeft, headSpace_blank (h x (by simp))]
    exact trimLeft_blank a rest (fun b hb => h b (by simp [hb]))

theorem lastSpace_blank {x : Byte} {rest : Bytes} (h : isBlank x = true) :
    lastSpace (rest ++ [x]) = some [x] := by
  have hfind : ∀ (l : List Bytes), [x] ∈ l → (∀ s ∈ l, s.isSuffixOf (rest ++ [x]) = true → s = [x]) →
      l.find? (fun s => s.isSuffixOf (rest ++ [x])) = some [x] := by
    intro l
    induction l with
    | nil => simp
    | cons s l ih =>
      intro hm hu
      rw [List.find?_cons]
      cases hs : s.isSuffixOf (rest ++ [x]) with
      | true => simp [hu s (by simp) hs]
      | false =>
        refine ih ?_ (fun s' hs' => hu s' (by simp [hs']))
        rcases List.mem_cons.1 hm with rfl | hm
        · have : [x].isSuffixOf (rest ++ [x]) = true := List.isSuffixOf_iff_suffix.2 ⟨rest, rfl⟩
          rw [this] at hs; cases hs
        · exact hm
  simp only [isBlank, Bool.or_eq_true, beq_iff_eq] at h
  have key : ∀ x ∈ ([0x20, 0x09] : Bytes), [x] ∈ spaces ∧
      ∀ s ∈ spaces, s ≠ [] ∧ (s.getLastD 0 = x → s = [x]) := by decide +kernel
  have hx : x ∈ ([0x20, 0x09] : Bytes) := by rcases h with rfl | rfl <;> simp
  refine hfind spaces (key x hx).1 (fun s hs hsuf => ?_)
  obtain ⟨hne, hl⟩ := (key x hx).2 s hs
  apply hl
  obtain ⟨t, ht⟩ := List.isSuffixOf_iff_suffix.1 hsuf
  have h2 := congrArg (fun l => List.getLastD l 0) ht
  rw [List.getLastD_eq_getLast?, List.getLastD_eq_getLast?, List.getLast?_append_of_ne_nil _ hne,
    List.getLast?_concat] at h2
  rw [List.getLastD_eq_getLast?]; exact h2

theorem trimRight_blank : ∀ (n : Nat) (b v : Bytes), b.length = n → (∀ x ∈ b, isBlank x = true) →
    lastSpace v = none → ∀ fuel, n ≤ fuel → trimRight fuel (v ++ b) = v
  | 0, b, v, hb, _, hv, fuel, _ => by
    rw [List.length_eq_zero_iff.1 hb, List.append_nil]
    cases fuel with
    | zero => rfl
    | succ f => rw [trimRight, hv]
  | n + 1, b, v, hb, h, hv, fuel, hf => by
    obtain ⟨f, rfl⟩ : ∃ f, fuel = f + 1 := ⟨fuel - 1, by omega⟩
    have hne : b ≠ [] := by rintro rfl; simp at hb
    have hb' := List.dropLast_concat_getLast hne
    have hlast := h _ (List.getLast_mem hne)
    have hlen : b.dropLast.length = n := by rw [List.length_dropLast]; omega
    have hv' : v ++ b = (v ++ b.dropLast) ++ [b.getLast hne] := by
      rw [List.append_assoc, hb']
    rw [hv', trimRight, lastSpace_blank hlast]
    dsimp only
    have : (v ++ b.dropLast ++ [b.getLast hne]).take
        ((v ++ b.dropLast ++ [b.getLast hne]).length - [b.getLast hne].length) = v ++ b.dropLast := by
      rw [List.length_append, Nat.add_sub_cancel, List.take_left]
    rw [this]
    exact trimRight_blank n b.dropLast v hlen (fun x hx => h x (List.dropLast_subset _ hx)) hv f
      (by omega)

/-- Blanks around a word of letters are removed. -/
theorem trimSpace_word (a v b : Bytes) (ha : ∀ x ∈ a, isBlank x = true)
    (hb : ∀ x ∈ b, isBlank x = true) (hv : ∀ x ∈ v, isLetter x = true) (hne : v ≠ []) :
    trimSpace (a ++ v ++ b) = v := by
  have h1 : trimLeft 0 (a ++ v ++ b) = v ++ b := by
    rw [List.append_assoc, trimLeft_blank a _ ha]
    obtain ⟨x, t, rfl⟩ := List.exists_cons_of_ne_nil hne
    rw [List.cons_append, trimLeft, headSpace_letter (hv x (by simp))]
  have h2 : lastSpace v = none := by
    rw [← List.dropLast_concat_getLast hne]
    exact lastSpace_letter (hv _ (List.getLast_mem hne))
  unfold trimSpace
  dsimp only
  rw [h1]
  exact trimRight_blank b.length b v rfl hb h2 _ (by simp)

end Verif.Proofs
