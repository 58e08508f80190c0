import Verif.Model.Cli.Scanner
import Verif.Spec.Lines
import Verif.Spec.Keyboard
import Verif.Proofs.Words
import Verif.Proofs.Lower
import Verif.Proofs.Quoted

/-! # Lemmas on Go's Scanner -/

namespace Verif.Proofs

open Verif.Model Verif.Model.Cli Verif.Spec

theorem upTo_nil (rest : List Bytes) : beforeEnd ([] :: rest) = [] := by simp [beforeEnd]

theorem upTo_cons {piece : Bytes} (h : piece ≠ []) (rest : List Bytes) : beforeEnd (piece :: rest) = piece ++ beforeEnd rest := by
  unfold beforeEnd
  rw [List.takeWhile_cons_of_pos (by simpa using h), List.flatten_cons]

theorem readPiece_cases (room : Nat) (hr : 0 < room) (input : List Bytes) :
    (readPiece room input).1 = none ∧ beforeEnd input = [] ∧ (readPiece room input).2.flatten = input.flatten ∨
    ∃ c rest, readPiece room input = (some c, rest) ∧ c ≠ [] ∧ c.length ≤ room ∧ beforeEnd input = c ++ beforeEnd rest ∧
      input.flatten.length = c.length + rest.flatten.length := by
  match input with
  | [] => exact .inl ⟨rfl, rfl, rfl⟩
  | [] :: rest => exact .inl ⟨rfl, upTo_nil rest, by simp [readPiece]⟩
  | (x :: p) :: rest =>
    refine .inr ⟨(x :: p).take room, if (x :: p).length ≤ room then rest else (x :: p).drop room :: rest, rfl, ?_, ?_, ?_, ?_⟩
    · intro h
      have := congrArg List.length h
      rw [List.length_take, List.length_cons, List.length_nil] at this
      omega
    · rw [List.length_take]; omega
    · rw [upTo_cons (by simp)]
      by_cases h : (x :: p).length ≤ room
      · rw [if_pos h, List.take_of_length_le h]
      · rw [if_neg h, upTo_cons, ← List.append_assoc, List.take_append_drop]
        intro h'
        have := congrArg List.length h'
        rw [List.length_drop, List.length_nil] at this
        omega
    · by_cases h : (x :: p).length ≤ room
      · rw [if_pos h, List.take_of_length_le h, List.flatten_cons, List.length_append]
      · rw [if_neg h, List.flatten_cons, List.flatten_cons, List.length_append, List.length_append, List.length_take,
          List.length_drop]
        omega

/-- What the scanner has still to deal with -/
def Scanner.text (s : Scanner) : Bytes := s.data ++ if s.eof then [] else beforeEnd s.input

structure Inv (s : Scanner) : Prop where
  room : s.start + s.data.length ≤ s.size
  size : s.size ≤ 65536
  eof : s.eof = true → s.data.length < 65536

theorem inv_new (input : List Bytes) : Inv (newScanner input) := ⟨by simp [newScanner], by simp [newScanner], by simp [newScanner]⟩

theorem read_cases {s : Scanner} {start size : Nat} (he : s.eof = false) (h1 : start + s.data.length < size)
    (h2 : size ≤ 65536) :
    let s' := Scanner.fill.read s start size
    Inv s' ∧ Scanner.text s' = Scanner.text s ∧
      (s'.eof = true ∧ s'.data = s.data ∧ s'.input.flatten.length = s.input.flatten.length ∨
        s'.eof = false ∧ ∃ c, c ≠ [] ∧ s'.data = s.data ++ c ∧
          s.input.flatten.length = c.length + s'.input.flatten.length) := by
  dsimp only
  unfold Scanner.fill.read
  rcases readPiece_cases (size - (start + s.data.length)) (by omega) s.input with ⟨h, hu, hf⟩ | ⟨c, rest, h, hc, hl, hu, hf⟩
  · generalize hp : readPiece (size - (start + s.data.length)) s.input = p at h hf
    obtain ⟨p1, p2⟩ := p
    cases h
    refine ⟨⟨by dsimp only; omega, h2, fun _ => by dsimp only; omega⟩, ?_, .inl ⟨rfl, rfl, congrArg List.length hf⟩⟩
    simp [Scanner.text, he, hu]
  · rw [h]
    refine ⟨⟨?_, h2, fun h => ?_⟩, ?_, .inr ⟨he, c, hc, rfl, hf⟩⟩
    · show start + (s.data ++ c).length ≤ size
      rw [List.length_append]; omega
    · dsimp only at h; rw [he] at h; cases h
    · simp [Scanner.text, he, hu]

theorem fill_cases {s : Scanner} (hi : Inv s) (he : s.eof = false) :
    s.fill = none ∧ s.data.length = 65536 ∨
    ∃ s', s.fill = some s' ∧ Inv s' ∧ Scanner.text s' = Scanner.text s ∧
      (s'.eof = true ∧ s'.data = s.data ∧ s'.input.flatten.length = s.input.flatten.length ∨
        s'.eof = false ∧ ∃ c, c ≠ [] ∧ s'.data = s.data ++ c ∧
          s.input.flatten.length = c.length + s'.input.flatten.length) := by
  unfold Scanner.fill
  dsimp only
  have hm : maxScanTokenSize = 65536 := rfl
  obtain ⟨hroom, hsize, -⟩ := hi
  by_cases hs : 0 < s.start ∧ (s.start + s.data.length = s.size ∨ s.size / 2 < s.start)
  · rw [if_pos hs, if_neg (by omega)]
    exact .inr ⟨_, rfl, read_cases he (by omega) hsize⟩
  · rw [if_neg hs]
    by_cases hf : s.start + s.data.length = s.size
    · have hz : s.start = 0 := by omega
      rw [if_pos hf]
      by_cases hmax : maxScanTokenSize ≤ s.size
      · rw [if_pos hmax]
        exact .inl ⟨rfl, by omega⟩
      · rw [if_neg hmax]
        refine .inr ⟨_, rfl, read_cases he ?_ (Nat.le_trans (Nat.min_le_right _ _) (by omega))⟩
        by_cases h0 : s.size * 2 = 0
        · rw [if_pos h0, hm]; simp; omega
        · rw [if_neg h0, hm]; omega
    · rw [if_neg hf]
      exact .inr ⟨_, rfl, read_cases he (by omega) hsize⟩

/-- What a split function has to do so that Scan gives the tokens of a text -/
structure Splits (split : SplitFunc) (toks : Bytes → List Bytes) : Prop where
  le : ∀ data e, (split data e).1 ≤ data.length
  pos : ∀ data e t, (split data e).2 = some t → 0 < (split data e).1
  empty : toks [] = []
  token : ∀ data t, data.length ≤ 65536 → (split data false).2 = some t → ∀ more,
    toks (data ++ more) = t :: toks (data.drop (split data false).1 ++ more)
  more : ∀ data, (split data false).2 = none → ∀ more,
    toks (data ++ more) = toks (data.drop (split data false).1 ++ more) ∧
    ((data.drop (split data false).1).length = 65536 → toks (data.drop (split data false).1 ++ more) = [])
  last : ∀ data t, data.length < 65536 → (split data true).2 = some t →
    toks data = t :: toks (data.drop (split data true).1)
  none : ∀ data, (split data true).2 = none → toks data = []

/-- Whatever the enteredLines are, Scan gives the next token, and the scanner is left with what is behind it. -/
theorem scan_next {split : SplitFunc} {toks : Bytes → List Bytes} (hsp : Splits split toks) :
    ∀ (n : Nat) (s : Scanner), Inv s → s.input.flatten.length + (if s.eof then 1 else 2) ≤ n →
      (∃ t s', s.scan split n = (some t, s') ∧ Inv s' ∧ toks (Scanner.text s) = t :: toks (Scanner.text s') ∧
        (Scanner.text s').length < (Scanner.text s).length) ∨
      (s.scan split n).1 = none ∧ toks (Scanner.text s) = [] := by
  intro n
  induction n with
  | zero => intro s _ h; split at h <;> omega
  | succ n ih =>
    intro s hi hn
    unfold Scanner.scan
    by_cases hcall : s.data ≠ [] ∨ s.eof = true
    · rw [if_pos hcall]
      have hle := hsp.le s.data s.eof
      have hdl : s.data.length ≤ 65536 := by have := hi.room; have := hi.size; omega
      have hinv : Inv { s with data := s.data.drop (split s.data s.eof).1, start := s.start + (split s.data s.eof).1 } := by
        refine ⟨?_, hi.size, fun h => ?_⟩
        · have := hi.room
          show s.start + (split s.data s.eof).1 + (s.data.drop (split s.data s.eof).1).length ≤ s.size
          rw [List.length_drop]; omega
        · have := hi.eof h
          show (s.data.drop (split s.data s.eof).1).length < 65536
          rw [List.length_drop]; omega
      dsimp only
      cases ht : (split s.data s.eof).2 with
      | some t =>
        dsimp only
        refine .inl ⟨t, _, rfl, hinv, ?_, ?_⟩
        · unfold Scanner.text
          dsimp only
          cases he : s.eof with
          | true =>
            rw [he] at ht
            simp only [if_true, List.append_nil]
            exact hsp.last _ t (hi.eof he) ht
          | false =>
            rw [he] at ht
            simp only [Bool.false_eq_true, if_false]
            exact hsp.token _ t hdl ht _
        · have hp := hsp.pos s.data s.eof t ht
          unfold Scanner.text
          dsimp only
          rw [List.length_append, List.length_append, List.length_drop]
          omega
      | none =>
        dsimp only
        cases he : s.eof with
        | true =>
          rw [he] at ht
          right
          simp only [if_true]
          refine ⟨trivial, ?_⟩
          unfold Scanner.text
          rw [he, if_pos rfl, List.append_nil]
          exact hsp.none _ ht
        | false =>
          rw [he] at ht hinv
          rw [he] at hn
          simp only [Bool.false_eq_true, if_false] at hn ⊢
          obtain ⟨m1, m2⟩ := hsp.more s.data ht (beforeEnd s.input)
          have htext : toks (Scanner.text s) = toks (s.data.drop (split s.data false).1 ++ beforeEnd s.input) := by
            unfold Scanner.text
            rw [he]
            exact m1
          rcases fill_cases hinv rfl with ⟨hf, hlen⟩ | ⟨s', hf, hi', ht', hcase⟩
          · rw [hf]
            right
            exact ⟨rfl, htext.trans (m2 hlen)⟩
          · rw [hf]
            dsimp only
            have htt : Scanner.text s' = s.data.drop (split s.data false).1 ++ beforeEnd s.input := by
              rw [ht']
              rfl
            have hlen : (Scanner.text s').length ≤ (Scanner.text s).length := by
              rw [htt]
              unfold Scanner.text
              rw [he]
              simp
            have hn' : s'.input.flatten.length + (if s'.eof then 1 else 2) ≤ n := by
              rcases hcase with ⟨e1, -, hl⟩ | ⟨e1, c, hc, -, hl⟩
              · rw [e1, if_pos rfl]
                dsimp only at hl
                omega
              · rw [e1]
                have := List.length_pos_iff.2 hc
                simp only [Bool.false_eq_true, if_false]
                dsimp only at hl
                omega
            rcases ih s' hi' hn' with ⟨t, s'', h1, h2, h3, h4⟩ | ⟨h1, h2⟩
            · exact .inl ⟨t, s'', h1, h2, by rw [htext, ← htt, h3], by omega⟩
            · exact .inr ⟨h1, by rw [htext, ← htt, h2]⟩
    · rw [if_neg hcall]
      obtain ⟨hd, he⟩ : s.data = [] ∧ s.eof = false := by
        constructor
        · exact Classical.not_not.mp fun h => hcall (.inl h)
        · exact Bool.eq_false_iff.mpr fun h => hcall (.inr h)
      rw [he] at hn
      simp only [Bool.false_eq_true, if_false] at hn
      have hs : ({ s with data := s.data.drop 0, start := s.start + 0 } : Scanner) = s := rfl
      dsimp only
      rw [if_neg (by rw [he]; simp), hs]
      rcases fill_cases hi he with ⟨-, hlen⟩ | ⟨s', hf, hi', ht', hcase⟩
      · rw [hd] at hlen
        cases hlen
      · rw [hf]
        dsimp only
        have hn' : s'.input.flatten.length + (if s'.eof then 1 else 2) ≤ n := by
          rcases hcase with ⟨e1, -, hl⟩ | ⟨e1, c, hc, -, hl⟩
          · rw [e1, if_pos rfl]
            omega
          · rw [e1]
            have := List.length_pos_iff.2 hc
            simp only [Bool.false_eq_true, if_false]
            omega
        rcases ih s' hi' hn' with ⟨t, s'', h1, h2, h3, h4⟩ | ⟨h1, h2⟩
        · exact .inl ⟨t, s'', h1, h2, by rw [← ht', h3], by rw [← ht']; exact h4⟩
        · exact .inr ⟨h1, by rw [← ht', h2]⟩

/-- All the tokens -/
theorem tokens_eq {split : SplitFunc} {toks : Bytes → List Bytes} (hsp : Splits split toks) :
    ∀ (n : Nat) (s : Scanner), Inv s → (Scanner.text s).length < n → s.tokens split n = toks (Scanner.text s) := by
  intro n
  induction n with
  | zero => intro s _ h; omega
  | succ n ih =>
    intro s hi hn
    unfold Scanner.tokens
    rcases scan_next hsp s.fuel s hi (by unfold Scanner.fuel; split <;> omega) with ⟨t, s', h1, h2, h3, h4⟩ | ⟨h1, h2⟩
    · rw [h1]
      dsimp only
      rw [ih s' h2 (by omega), h3]
    · generalize s.scan split s.fuel = r at h1 ⊢
      obtain ⟨r1, r2⟩ := r
      cases h1
      exact h2.symm

theorem before_lt (input : List Bytes) : (Scanner.text (newScanner input)).length < input.flatten.length + 1 := by
  show (beforeEnd input).length < _
  have h := congrArg (fun l => l.flatten.length) (List.takeWhile_append_dropWhile (p := (· ≠ [])) (l := input))
  simp only [List.flatten_append, List.length_append] at h
  unfold beforeEnd
  omega

/-! ## Lines -/

theorem rawLines_first {a : Bytes} (ha : 0x0A ∉ a) : ∀ (cur rest : Bytes),
    rawLines cur (a ++ 0x0A :: rest) = (cur ++ a) :: rawLines [] rest := by
  induction a with
  | nil => intro cur rest; simp [rawLines]
  | cons x a ih =>
    intro cur rest
    rw [List.cons_append, rawLines, if_neg (fun h => ha (by simp [h])), ih (fun h => ha (List.mem_cons_of_mem _ h))]
    simp

theorem rawLines_whole {a : Bytes} (ha : 0x0A ∉ a) : ∀ (cur : Bytes), rawLines cur a = flush (cur ++ a) := by
  induction a with
  | nil => intro cur; simp [rawLines]
  | cons x a ih =>
    intro cur
    rw [rawLines, if_neg (fun h => ha (by simp [h])), ih (fun h => ha (List.mem_cons_of_mem _ h))]
    simp

theorem line_split {data : Bytes} {i : Nat} (h : data.idxOf? 0x0A = some i) :
    i < data.length ∧ 0x0A ∉ data.take i ∧ data = data.take i ++ 0x0A :: data.drop (i + 1) := by
  rw [List.idxOf?, List.findIdx?_eq_some_iff_getElem] at h
  obtain ⟨h1, h2, h3⟩ := h
  refine ⟨h1, fun hm => ?_, ?_⟩
  · obtain ⟨j, hj, e⟩ := List.getElem_of_mem hm
    rw [List.length_take] at hj
    refine h3 j (by omega) ?_
    rw [List.getElem_take] at e
    simp [e]
  · conv_lhs => rw [← List.take_append_drop i data, List.drop_eq_getElem_cons h1]
    rw [beq_iff_eq.1 h2]

theorem line_none {data : Bytes} (h : data.idxOf? 0x0A = none) : 0x0A ∉ data := by
  simpa using h

theorem scanLines_first {a rest : Bytes} (ha : 0x0A ∉ a) (hl : a.length < 65536) :
    scanLines (a ++ 0x0A :: rest) = dropCR a :: scanLines rest := by
  unfold scanLines
  rw [rawLines_first ha, List.nil_append, List.takeWhile_cons_of_pos (by rw [decide_eq_true_eq, maxScanTokenSize]; omega), List.map_cons]

theorem scanLines_long {a rest : Bytes} (ha : 0x0A ∉ a) (hl : a.length = 65536) : scanLines (a ++ rest) = [] := by
  unfold scanLines
  obtain ⟨l, ls, h, hlen⟩ : ∃ l ls, rawLines [] (a ++ rest) = l :: ls ∧ 65536 ≤ l.length := by
    rcases h : rest.idxOf? 0x0A with - | i
    · have h := line_none h
      rw [rawLines_whole (by simp [ha, h]), flush, if_neg]
      · exact ⟨_, _, rfl, by simp [hl]⟩
      · intro e; have := congrArg List.length e; simp [hl] at this
    · obtain ⟨h1, h2, h3⟩ := line_split h
      rw [h3, ← List.append_assoc, rawLines_first (by simp [ha, h2])]
      exact ⟨_, _, rfl, by simp [hl]⟩
  rw [h, List.takeWhile_cons_of_neg (by rw [decide_eq_true_eq, maxScanTokenSize]; omega), List.map_nil]

theorem splits_lines : Splits splitLines scanLines where
  le data e := by
    unfold splitLines
    split
    · simp
    · split
      · next h => exact (line_split h).1
      · split <;> simp
  pos data e t := by
    unfold splitLines
    by_cases h0 : e = true ∧ data = []
    · rw [if_pos h0]; simp
    · rw [if_neg h0]
      split
      · simp
      · split
        · next h1 =>
          intro _
          exact List.length_pos_iff.2 fun h => h0 ⟨h1, h⟩
        · simp
  empty := rfl
  token data t hl := by
    unfold splitLines
    simp only [Bool.false_eq_true, false_and, if_false]
    split
    · next i h =>
      intro e more
      obtain ⟨h1, h2, h3⟩ := line_split h
      simp only [Option.some.injEq] at e
      dsimp only
      conv_lhs => rw [h3, List.append_assoc, List.cons_append]
      rw [scanLines_first h2 (by rw [List.length_take]; omega), e]
    · simp
  more data := by
    unfold splitLines
    simp only [Bool.false_eq_true, false_and, if_false]
    split
    · simp
    · next h =>
      intro _ more
      exact ⟨rfl, fun hl => scanLines_long (line_none h) hl⟩
  last data t hl := by
    unfold splitLines
    by_cases h0 : data = []
    · rw [if_pos ⟨rfl, h0⟩]; simp
    · rw [if_neg (fun h => h0 h.2)]
      split
      · next i h =>
        intro e
        obtain ⟨h1, h2, h3⟩ := line_split h
        simp only [Option.some.injEq] at e
        dsimp only
        conv_lhs => rw [h3]
        rw [scanLines_first h2 (by rw [List.length_take]; omega), e]
      · next h =>
        simp only [if_true, Option.some.injEq]
        intro e
        rw [List.drop_length, ← e]
        unfold scanLines
        rw [rawLines_whole (line_none h), List.nil_append, flush, if_neg h0,
          List.takeWhile_cons_of_pos (by rw [decide_eq_true_eq, maxScanTokenSize]; omega)]
        rfl
  none data := by
    unfold splitLines
    by_cases h0 : data = []
    · intro _; rw [h0]; rfl
    · rw [if_neg (fun h => h0 h.2)]
      split <;> simp

/-! ## Words -/

theorem space_mem {r : Nat} (h : isSpaceRune r = true) : r ∈ whiteSpace := by
  unfold isSpaceRune at h
  by_cases h1 : r ≤ 0xFF
  · rw [if_pos h1] at h
    have : ∀ r ≤ 0xFF, (r = 0x20 || r = 0x09 || r = 0x0A || r = 0x0B || r = 0x0C || r = 0x0D || r = 0x85 || r = 0xA0) = true →
        r ∈ whiteSpace := by decide +kernel
    exact this r h1 h
  · rw [if_neg h1] at h
    simp only [Bool.or_eq_true, Bool.and_eq_true, decide_eq_true_eq] at h
    unfold whiteSpace
    simp only [List.mem_append, List.mem_cons, List.mem_map, List.mem_range, List.not_mem_nil, or_false]
    rcases h with (((((⟨h2, h3⟩ | h) | h) | h) | h) | h) | h
    · exact .inl (.inr ⟨r - 0x2000, by omega, by omega⟩)
    all_goals subst h; simp

theorem space_rune : ∀ c ∈ whiteSpace, isSpaceRune c = true := by decide +kernel

theorem decode_space {c : Nat} (hc : c ∈ whiteSpace) (rest : Bytes) : decodeRune (utf8 c ++ rest) = (c, (utf8 c).length) := by
  have h2 : ¬ rest.length + 1 + 1 < 2 := by omega
  have h3 : ¬ rest.length + 1 + 1 + 1 < 3 := by omega
  simp only [whiteSpace, List.range, List.range.loop, List.map_cons, List.map_nil, List.cons_append, List.nil_append,
    List.mem_cons, List.not_mem_nil, or_false] at hc
  rcases hc with h | h | h | h | h | h | h | h | h | h | h | h | h | h | h | h | h | h | h | h | h | h | h | h | h <;>
    subst h <;> simp [decodeRune, utf8, utf8First, h2, h3]

/-- The bytes after the first one of a character -/
theorem utf8_cont (r : Nat) : ∀ x ∈ (utf8 r).tail, 0x80 ≤ x.toNat ∧ x.toNat < 0xC0 := by
  have ofNat (n : Nat) (h1 : 0x80 ≤ n) (h2 : n < 0xC0) : 0x80 ≤ (UInt8.ofNat n).toNat ∧ (UInt8.ofNat n).toNat < 0xC0 := by
    rw [UInt8.toNat_ofNat']
    omega
  intro x hx
  unfold utf8 at hx
  split at hx
  · simp at hx
  · split at hx
    · simp only [List.tail_cons, List.mem_singleton] at hx
      rw [hx]; exact ofNat _ (by omega) (by omega)
    · split at hx
      · simp only [List.tail_cons, List.mem_cons, List.not_mem_nil, or_false] at hx
        rcases hx with hx | hx <;> rw [hx] <;> exact ofNat _ (by omega) (by omega)
      · simp only [List.tail_cons, List.mem_cons, List.not_mem_nil, or_false] at hx
        rcases hx with hx | hx | hx <;> rw [hx] <;> exact ofNat _ (by omega) (by omega)

/-- White space begins at none of the first bytes. -/
def Clear (data : Bytes) (i : Nat) : Prop := ∀ j < i, ∀ s ∈ spaces, ¬ s <+: data.drop j

theorem rune_cases (x : Byte) (data : Bytes) :
    0 < (decodeRune (x :: data)).2 ∧ (decodeRune (x :: data)).2 ≤ (x :: data).length ∧
    ((isSpaceRune (decodeRune (x :: data)).1 = true ∧
        ∃ c ∈ whiteSpace, ∃ rest, x :: data = utf8 c ++ rest ∧ (decodeRune (x :: data)).2 = (utf8 c).length) ∨
      isSpaceRune (decodeRune (x :: data)).1 = false ∧ Clear (x :: data) (decodeRune (x :: data)).2) := by
  have first : isSpaceRune (decodeRune (x :: data)).1 = false → ∀ s ∈ spaces, ¬ s <+: x :: data := by
    intro h s hs hp
    obtain ⟨c, hc, rfl⟩ := mem_spaces.1 hs
    obtain ⟨rest, e⟩ := hp
    rw [← e, decode_space hc, space_rune c hc] at h
    cases h
  by_cases hx : x.toNat < 0x80
  · rw [decode_ascii hx] at first ⊢
    refine ⟨Nat.one_pos, by simp, ?_⟩
    cases hsp : isSpaceRune x.toNat with
    | true =>
      have hu : utf8 x.toNat = [x] := by rw [utf8, if_pos hx]; simp
      exact .inl ⟨rfl, x.toNat, space_mem hsp, data, by rw [hu]; rfl, by rw [hu]; rfl⟩
    | false =>
      refine .inr ⟨rfl, fun j hj => ?_⟩
      obtain rfl : j = 0 := by dsimp only at hj; omega
      exact first hsp
  · rcases decode_cases x data (by omega) with h | ⟨r, rest, hs, -, he, h, -⟩
    · rw [h] at first ⊢
      refine ⟨Nat.one_pos, by simp, .inr ⟨by decide, fun j hj => ?_⟩⟩
      obtain rfl : j = 0 := by dsimp only at hj; omega
      exact first (by decide)
    · rw [h] at first ⊢
      dsimp only at first ⊢
      have hl := utf8_length r
      refine ⟨by omega, by rw [he, List.length_append]; omega, ?_⟩
      cases hsp : isSpaceRune r with
      | true => exact .inl ⟨rfl, r, space_mem hsp, rest, he, rfl⟩
      | false =>
        refine .inr ⟨rfl, fun j hj s hm hp => ?_⟩
        by_cases h0 : j = 0
        · subst h0
          exact first hsp s hm hp
        · obtain ⟨hne, -, hh⟩ := spaces_bytes s hm
          obtain ⟨y, u, rfl⟩ := List.exists_cons_of_ne_nil hne
          rw [List.headD_cons] at hh
          refine hh (utf8_cont r y ?_)
          rw [he, List.drop_append_of_le_length (by omega)] at hp
          obtain ⟨v, hv⟩ := hp
          rw [List.drop_eq_getElem_cons hj, List.cons_append, List.cons_append, List.cons.injEq] at hv
          rw [hv.1, List.mem_iff_getElem]
          exact ⟨j - 1, by rw [List.length_tail]; omega, by
            rw [List.getElem_tail]; congr 1; omega⟩

theorem clear_solid {data : Bytes} {i : Nat} (h : Clear data i) : Solid (data.take i) := by
  rw [solid_iff]
  rintro s hs ⟨a, b, e⟩
  have hl := congrArg List.length e
  have hne := List.length_pos_iff.2 (spaces_bytes s hs).1
  rw [List.length_append, List.length_append, List.length_take] at hl
  refine h a.length (by omega) s hs ?_
  have hd : data.drop a.length = s ++ (b ++ data.drop i) := by
    conv_lhs => rw [← List.take_append_drop i data, ← e]
    simp
  rw [hd]
  exact List.prefix_append _ _

theorem clear_add {data : Bytes} {i j : Nat} (h : Clear data i) (h' : Clear (data.drop i) j) : Clear data (i + j) := by
  intro k hk s hs
  by_cases hi : k < i
  · exact h k hi s hs
  · have := h' (k - i) (by omega) s hs
    rwa [List.drop_drop, show i + (k - i) = k by omega] at this

theorem nextSpace_eq : ∀ (n : Nat) (data : Bytes), data.length ≤ n →
    (∃ i, ∃ c ∈ whiteSpace, nextSpace n data = some (i, (utf8 c).length) ∧ i + (utf8 c).length ≤ data.length ∧
      Clear data i ∧ data = data.take i ++ (utf8 c ++ data.drop (i + (utf8 c).length))) ∨
    nextSpace n data = none ∧ Clear data data.length
  | 0, [], _ => .inr ⟨rfl, fun j h => by simp at h⟩
  | 0, _ :: _, h => by simp at h
  | _ + 1, [], _ => .inr ⟨rfl, fun j h => by simp at h⟩
  | n + 1, x :: data, h => by
    rw [nextSpace]
    swap
    · exact fun h => by cases h
    obtain ⟨hp, hl, hc⟩ := rune_cases x data
    generalize decodeRune (x :: data) = p at *
    obtain ⟨r, w⟩ := p
    dsimp only at *
    rcases hc with ⟨hs, c, hc, rest, e, rfl⟩ | ⟨hs, hc⟩
    · rw [if_pos hs]
      refine .inl ⟨0, c, hc, rfl, by omega, fun j hj => by omega, ?_⟩
      rw [e]
      simp
    · rw [if_neg (by rw [hs]; simp)]
      have hd : ((x :: data).drop w).length ≤ n := by rw [List.length_drop]; omega
      rcases nextSpace_eq n ((x :: data).drop w) hd with ⟨i, c, h1, h2, h3, h4, h5⟩ | ⟨h1, h2⟩
      · rw [List.length_drop] at h3
        refine .inl ⟨w + i, c, h1, by rw [h2]; rfl, by omega, clear_add hc h4, ?_⟩
        conv_lhs => rw [← List.take_append_drop w (x :: data), h5]
        rw [List.take_add, List.drop_drop, List.append_assoc, Nat.add_assoc]
      · refine .inr ⟨by rw [h1]; rfl, ?_⟩
        have := clear_add hc h2
        rwa [List.length_drop, show w + ((x :: data).length - w) = (x :: data).length by omega] at this

theorem leadingSpaces_eq : ∀ (n : Nat) (data : Bytes), data.length ≤ n →
    leadingSpaces n data ≤ data.length ∧ Blank (data.take (leadingSpaces n data)) ∧
    Clear (data.drop (leadingSpaces n data)) (min 1 (data.drop (leadingSpaces n data)).length)
  | 0, [], _ => ⟨by simp [leadingSpaces], ⟨[], by simp, by simp [leadingSpaces]⟩, fun j h => by simp [leadingSpaces] at h⟩
  | 0, _ :: _, h => by simp at h
  | _ + 1, [], _ => ⟨by simp [leadingSpaces], ⟨[], by simp, by simp [leadingSpaces]⟩, fun j h => by simp [leadingSpaces] at h⟩
  | n + 1, x :: data, h => by
    rw [leadingSpaces]
    swap
    · exact fun h => by cases h
    obtain ⟨hp, hl, hc⟩ := rune_cases x data
    generalize decodeRune (x :: data) = p at *
    obtain ⟨r, w⟩ := p
    dsimp only at *
    rcases hc with ⟨hs, c, hc, rest, e, rfl⟩ | ⟨hs, hc⟩
    · rw [if_pos hs]
      have hd : ((x :: data).drop (utf8 c).length).length ≤ n := by rw [List.length_drop]; omega
      obtain ⟨h1, ⟨cs, h2, h2'⟩, h3⟩ := leadingSpaces_eq n _ hd
      rw [List.length_drop] at h1
      refine ⟨by omega, ⟨c :: cs, ?_, ?_⟩, ?_⟩
      · intro d hd
        rcases List.mem_cons.1 hd with rfl | hd
        · exact hc
        · exact h2 d hd
      · rw [List.take_add, h2', List.flatMap_cons]
        congr 1
        rw [e]
        simp
      · rwa [List.drop_drop] at h3
    · rw [if_neg (by rw [hs]; simp)]
      refine ⟨by omega, ⟨[], by simp, by simp⟩, ?_⟩
      intro j hj
      rw [List.drop_zero]
      exact hc j (by omega)

theorem scanWords_gap {gap : Bytes} (h : Blank gap) (rest : Bytes) : scanWords (gap ++ rest) = scanWords rest := by
  obtain ⟨cs, hcs, rfl⟩ := h
  rw [scanWords, fields_gap cs rest hcs, scanWords]

theorem scanWords_word {w : Bytes} {c : Nat} (hw : w ≠ []) (hs : Solid w) (hc : c ∈ whiteSpace)
    (hl : w.length + (utf8 c).length ≤ 65536) (rest : Bytes) : scanWords (w ++ (utf8 c ++ rest)) = w :: scanWords rest := by
  unfold scanWords
  rw [fields_solid w [] _ hs (lead_space (utf8_mem hc) rest), fields_at_space (utf8_mem hc), List.nil_append, flush,
    if_neg hw, List.map_cons, List.map_nil, List.cons_append, List.nil_append,
    List.takeWhile_cons_of_pos (by rw [decide_eq_true_eq, maxScanTokenSize]; exact hl)]
  rfl

theorem scanWords_last {w : Bytes} (hw : w ≠ []) (hs : Solid w) (hl : w.length < 65536) : scanWords w = [w] := by
  have := fields_solid w [] [] hs lead_nil
  rw [List.append_nil] at this
  unfold scanWords
  rw [this, List.nil_append, fields, flush, if_neg hw, List.map_cons, List.map_nil,
    List.takeWhile_cons_of_pos (by rw [decide_eq_true_eq, maxScanTokenSize]; dsimp only; omega)]
  rfl

theorem scanWords_long {w : Bytes} (hs : Solid w) (hl : w.length = 65536) (rest : Bytes) : scanWords (w ++ rest) = [] := by
  obtain ⟨v, n, r, h, h'⟩ := fields_long rest w [] hs (.inr (by omega))
  unfold scanWords
  rw [h, List.takeWhile_cons_of_neg]
  · rfl
  · rw [decide_eq_true_eq, maxScanTokenSize]
    rw [List.length_nil] at h'
    dsimp only
    omega

/-- What `splitWords` finds -/
theorem splitWords_eq (data : Bytes) (e : Bool) : ∃ gap u, Blank gap ∧ data = gap ++ u ∧
    ((∃ w rest, ∃ c ∈ whiteSpace, u = w ++ (utf8 c ++ rest) ∧ w ≠ [] ∧ Solid w ∧
        splitWords data e = (gap.length + w.length + (utf8 c).length, some w)) ∨
      Solid u ∧ splitWords data e = if e = true ∧ u ≠ [] then (data.length, some u) else (gap.length, none)) := by
  obtain ⟨h1, h2, h3⟩ := leadingSpaces_eq data.length data (le_refl _)
  refine ⟨data.take (leadingSpaces data.length data), data.drop (leadingSpaces data.length data), h2,
    (List.take_append_drop _ _).symm, ?_⟩
  have hlt : (data.take (leadingSpaces data.length data)).length = leadingSpaces data.length data := by
    rw [List.length_take]; omega
  have hu : leadingSpaces data.length data < data.length ↔ data.drop (leadingSpaces data.length data) ≠ [] := by
    rw [← List.length_pos_iff, List.length_drop]; omega
  unfold splitWords
  dsimp only
  rw [hlt]
  generalize hk : leadingSpaces data.length data = k at *
  rcases nextSpace_eq (data.drop k).length (data.drop k) (le_refl _) with ⟨i, c, hc, h4, h5, h6, h7⟩ | ⟨h4, h5⟩
  · left
    rw [h4]
    have hi : ((data.drop k).take i).length = i := by rw [List.length_take]; omega
    refine ⟨_, _, c, hc, h7, ?_, clear_solid h6, ?_⟩
    · intro hn
      rw [hn, List.length_nil] at hi
      subst hi
      rw [List.take_zero, List.nil_append] at h7
      have hl := utf8_length c
      refine h3 0 (by omega) (utf8 c) (utf8_mem hc) ?_
      rw [List.drop_zero, h7]
      exact List.prefix_append _ _
    · rw [hi]
  · right
    rw [h4]
    have := clear_solid h5
    rw [List.take_length] at this
    refine ⟨this, ?_⟩
    dsimp only
    simp only [gt_iff_lt, hu]

theorem splits_words : Splits splitWords scanWords where
  le data e := by
    obtain ⟨gap, u, -, rfl, ⟨w, rest, c, -, rfl, -, -, h⟩ | ⟨-, h⟩⟩ := splitWords_eq data e
    · rw [h]; simp only [List.length_append]; omega
    · rw [h]
      split
      · exact le_refl _
      · simp
  pos data e t := by
    obtain ⟨gap, u, -, rfl, ⟨w, rest, c, -, rfl, hw, -, h⟩ | ⟨-, h⟩⟩ := splitWords_eq data e
    · rw [h]
      have := List.length_pos_iff.2 hw
      intro _; dsimp only; omega
    · rw [h]
      split
      · next hu =>
        have := List.length_pos_iff.2 hu.2
        intro _
        simp only [List.length_append]; omega
      · simp
  empty := rfl
  token data t hl := by
    obtain ⟨gap, u, hg, rfl, ⟨w, rest, c, hc, rfl, hw, hs, h⟩ | ⟨-, h⟩⟩ := splitWords_eq data false
    · rw [h]
      intro e more
      simp only [Option.some.injEq] at e
      subst e
      simp only [List.length_append] at hl
      rw [List.append_assoc, scanWords_gap hg, List.append_assoc, List.append_assoc,
        scanWords_word hw hs hc (by omega)]
      congr 2
      dsimp only
      rw [← List.append_assoc, ← List.append_assoc, List.drop_append_of_le_length (by simp [Nat.add_assoc]),
        List.drop_of_length_le (by simp [Nat.add_assoc]), List.nil_append]
    · rw [h, if_neg (by simp)]; simp
  more data := by
    obtain ⟨gap, u, hg, rfl, ⟨w, rest, c, hc, rfl, hw, hs, h⟩ | ⟨hs, h⟩⟩ := splitWords_eq data false
    · rw [h]; simp
    · rw [h, if_neg (by simp)]
      intro _ more
      dsimp only
      rw [List.drop_left, List.append_assoc, scanWords_gap hg]
      exact ⟨rfl, fun hl => scanWords_long hs hl more⟩
  last data t hl := by
    obtain ⟨gap, u, hg, rfl, ⟨w, rest, c, hc, rfl, hw, hs, h⟩ | ⟨hs, h⟩⟩ := splitWords_eq data true
    · rw [h]
      intro e
      simp only [Option.some.injEq] at e
      subst e
      simp only [List.length_append] at hl
      rw [scanWords_gap hg, scanWords_word hw hs hc (by omega)]
      congr 2
      dsimp only
      rw [← List.append_assoc, ← List.append_assoc, List.drop_append_of_le_length (by simp [Nat.add_assoc]),
        List.drop_of_length_le (by simp [Nat.add_assoc]), List.nil_append]
    · rw [h]
      by_cases hu : u = []
      · rw [if_neg (by simp [hu])]; simp
      · rw [if_pos ⟨rfl, hu⟩]
        intro e
        simp only [Option.some.injEq] at e
        subst e
        rw [List.length_append] at hl
        rw [scanWords_gap hg, scanWords_last hu hs (by omega)]
        dsimp only
        rw [List.drop_length]
        rfl
  none data := by
    obtain ⟨gap, u, hg, rfl, ⟨w, rest, c, hc, rfl, hw, hs, h⟩ | ⟨hs, h⟩⟩ := splitWords_eq data true
    · rw [h]; simp
    · rw [h]
      by_cases hu : u = []
      · intro _
        rw [scanWords_gap hg, hu]
        rfl
      · rw [if_pos ⟨rfl, hu⟩]; simp

/-! ## The lines that there are -/

theorem lineText_iff {l t : Bytes} : LineText l t ↔ dropCR l = t := by
  unfold LineText dropCR
  have hs : [0x0D] <:+ l ↔ l.getLast? = some 0x0D := by
    rw [List.getLast?_eq_some_iff]
    constructor
    · rintro ⟨a, rfl⟩; exact ⟨a, rfl⟩
    · rintro ⟨a, rfl⟩; exact ⟨a, rfl⟩
  rw [hs]
  by_cases h : l.getLast? = some 0x0D
  · rw [if_pos h]
    obtain ⟨a, rfl⟩ := List.getLast?_eq_some_iff.1 h
    simp
  · rw [if_neg h]
    constructor
    · rintro (rfl | ⟨rfl, -⟩)
      · simp at h
      · rfl
    · rintro rfl
      exact .inr ⟨rfl, h⟩

theorem scan_of_lines {t : Bytes} {ls : List Bytes} (h : LinesIn t ls) : scanLines t = ls := by
  induction h with
  | none => rfl
  | last h1 h2 h3 h4 =>
    unfold scanLines
    rw [rawLines_whole h2, List.nil_append, flush, if_neg h1,
      List.takeWhile_cons_of_pos (by rw [decide_eq_true_eq, maxScanTokenSize]; omega), ← lineText_iff.1 h4]
    rfl
  | next h1 h2 h3 _ ih => rw [scanLines_first h1 h2, lineText_iff.1 h3, ih]
  | long h1 h2 => exact scanLines_long h1 h2

theorem linesIn_exist (t : Bytes) : ∃ ls, LinesIn t ls := by
  generalize hn : t.length = n
  induction n using Nat.strong_induction_on generalizing t with
  | _ n ih =>
    rcases h : t.idxOf? 0x0A with - | i
    · have h := line_none h
      by_cases h0 : t = []
      · rw [h0]; exact ⟨_, .none⟩
      · by_cases hl : t.length < 65536
        · exact ⟨_, .last h0 h hl (lineText_iff.2 rfl)⟩
        · rw [← List.take_append_drop 65536 t]
          exact ⟨_, .long (fun hm => h (List.mem_of_mem_take hm)) (by rw [List.length_take]; omega)⟩
    · obtain ⟨h1, h2, h3⟩ := line_split h
      by_cases hl : i < 65536
      · obtain ⟨ls, hls⟩ := ih (t.drop (i + 1)).length (by rw [List.length_drop]; omega) _ rfl
        rw [h3]
        exact ⟨_, .next h2 (by rw [List.length_take]; omega) (lineText_iff.2 rfl) hls⟩
      · rw [← List.take_append_drop 65536 t]
        refine ⟨_, .long (fun hm => h2 ?_) (by rw [List.length_take]; omega)⟩
        have : t.take 65536 = (t.take i).take 65536 := by rw [List.take_take, Nat.min_eq_left (by omega)]
        rw [this] at hm
        exact List.mem_of_mem_take hm

theorem linesIn_iff {t : Bytes} {ls : List Bytes} : LinesIn t ls ↔ scanLines t = ls := by
  refine ⟨scan_of_lines, ?_⟩
  rintro rfl
  obtain ⟨ls, h⟩ := linesIn_exist t
  rwa [scan_of_lines h]

/-! ## A line at a time -/

/-- The line is read, perhaps in parts, and nothing else. -/
theorem scan_line {l : Bytes} (hl : 0x0A ∉ l) (hlen : l.length < 65536) (rest : List Bytes) :
    ∀ (n : Nat) (s : Scanner) (p : Bytes), Inv s → s.eof = false → s.input = p :: rest → p ≠ [] → s.data ++ p = l ++ [0x0A] →
      p.length + 2 ≤ n →
      ∃ s', s.scan splitLines n = (some (dropCR l), s') ∧ Inv s' ∧ s'.eof = false ∧ s'.data = [] ∧ s'.input = rest := by
  intro n
  induction n with
  | zero => intro s p _ _ _ _ _ h; omega
  | succ n ih =>
    intro s p hi he hin hp hd hn
    have hsplit : (if s.data ≠ [] ∨ s.eof = true then splitLines s.data s.eof else (0, none)) = (0, none) := by
      by_cases h : s.data ≠ [] ∨ s.eof = true
      · rw [if_pos h, he]
        unfold splitLines
        simp only [Bool.false_eq_true, false_and, if_false]
        have hnone : s.data.idxOf? 0x0A = none := by
          simp only [List.idxOf?_eq_none_iff]
          intro hm
          refine hl ?_
          have hpre : s.data <+: l := by
            refine List.prefix_of_prefix_length_le (List.prefix_append s.data p) (hd ▸ List.prefix_append l [0x0A]) ?_
            have := congrArg List.length hd
            have := List.length_pos_iff.2 hp
            simp only [List.length_append, List.length_cons, List.length_nil] at *
            omega
          exact hpre.mem hm
        rw [hnone]
      · rw [if_neg h]
    have hs : ({ s with data := s.data.drop 0, start := s.start + 0 } : Scanner) = s := rfl
    unfold Scanner.scan
    rw [hsplit]
    dsimp only
    rw [if_neg (by rw [he]; simp), hs]
    have hdl : s.data.length ≤ l.length := by
      have := congrArg List.length hd
      have := List.length_pos_iff.2 hp
      simp only [List.length_append, List.length_cons, List.length_nil] at *
      omega
    obtain ⟨start, size, hf, h1, h2⟩ : ∃ start size, s.fill = some (Scanner.fill.read s start size) ∧
        start + s.data.length < size ∧ size ≤ 65536 := by
      unfold Scanner.fill
      dsimp only
      have hm : maxScanTokenSize = 65536 := rfl
      obtain ⟨hroom, hsize, -⟩ := hi
      by_cases hc : 0 < s.start ∧ (s.start + s.data.length = s.size ∨ s.size / 2 < s.start)
      · rw [if_pos hc, if_neg (by omega)]
        exact ⟨_, _, rfl, by omega, hsize⟩
      · rw [if_neg hc]
        by_cases hf : s.start + s.data.length = s.size
        · rw [if_pos hf, if_neg (by omega)]
          refine ⟨_, _, rfl, ?_, Nat.le_trans (Nat.min_le_right _ _) (by omega)⟩
          by_cases h0 : s.size * 2 = 0
          · rw [if_pos h0, hm]; simp; omega
          · rw [if_neg h0, hm]; omega
        · rw [if_neg hf]
          exact ⟨_, _, rfl, by omega, hsize⟩
    rw [hf]
    dsimp only
    obtain ⟨hinv, -, -⟩ := read_cases he h1 h2
    obtain ⟨x, q, rfl⟩ := List.exists_cons_of_ne_nil hp
    unfold Scanner.fill.read at hinv ⊢
    rw [hin] at hinv ⊢
    unfold readPiece at hinv ⊢
    dsimp only at hinv ⊢
    generalize hroom : size - (start + s.data.length) = room at *
    by_cases hfit : (x :: q).length ≤ room
    · rw [if_pos hfit, List.take_of_length_le hfit, hd] at hinv ⊢
      obtain ⟨n, rfl⟩ : ∃ m, n = m + 1 := ⟨n - 1, by omega⟩
      have hidx : (l ++ [0x0A]).idxOf? 0x0A = some l.length := by
        rw [List.idxOf?, List.findIdx?_append]
        have : l.findIdx? (· == 0x0A) = none := by
          rw [List.findIdx?_eq_none_iff]
          intro x hx
          simp only [beq_eq_false_iff_ne]
          rintro rfl
          exact hl hx
        rw [this]
        simp
      unfold Scanner.scan
      dsimp only
      rw [if_pos (.inl (by simp)), he]
      unfold splitLines
      simp only [Bool.false_eq_true, false_and, if_false, hidx, List.take_left]
      refine ⟨_, rfl, ⟨?_, h2, ?_⟩, rfl, ?_, rfl⟩
      · have := hinv.room
        dsimp only at this ⊢
        simp only [List.length_append, List.length_cons, List.length_nil, List.length_drop] at this ⊢
        omega
      · intro h; cases h
      · simp
    · rw [if_neg hfit] at hinv ⊢
      refine ih _ ((x :: q).drop room) hinv he rfl ?_ ?_ ?_
      · intro h
        have := congrArg List.length h
        rw [List.length_drop, List.length_nil] at this
        omega
      · dsimp only
        rw [List.append_assoc, List.take_append_drop, hd]
      · rw [List.length_drop]; omega

/-! ## The prompt for a line at a time -/

/-- One round of the loop: how it goes on, or what is returned -/
def simpleStep (L : WordList) (wordCount : Nat) (words : List Bytes) (line : Bytes) : (Nat × List Bytes) ⊕ Res (List Bytes) :=
  let wordInput := L.toLower (trimSpace line)
  if L.exactMatch wordInput then
    if words.length = 0 then
      match parseMnemonicVersion L wordInput with
      | .err _ => .inl (wordCount, words)
      | .panic p => .inr (.panic p)
      | .ok version =>
        if (words ++ [wordInput]).length < mnemonicSize version then .inl (mnemonicSize version, words ++ [wordInput])
        else .inr (.ok (words ++ [wordInput]))
    else if (words ++ [wordInput]).length < wordCount then .inl (wordCount, words ++ [wordInput])
    else .inr (.ok (words ++ [wordInput]))
  else .inl (wordCount, words)

theorem simpleLoop_step (L : WordList) (wordCount : Nat) (words : List Bytes) (line : Bytes) (lines : List Bytes) :
    simpleLoop L wordCount words (line :: lines) = match simpleStep L wordCount words line with
      | .inl (wordCount, words) => simpleLoop L wordCount words lines
      | .inr r => r := by
  rw [simpleLoop, simpleStep]
  dsimp only
  by_cases h1 : L.exactMatch (L.toLower (trimSpace line)) = true
  · rw [if_pos h1, if_pos h1]
    by_cases h2 : words.length = 0
    · rw [if_pos h2, if_pos h2]
      cases parseMnemonicVersion L (L.toLower (trimSpace line)) with
      | err e => rfl
      | panic p => rfl
      | ok version =>
        dsimp only
        by_cases h3 : (words ++ [L.toLower (trimSpace line)]).length < mnemonicSize version
        · rw [if_pos h3, if_pos h3]
        · rw [if_neg h3, if_neg h3]
    · rw [if_neg h2, if_neg h2]
      by_cases h3 : (words ++ [L.toLower (trimSpace line)]).length < wordCount
      · rw [if_pos h3, if_pos h3]
      · rw [if_neg h3, if_neg h3]
  · rw [if_neg h1, if_neg h1]

theorem simpleScan_step (L : WordList) (n wordCount : Nat) (words : List Bytes) {s s' : Scanner} {line : Bytes}
    (h : s.scan splitLines s.fuel = (some line, s')) :
    simpleScan L (n + 1) wordCount words s = match simpleStep L wordCount words line with
      | .inl (wordCount, words) => simpleScan L n wordCount words s'
      | .inr r => (r, s') := by
  rw [simpleScan, simpleStep, h]
  dsimp only
  by_cases h1 : L.exactMatch (L.toLower (trimSpace line)) = true
  · rw [if_pos h1, if_pos h1]
    by_cases h2 : words.length = 0
    · rw [if_pos h2, if_pos h2]
      cases parseMnemonicVersion L (L.toLower (trimSpace line)) with
      | err e => rfl
      | panic p => rfl
      | ok version =>
        dsimp only
        by_cases h3 : (words ++ [L.toLower (trimSpace line)]).length < mnemonicSize version
        · rw [if_pos h3, if_pos h3]
        · rw [if_neg h3, if_neg h3]
    · rw [if_neg h2, if_neg h2]
      by_cases h3 : (words ++ [L.toLower (trimSpace line)]).length < wordCount
      · rw [if_pos h3, if_pos h3]
      · rw [if_neg h3, if_neg h3]
  · rw [if_neg h1, if_neg h1]

theorem simpleScan_lines (L : WordList) (tail : List Bytes) {r : Res (List Bytes)} (hr : r ≠ .err .stdinRead) :
    ∀ (ls : List Bytes), (∀ l ∈ ls, 0x0A ∉ l ∧ l.length < 65536) →
      ∀ (n wordCount : Nat) (words : List Bytes) (s : Scanner), ls.length ≤ n → Inv s → s.eof = false → s.data = [] →
        s.input = enteredLines ls ++ tail → simpleLoop L wordCount words (ls.map dropCR) = r →
        ∃ k ≤ ls.length, ∃ s', simpleScan L n wordCount words s = (r, s') ∧ s'.input = enteredLines (ls.drop k) ++ tail ∧
          simpleLoop L wordCount words ((ls.take k).map dropCR) = r ∧
          ∀ j < k, simpleLoop L wordCount words ((ls.take j).map dropCR) = .err .stdinRead := by
  intro ls
  induction ls with
  | nil =>
    intro _ n wc words s _ _ _ _ _ h
    exact absurd h.symm hr
  | cons l ls ih =>
    intro hgood n wc words s hn hi he hd hin h
    obtain ⟨n, rfl⟩ : ∃ m, n = m + 1 := ⟨n - 1, by rw [List.length_cons] at hn; omega⟩
    obtain ⟨hl, hlen⟩ := hgood l List.mem_cons_self
    have hin' : s.input = (l ++ [0x0A]) :: (enteredLines ls ++ tail) := by rw [hin]; rfl
    obtain ⟨s1, hs1, hi1, he1, hd1, hin1⟩ := scan_line hl hlen (enteredLines ls ++ tail) s.fuel s (l ++ [0x0A]) hi he hin' (by simp)
      (by rw [hd]; rfl) (by unfold Scanner.fuel; rw [hin', List.flatten_cons]; simp only [List.length_append]; omega)
    rw [simpleScan_step L n wc words hs1]
    rw [List.map_cons, simpleLoop_step] at h
    rcases hstep : simpleStep L wc words (dropCR l) with ⟨wc', words'⟩ | r'
    · rw [hstep] at h
      dsimp only at h ⊢
      obtain ⟨k, hk, s', h1, h2, h3, h4⟩ := ih (fun l hl => hgood l (List.mem_cons_of_mem _ hl)) n wc' words' s1
        (by rw [List.length_cons] at hn; omega) hi1 he1 hd1 hin1 h
      refine ⟨k + 1, by rw [List.length_cons]; omega, s', h1, h2, ?_, ?_⟩
      · rw [List.take_succ_cons, List.map_cons, simpleLoop_step, hstep]
        exact h3
      · intro j hj
        cases j with
        | zero => rfl
        | succ j =>
          rw [List.take_succ_cons, List.map_cons, simpleLoop_step, hstep]
          exact h4 j (by omega)
    · rw [hstep] at h
      dsimp only at h ⊢
      subst h
      refine ⟨1, by simp, s1, rfl, hin1, ?_, ?_⟩
      · rw [List.take_succ_cons, List.map_cons, simpleLoop_step, hstep]
      · intro j hj
        obtain rfl : j = 0 := by omega
        rfl

theorem scanLines_pieces : ∀ (ls : List Bytes), (∀ l ∈ ls, 0x0A ∉ l ∧ l.length < 65536) →
    scanLines (enteredLines ls).flatten = ls.map dropCR
  | [], _ => rfl
  | l :: ls, h => by
    obtain ⟨h1, h2⟩ := h l List.mem_cons_self
    have : (enteredLines (l :: ls)).flatten = l ++ 0x0A :: (enteredLines ls).flatten := by simp [enteredLines]
    rw [this, scanLines_first h1 h2, scanLines_pieces ls fun l hl => h l (List.mem_cons_of_mem _ hl), List.map_cons]

theorem pieces_length (ls : List Bytes) : ls.length ≤ (enteredLines ls).flatten.length := by
  induction ls with
  | nil => simp [enteredLines]
  | cons l ls ih =>
    have : (enteredLines (l :: ls)).flatten = l ++ 0x0A :: (enteredLines ls).flatten := by simp [enteredLines]
    rw [this, List.length_append, List.length_cons, List.length_cons]
    omega

theorem simplePrompted_lines (L : WordList) (ls tail : List Bytes) (hgood : ∀ l ∈ ls, 0x0A ∉ l ∧ l.length < 65536)
    {words : List Bytes} (h : userInputMnemonicSimple L (enteredLines ls).flatten = .ok words) :
    ∃ k ≤ ls.length, simplePrompted L (enteredLines ls ++ tail) = (.ok words, enteredLines (ls.drop k) ++ tail) ∧
      userInputMnemonicSimple L (enteredLines (ls.take k)).flatten = .ok words ∧
      ∀ j < k, userInputMnemonicSimple L (enteredLines (ls.take j)).flatten = .err .stdinRead := by
  have sub : ∀ k, ∀ l ∈ ls.take k, 0x0A ∉ l ∧ l.length < 65536 := fun k l hl => hgood l (List.mem_of_mem_take hl)
  unfold userInputMnemonicSimple at h ⊢
  rw [scanLines_pieces ls hgood] at h
  have hlen := pieces_length ls
  obtain ⟨k, hk, s', h1, h2, h3, h4⟩ := simpleScan_lines L tail (r := .ok words) (by simp) ls hgood
    ((enteredLines ls ++ tail).flatten.length + 2) 1 [] (newScanner (enteredLines ls ++ tail))
    (by rw [List.flatten_append, List.length_append]; omega) (inv_new _) rfl rfl rfl h
  refine ⟨k, hk, ?_, ?_, ?_⟩
  · unfold simplePrompted
    rw [h1]
    dsimp only
    rw [h2]
  · rw [scanLines_pieces _ (sub k)]
    exact h3
  · intro j hj
    rw [scanLines_pieces _ (sub j)]
    exact h4 j hj

/-! ## So many bytes -/

theorem readFull_eq : ∀ (n wanted : Nat) (input : List Bytes), wanted ≤ n → (∀ p ∈ input, p ≠ []) →
    (wanted ≤ input.flatten.length → ∃ left, readFull n wanted input = (some (input.flatten.take wanted), left) ∧
      left.flatten = input.flatten.drop wanted ∧ ∀ p ∈ left, p ≠ []) ∧
    (input.flatten.length < wanted → (readFull n wanted input).1 = none)
  | _, 0, input, _, hp => ⟨fun _ => ⟨input, by simp [readFull], by simp, hp⟩, fun h => by omega⟩
  | 0, w + 1, _, h, _ => by omega
  | n + 1, w + 1, [], _, _ => ⟨fun h => by simp at h, fun _ => by simp [readFull, readPiece]⟩
  | n + 1, w + 1, [] :: rest, _, hp => absurd rfl (hp [] List.mem_cons_self)
  | n + 1, w + 1, (x :: p) :: rest, h, hp => by
    have hlen : ((x :: p) :: rest).flatten.length = (x :: p).length + rest.flatten.length := by
      rw [List.flatten_cons, List.length_append]
    by_cases hfit : (x :: p).length ≤ w + 1
    · have hstep : readFull (n + 1) (w + 1) ((x :: p) :: rest) =
          match readFull n (w + 1 - (x :: p).length) rest with
          | (none, input) => (none, input)
          | (some more, input) => (some ((x :: p) ++ more), input) := by
        rw [readFull]; swap; · exact fun h => by omega
        simp only [readPiece]
        rw [if_pos hfit, List.take_of_length_le hfit]
        rfl
      obtain ⟨h1, h2⟩ := readFull_eq n (w + 1 - (x :: p).length) rest (by rw [List.length_cons]; omega)
        (fun q hq => hp q (List.mem_cons_of_mem _ hq))
      constructor
      · intro hw
        obtain ⟨left, e1, e2, e3⟩ := h1 (by omega)
        refine ⟨left, ?_, ?_, e3⟩
        · rw [hstep, e1, List.flatten_cons, List.take_append, List.take_of_length_le hfit]
        · rw [e2, List.flatten_cons, List.drop_append, List.drop_of_length_le hfit, List.nil_append]
      · intro hw
        have := h2 (by omega)
        rw [hstep]
        generalize readFull n (w + 1 - (x :: p).length) rest = q at this
        obtain ⟨q1, q2⟩ := q
        cases this
        rfl
    · have htl : ((x :: p).take (w + 1)).length = w + 1 := by rw [List.length_take]; omega
      refine ⟨fun _ => ⟨(x :: p).drop (w + 1) :: rest, ?_, ?_, ?_⟩, fun hw => by omega⟩
      · rw [readFull]; swap; · exact fun h => by omega
        simp only [readPiece]
        rw [if_neg hfit, htl, Nat.sub_self]
        have : ∀ m i, readFull m 0 i = (some [], i) := fun m i => by cases m <;> rfl
        rw [this, List.flatten_cons, List.take_append_of_le_length (by omega)]
        simp
      · rw [List.flatten_cons, List.flatten_cons, List.drop_append_of_le_length (by omega)]
      · intro q hq
        rcases List.mem_cons.1 hq with rfl | hq
        · intro e
          have := congrArg List.length e
          rw [List.length_drop, List.length_nil] at this
          omega
        · exact hp q (List.mem_cons_of_mem _ hq)

theorem read_plain : ∀ (line ret : Bytes) (rest : List (Option Byte)), (∀ b ∈ line, b ≠ 0x08 ∧ b ≠ 0x0A ∧ b ≠ 0x0D) →
    readPasswordLine ret (line.map some ++ rest) = readPasswordLine (ret ++ line) rest
  | [], ret, rest, _ => by simp
  | b :: line, ret, rest, h => by
    obtain ⟨h1, h2, h3⟩ := h b (by simp)
    show readPasswordLine ret (some b :: (line.map some ++ rest)) = _
    rw [readPasswordLine, if_neg h1, if_neg h2, if_neg h3, read_plain line _ rest (fun c hc => h c (by simp [hc]))]
    simp

end Verif.Proofs
