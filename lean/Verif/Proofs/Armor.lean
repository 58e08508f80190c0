import Verif.Spec.Armor
import Mathlib.Data.List.Basic

/-!
# Lemmas about ASCII armor, and an armor that meets the contract

`goArmor` is what golang.org/x/crypto/openpgp/armor writes, as far as it is known here; it shows that the
contract can be met. `tools/vectors/run.py` gives its output to GnuPG.
-/

namespace Verif.Armor

open Verif.Spec

/-! ### lines -/

theorem lines_ne (t : Bytes) : armorLines t ≠ [] := by
  cases t with
  | nil => simp [armorLines]
  | cons b t =>
    rw [armorLines]
    split
    · simp
    · split <;> simp

theorem lines_lf (t : Bytes) : armorLines (0x0A :: t) = [] :: armorLines t := by simp [armorLines]

theorem lines_split (l t : Bytes) (h : (0x0A : Byte) ∉ l) :
    armorLines (l ++ 0x0A :: t) = l :: armorLines t := by
  induction l with
  | nil => exact lines_lf t
  | cons b l ih =>
    rw [List.mem_cons, not_or] at h
    rw [List.cons_append, armorLines, if_neg (Ne.symm h.1), ih h.2]

theorem lines_plain (l : Bytes) (h : (0x0A : Byte) ∉ l) : armorLines l = [l] := by
  induction l with
  | nil => rfl
  | cons b l ih =>
    rw [List.mem_cons, not_or] at h
    rw [armorLines, if_neg (Ne.symm h.1), ih h.2]

/-- Lines of a text in two parts: the last line of the first and the first of the second become one. -/
theorem lines_append : ∀ (t s : Bytes), ∃ init last first rest, armorLines t = init ++ [last] ∧
    armorLines s = first :: rest ∧ armorLines (t ++ s) = init ++ (last ++ first) :: rest
  | [], s => by
    obtain ⟨f, r, hs⟩ := List.exists_cons_of_ne_nil (lines_ne s)
    exact ⟨[], [], f, r, rfl, hs, by simpa using hs⟩
  | b :: t, s => by
    obtain ⟨init, last, first, rest, ht, hs, hts⟩ := lines_append t s
    by_cases hb : b = 0x0A
    · subst hb
      exact ⟨[] :: init, last, first, rest, by rw [lines_lf, ht]; rfl, hs, by
        rw [List.cons_append, lines_lf, hts]; rfl⟩
    · cases init with
      | nil =>
        exact ⟨[], b :: last, first, rest, by rw [armorLines, if_neg hb, ht]; rfl, hs, by
          rw [List.cons_append, armorLines, if_neg hb, hts]; rfl⟩
      | cons i init =>
        exact ⟨(b :: i) :: init, last, first, rest, by rw [armorLines, if_neg hb, ht]; rfl, hs, by
          rw [List.cons_append, armorLines, if_neg hb, hts]; rfl⟩

theorem lines_end (t : Bytes) : armorLines (t ++ [0x0A]) = armorLines t ++ [[]] := by
  obtain ⟨init, last, first, rest, ht, hs, hts⟩ := lines_append t [0x0A]
  have : armorLines [0x0A] = [[], []] := rfl
  rw [this] at hs
  cases hs
  rw [hts, ht]
  simp

theorem lines_nil_iff {s : Bytes} (h : armorLines s = [[]]) : s = [] := by
  cases s with
  | nil => rfl
  | cons b s =>
    rw [armorLines] at h
    split at h
    · rw [List.cons.injEq] at h
      exact absurd h.2 (lines_ne s)
    · split at h <;> simp at h

/-! ### the reader -/

theorem data_append (ls : List Bytes) (r : List Bytes) : (armorData ls).2 ≠ [] →
    armorData (ls ++ r) = ((armorData ls).1, (armorData ls).2 ++ r) := by
  induction ls with
  | nil => intro h; exact absurd rfl h
  | cons l ls ih =>
    intro h
    rw [List.cons_append, armorData, armorData]
    rw [armorData] at h
    split
    · rfl
    · rename_i hl
      rw [if_neg hl] at h
      simp only at h
      rw [ih h]

theorem data_blank (ls : List Bytes) (h : (armorData ls).2 = []) : (armorData (ls ++ [[]])).2 = [] := by
  induction ls with
  | nil => rfl
  | cons l ls ih =>
    rw [armorData] at h
    rw [List.cons_append, armorData]
    split
    · rename_i hl
      rw [if_pos hl] at h
      cases h
    · rename_i hl
      rw [if_neg hl] at h
      exact ih h

theorem body_blank (ls : List Bytes) : armorBody (ls ++ [[]]) = armorBody ls := by
  have hend : ([] : Bytes) ≠ endPrivateKey := by decide +kernel
  unfold armorBody
  rcases hd : (armorData ls).2 with _ | ⟨sum, _ | ⟨tail, more⟩⟩
  · rw [data_blank ls hd]
  · rw [data_append ls [[]] (by rw [hd]; simp), hd]
    simp only [List.cons_append, List.nil_append]
    rw [if_neg hend]
  · rw [data_append ls [[]] (by rw [hd]; simp), hd]
    rfl

theorem dropWhile_append_ne {α : Type} (p : α → Bool) (l r : List α) (h : l.dropWhile p ≠ []) :
    (l ++ r).dropWhile p = l.dropWhile p ++ r := by
  induction l with
  | nil => exact absurd rfl h
  | cons a l ih =>
    rw [List.cons_append, List.dropWhile_cons, List.dropWhile_cons]
    split
    · rename_i ha
      rw [List.dropWhile_cons, if_pos ha] at h
      exact ih h
    · rfl

theorem dropWhile_append_nil {α : Type} (p : α → Bool) (l r : List α) (h : l.dropWhile p = []) :
    (l ++ r).dropWhile p = r.dropWhile p := by
  induction l with
  | nil => rfl
  | cons a l ih =>
    rw [List.dropWhile_cons] at h
    rw [List.cons_append, List.dropWhile_cons]
    split
    · rename_i ha
      rw [if_pos ha] at h
      exact ih h
    · rename_i ha
      rw [if_neg ha] at h
      cases h

/-- A line feed at the end makes no difference. -/
theorem dearmor_end (t : Bytes) : dearmor (t ++ [0x0A]) = dearmor t := by
  have hb : ([] : Bytes) ≠ beginPrivateKey := by decide +kernel
  unfold dearmor
  rw [lines_end]
  by_cases h1 : (armorLines t).dropWhile (fun l => decide (l ≠ beginPrivateKey)) = []
  · rw [h1, dropWhile_append_nil _ _ _ h1]
    simp [hb]
  · rw [dropWhile_append_ne _ _ _ h1]
    generalize (armorLines t).dropWhile (fun l => decide (l ≠ beginPrivateKey)) = ls
    by_cases h2 : ls.dropWhile (fun l => decide (l ≠ [])) = []
    · rw [h2, dropWhile_append_nil _ _ _ h2]
      simp [armorBody, armorData]
    · rw [dropWhile_append_ne _ _ _ h2]
      cases h : ls.dropWhile (fun l => decide (l ≠ [])) with
      | nil => exact absurd h h2
      | cons l ls => exact body_blank ls

/-- A line feed at the beginning makes no difference. -/
theorem dearmor_lf (t : Bytes) : dearmor (0x0A :: t) = dearmor t := by
  have hb : ([] : Bytes) ≠ beginPrivateKey := by decide +kernel
  unfold dearmor
  rw [lines_lf, List.dropWhile_cons, if_pos (by simpa using hb)]

theorem dearmor_framed (t : Bytes) (i j : Nat) :
    dearmor (List.replicate i 0x0A ++ t ++ List.replicate j 0x0A) = dearmor t := by
  have h1 : ∀ u, dearmor (List.replicate i 0x0A ++ u) = dearmor u := by
    intro u
    induction i with
    | zero => rfl
    | succ i ih => rw [List.replicate_succ, List.cons_append, dearmor_lf, ih]
  have h2 : ∀ u, dearmor (u ++ List.replicate j 0x0A) = dearmor u := by
    intro u
    induction j with
    | zero => rw [List.replicate_zero, List.append_nil]
    | succ j ih => rw [List.replicate_succ', ← List.append_assoc, dearmor_end, ih]
  rw [h2, h1]

theorem data_subset (ls : List Bytes) : (armorData ls).2 ⊆ ls := by
  induction ls with
  | nil => exact fun _ h => h
  | cons l ls ih =>
    rw [armorData]
    split
    · exact fun _ h => h
    · exact fun _ h => List.mem_cons_of_mem _ (ih h)

/-- A text that is read as a key has the tail line. -/
theorem dearmor_tail {t data : Bytes} (h : dearmor t = some data) : endPrivateKey ∈ armorLines t := by
  unfold dearmor at h
  split at h
  · cases h
  · rename_i l ls hls
    have hsub : ls ⊆ armorLines t := by
      intro x hx
      have h1 : x ∈ ((armorLines t).dropWhile (fun l => decide (l ≠ beginPrivateKey))).dropWhile
          (fun l => decide (l ≠ [])) := by rw [hls]; exact List.mem_cons_of_mem _ hx
      exact (List.dropWhile_suffix _).subset ((List.dropWhile_suffix _).subset h1)
    unfold armorBody at h
    split at h
    · rename_i sum tail more hd
      split at h
      · rename_i he
        refine hsub (data_subset ls ?_)
        rw [hd, ← he]
        simp
      · cases h
    · cases h

theorem dearmor_nil : dearmor [] = none := by decide +kernel

/-! ### an armor -/

/-- RFC 4880, 6.3, table 1 -/
def radix64Char (n : Nat) : Byte :=
  if n < 26 then UInt8.ofNat (n + 0x41)
  else if n < 52 then UInt8.ofNat (n - 26 + 0x61)
  else if n < 62 then UInt8.ofNat (n - 52 + 0x30)
  else if n = 62 then 0x2B else 0x2F

def radix64Write : Bytes → Bytes
  | [] => []
  | [a] => [radix64Char (a.toNat / 4), radix64Char (a.toNat % 4 * 16), 0x3D, 0x3D]
  | [a, b] => [radix64Char (a.toNat / 4), radix64Char (a.toNat % 4 * 16 + b.toNat / 16),
      radix64Char (b.toNat % 16 * 4), 0x3D]
  | a :: b :: c :: rest => radix64Char (a.toNat / 4) :: radix64Char (a.toNat % 4 * 16 + b.toNat / 16) ::
      radix64Char (b.toNat % 16 * 4 + c.toNat / 64) :: radix64Char (c.toNat % 64) :: radix64Write rest

/-- A line feed after every 64 characters, but none at the end. -/
def breakLines (l : Bytes) : Bytes :=
  if l.length ≤ 64 then l else l.take 64 ++ 0x0A :: breakLines (l.drop 64)
termination_by l.length
decreasing_by simp only [List.length_drop]; omega

def goArmor (data : Bytes) : Bytes :=
  beginPrivateKey ++ 0x0A :: 0x0A :: (breakLines (radix64Write data) ++
    0x0A :: (0x3D :: radix64Write (crc24Octets data) ++ 0x0A :: endPrivateKey))

theorem value_char (n : Nat) (h : n < 64) : radix64Value (radix64Char n) = some n := by
  have : ∀ n < 64, radix64Value (radix64Char n) = some n := by decide +kernel
  exact this n h

/-- Neither line feed nor `=` nor `-`. -/
theorem char_plain (n : Nat) (h : n < 64) :
    radix64Char n ≠ 0x0A ∧ radix64Char n ≠ 0x3D ∧ radix64Char n ≠ 0x2D := by
  have : ∀ n < 64, radix64Char n ≠ 0x0A ∧ radix64Char n ≠ 0x3D ∧ radix64Char n ≠ 0x2D := by decide +kernel
  exact this n h

theorem lt256 (a : Byte) : a.toNat < 256 := a.toNat_lt

theorem ofNat_eq {a : Byte} {n : Nat} (h : n = a.toNat) : UInt8.ofNat n = a := by
  subst h; exact UInt8.ofNat_toNat

theorem read_write : ∀ data : Bytes, radix64Read (radix64Write data) = some data
  | [] => rfl
  | [a] => by
    have ha := lt256 a
    rw [radix64Write, radix64Read, value_char _ (by omega), value_char _ (by omega)]
    simp only [Option.bind_eq_bind, Option.bind_some]
    rw [if_pos (by omega), ofNat_eq (a := a) (by omega)]
  | [a, b] => by
    have ha := lt256 a
    have hb := lt256 b
    rw [radix64Write, radix64Read, value_char _ (by omega), value_char _ (by omega), value_char _ (by omega)]
    · simp only [Option.bind_eq_bind, Option.bind_some]
      rw [if_pos (by omega), ofNat_eq (a := a) (by omega), ofNat_eq (a := b) (by omega)]
    · intro h
      exact absurd h (char_plain _ (by omega)).2.1
  | a :: b :: c :: rest => by
    have ha := lt256 a
    have hb := lt256 b
    have hc := lt256 c
    rw [radix64Write, radix64Read, value_char _ (by omega), value_char _ (by omega), value_char _ (by omega),
      value_char _ (by omega), read_write rest]
    · simp only [Option.bind_eq_bind, Option.bind_some]
      rw [ofNat_eq (a := a) (by omega), ofNat_eq (a := b) (by omega), ofNat_eq (a := c) (by omega)]
    · intro h
      exact absurd h (char_plain _ (by omega)).2.1
    · intro h
      exact absurd h (char_plain _ (by omega)).2.1

theorem write_plain : ∀ data : Bytes, ∀ c ∈ radix64Write data, c ≠ 0x0A ∧ c ≠ 0x2D
  | [], c, h => by cases h
  | [a], c, h => by
    have ha := lt256 a
    simp only [radix64Write, List.mem_cons, List.not_mem_nil, or_false] at h
    rcases h with rfl | rfl | rfl | rfl
    · exact ⟨(char_plain _ (by omega)).1, (char_plain _ (by omega)).2.2⟩
    · exact ⟨(char_plain _ (by omega)).1, (char_plain _ (by omega)).2.2⟩
    · decide
    · decide
  | [a, b], c, h => by
    have ha := lt256 a
    have hb := lt256 b
    simp only [radix64Write, List.mem_cons, List.not_mem_nil, or_false] at h
    rcases h with rfl | rfl | rfl | rfl
    · exact ⟨(char_plain _ (by omega)).1, (char_plain _ (by omega)).2.2⟩
    · exact ⟨(char_plain _ (by omega)).1, (char_plain _ (by omega)).2.2⟩
    · exact ⟨(char_plain _ (by omega)).1, (char_plain _ (by omega)).2.2⟩
    · decide
  | a :: b :: c :: rest, x, h => by
    have ha := lt256 a
    have hb := lt256 b
    have hc := lt256 c
    simp only [radix64Write, List.mem_cons] at h
    rcases h with rfl | rfl | rfl | rfl | h
    · exact ⟨(char_plain _ (by omega)).1, (char_plain _ (by omega)).2.2⟩
    · exact ⟨(char_plain _ (by omega)).1, (char_plain _ (by omega)).2.2⟩
    · exact ⟨(char_plain _ (by omega)).1, (char_plain _ (by omega)).2.2⟩
    · exact ⟨(char_plain _ (by omega)).1, (char_plain _ (by omega)).2.2⟩
    · exact write_plain rest x h

theorem write_head : ∀ (k : Nat) (data : Bytes), ((radix64Write data).drop (4 * k)).head? ≠ some 0x3D
  | 0, [] => by simp [radix64Write]
  | 0, [a] => by
    have ha := lt256 a
    simpa [radix64Write] using (char_plain _ (show a.toNat / 4 < 64 by omega)).2.1
  | 0, [a, b] => by
    have ha := lt256 a
    simpa [radix64Write] using (char_plain _ (show a.toNat / 4 < 64 by omega)).2.1
  | 0, a :: b :: c :: rest => by
    have ha := lt256 a
    simpa [radix64Write] using (char_plain _ (show a.toNat / 4 < 64 by omega)).2.1
  | k + 1, [] => by simp [radix64Write]
  | k + 1, [a] => by
    rw [List.drop_eq_nil_of_le (by simp [radix64Write]; omega)]
    simp
  | k + 1, [a, b] => by
    rw [List.drop_eq_nil_of_le (by simp [radix64Write]; omega)]
    simp
  | k + 1, a :: b :: c :: rest => by
    have h := write_head k rest
    rwa [radix64Write, show 4 * (k + 1) = 4 * k + 4 by omega, List.drop_succ_cons, List.drop_succ_cons,
      List.drop_succ_cons, List.drop_succ_cons]

/-- The lines of the data part. -/
theorem break_lines : ∀ (n : Nat) (w : Bytes), w.length ≤ n → (∀ c ∈ w, c ≠ 0x0A ∧ c ≠ 0x2D) →
    (∀ k, (w.drop (64 * k)).head? ≠ some 0x3D) → ∃ ls : List Bytes, ls.flatten = w ∧
      (∀ l ∈ ls, l.head? ≠ some 0x3D ∧ ∀ c ∈ l, c ≠ 0x2D) ∧
      ∀ t, armorLines (breakLines w ++ 0x0A :: t) = ls ++ armorLines t
  | n, w, hn, hw, hh => by
    rw [breakLines]
    split
    · refine ⟨[w], by simp, ?_, fun t => lines_split w t fun h => (hw _ h).1 rfl⟩
      intro l hl
      rw [List.mem_singleton] at hl
      subst hl
      exact ⟨hh 0, fun c hc => (hw c hc).2⟩
    · rename_i hlen
      cases n with
      | zero => omega
      | succ n =>
        obtain ⟨ls, hf, hl, ht⟩ := break_lines n (w.drop 64) (by rw [List.length_drop]; omega)
          (fun c hc => hw c (List.mem_of_mem_drop hc))
          (fun k => by rw [List.drop_drop]; exact (by simpa [Nat.mul_add, Nat.add_comm] using hh (k + 1)))
        refine ⟨w.take 64 :: ls, by rw [List.flatten_cons, hf, List.take_append_drop], ?_, fun t => ?_⟩
        · intro l hl'
          rcases List.mem_cons.mp hl' with rfl | h
          · refine ⟨?_, fun c hc => (hw c (List.mem_of_mem_take hc)).2⟩
            have := hh 0
            cases w with
            | nil => simp at hlen
            | cons a w => simpa using this
          · exact hl l h
        · rw [List.append_assoc, List.cons_append, lines_split _ _
            (fun h => (hw _ (List.mem_of_mem_take h)).1 rfl), ht]
          rfl

theorem goArmor_lines (data : Bytes) : ∃ ls : List Bytes, ls.flatten = radix64Write data ∧
    (∀ l ∈ ls, l.head? ≠ some 0x3D ∧ ∀ c ∈ l, c ≠ 0x2D) ∧
    armorLines (goArmor data) = beginPrivateKey :: [] :: (ls ++
      [0x3D :: radix64Write (crc24Octets data), endPrivateKey]) := by
  have hsum : (0x0A : Byte) ∉ 0x3D :: radix64Write (crc24Octets data) := by
    intro h
    rcases List.mem_cons.mp h with h | h
    · exact absurd h (by decide)
    · exact (write_plain _ _ h).1 rfl
  obtain ⟨ls, hf, hl, ht⟩ := break_lines _ (radix64Write data) (Nat.le_refl _) (write_plain data)
    (fun k => by rw [show 64 * k = 4 * (16 * k) by omega]; exact write_head _ data)
  refine ⟨ls, hf, hl, ?_⟩
  rw [goArmor, lines_split _ _ (by decide +kernel), lines_lf, ht, lines_split _ _ hsum,
    lines_plain endPrivateKey (by decide +kernel)]

theorem data_lines (sum : Bytes) (hs : sum.head? = some 0x3D) (tail : List Bytes) : ∀ ls : List Bytes,
    (∀ l ∈ ls, l.head? ≠ some 0x3D) → armorData (ls ++ sum :: tail) = (ls.flatten, sum :: tail)
  | [], _ => by rw [List.nil_append, armorData, if_pos hs]; rfl
  | l :: ls, h => by
    rw [List.cons_append, armorData, if_neg (h l (List.mem_cons_self ..)),
      data_lines sum hs tail ls fun l hl => h l (List.mem_cons_of_mem _ hl)]
    rfl

theorem goArmor_reads (data : Bytes) : dearmor (goArmor data) = some data := by
  obtain ⟨ls, hf, hl, ht⟩ := goArmor_lines data
  have hb : beginPrivateKey ≠ [] := by decide +kernel
  unfold dearmor
  rw [ht, List.dropWhile_cons, if_neg (by simp), List.dropWhile_cons, if_pos (by simpa using hb),
    List.dropWhile_cons, if_neg (by simp)]
  simp only [armorBody]
  rw [data_lines (0x3D :: radix64Write (crc24Octets data)) rfl [endPrivateKey] ls fun l h => (hl l h).1, hf]
  simp [read_write]

theorem goArmor_cut (data text : Bytes) (hp : text <+: goArmor data) (hne : text ≠ goArmor data) :
    dearmor text = none := by
  cases hd : dearmor text with
  | none => rfl
  | some x =>
    exfalso
    have hend := dearmor_tail hd
    obtain ⟨s, hs⟩ := hp
    obtain ⟨ls, -, hl, ht⟩ := goArmor_lines data
    -- no other line begins like the tail line
    have hother : ∀ l ∈ beginPrivateKey :: [] :: (ls ++ [0x3D :: radix64Write (crc24Octets data)]),
        ¬ endPrivateKey <+: l := by
      intro l hm hpre
      have he : endPrivateKey = 0x2D :: endPrivateKey.tail := by decide +kernel
      simp only [List.mem_cons, List.mem_append, List.not_mem_nil, or_false] at hm
      rcases hm with rfl | rfl | h | rfl
      · exact absurd hpre (by decide +kernel)
      · exact absurd hpre (by decide +kernel)
      · have : (0x2D : Byte) ∈ l := hpre.subset (by rw [he]; exact List.mem_cons_self ..)
        exact (hl l h).2 _ this rfl
      · rw [he] at hpre
        obtain ⟨r, hr⟩ := hpre
        rw [List.cons_append, List.cons.injEq] at hr
        exact absurd hr.1 (by decide)
    obtain ⟨init, last, first, rest, h1, h2, h3⟩ := lines_append text s
    rw [hs, ht] at h3
    have h4 : (beginPrivateKey :: [] :: (ls ++ [0x3D :: radix64Write (crc24Octets data)])) ++ [endPrivateKey] =
        init ++ (last ++ first) :: rest := by rw [← h3]; simp
    rw [h1, List.mem_append, List.mem_singleton] at hend
    rcases List.eq_nil_or_concat rest with hr | ⟨mid, z, hr⟩
    · subst hr
      obtain ⟨h5, h6⟩ := List.append_inj' h4 rfl
      rcases hend with h | h
      · exact hother _ (h5 ▸ h) (List.prefix_refl _)
      · rw [List.cons.injEq] at h6
        have h7 : first = [] := by
          have := h6.1
          rw [← h] at this
          exact List.self_eq_append_right.mp this
        rw [h7] at h2
        have := lines_nil_iff h2
        rw [this, List.append_nil] at hs
        exact hne hs
    · subst hr
      rw [show init ++ (last ++ first) :: (mid.concat z) = (init ++ (last ++ first) :: mid) ++ [z] by simp] at h4
      obtain ⟨h5, -⟩ := List.append_inj' h4 rfl
      rcases hend with h | h
      · refine hother _ ?_ (List.prefix_refl _)
        rw [h5]
        exact List.mem_append_left _ h
      · refine hother (last ++ first) ?_ ?_
        · rw [h5]
          simp
        · rw [h]
          exact List.prefix_append ..

theorem goArmor_lawful : ArmorLawful goArmor := ⟨goArmor_reads, goArmor_cut⟩

end Verif.Armor
