import Verif.Props.Checksum
import Mathlib.Tactic.IntervalCases

/-!
# Lost words and exchanged words (C82)

The checksum of a phrase in which one word is lost or two words are exchanged. `shaped` (C07) says that the
number of words is that of the version in the first word.
-/

namespace Verif.Props

open Verif.Model Verif.Spec Verif.Instances

/-! ## Counting solutions -/

/-- `countLin l s` for all `s < 32` at once -/
def countVec : List Nat → List Nat
  | [] => (List.range 32).map fun s => if s = 0 then 1 else 0
  | a :: as =>
    let v := countVec as
    (List.range 32).map fun s => v.getD s 0 + v.getD (s ^^^ a) 0

theorem getD_range_map (f : Nat → Nat) {n s : Nat} (h : s < n) : ((List.range n).map f).getD s 0 = f s := by
  simp [h]

theorem getD_replicate {n c s : Nat} (h : s < n) : (List.replicate n c).getD s 0 = c := by
  rw [List.getD_eq_getElem?_getD, List.getElem?_replicate_of_lt h]
  rfl

theorem countVec_eq : ∀ (l : List Nat), (∀ a ∈ l, a < 32) → ∀ s < 32, countLin l s = (countVec l).getD s 0
  | [], _, s, hs => by rw [countVec, getD_range_map _ hs, countLin]
  | a :: as, h, s, hs => by
    have ha : a < 2 ^ 5 := h a List.mem_cons_self
    have has : ∀ x ∈ as, x < 32 := fun x hx => h x (List.mem_cons_of_mem _ hx)
    rw [countVec, getD_range_map _ hs, countLin, countVec_eq as has s hs,
      countVec_eq as has (s ^^^ a) (Nat.xor_lt_two_pow (n := 5) hs ha)]

theorem synd_lt (nb w : Nat) : synd nb w < 32 := by
  unfold synd
  rw [checksum5_eq]
  exact Nat.xor_lt_two_pow (n := 5) (Nat.mod_lt _ (by decide)) (Nat.mod_lt _ (by decide))

theorem table_vec :
    (∀ l ∈ syndromeTable, ∀ a ∈ l, a < 32) ∧
    (∀ l ∈ syndromeTable.take 15, countVec l = List.replicate 32 128) ∧
    (countVec ((syndromeTable.getD 13 []).drop 4) = List.replicate 32 8) ∧
    (countVec ((syndromeTable.getD 15 []).drop 4) = List.replicate 32 8) := by decide +kernel

theorem syndromes_of (nb p : Nat) (h : nb = 21 ∧ p < 14 ∨ nb = 24 ∧ p < 16) :
    wordSyndromes nb p 12 = syndromeTable.getD p [] := by
  have hlen : syndromeTable.length = 16 := by decide
  rcases h with ⟨rfl, hp⟩ | ⟨rfl, hp⟩
  · have h1 := congrArg (·[p]?) wordSyndromes_table.1
    simp only [List.getElem?_map, List.getElem?_range hp, Option.map_some,
      List.getElem?_take_of_lt hp] at h1
    rw [List.getD_eq_getElem?_getD, ← h1]
    rfl
  · have h1 := congrArg (·[p]?) wordSyndromes_table.2
    simp only [List.getElem?_map, List.getElem?_range hp, Option.map_some] at h1
    rw [List.getD_eq_getElem?_getD, ← h1]
    rfl

theorem getD_mem {l : List (List Nat)} {p : Nat} (h : p < l.length) : l.getD p [] ∈ l := by
  rw [List.getD_eq_getElem _ _ h]
  exact List.getElem_mem h

/-- Bytes under a phrase whose words are at distance `p` from the end -/
theorem count_later (nb p s : Nat) (h : nb = 21 ∧ p < 13 ∨ nb = 24 ∧ p < 15) (hs : s < 32) :
    ((List.range (2 ^ 12)).filter (fun x => decide (lin nb (x * 2 ^ (12 * p)) = s))).length = 128 := by
  have hc := count_linear (fun x => lin nb (x * 2 ^ (12 * p))) (fun x y => by rw [mul_xor, lin_xor]) 12 s
  change _ = countLin (wordSyndromes nb p 12) s at hc
  rw [hc, syndromes_of nb p (by omega)]
  have hmem : syndromeTable.getD p [] ∈ syndromeTable.take 15 := by
    have : syndromeTable.getD p [] = (syndromeTable.take 15).getD p [] := by
      rw [List.getD_eq_getElem?_getD, List.getD_eq_getElem?_getD,
        List.getElem?_take_of_lt (by omega)]
    rw [this]
    exact getD_mem (by have : (syndromeTable.take 15).length = 15 := by decide
                       omega)
  rw [countVec_eq _ (table_vec.1 _ (List.mem_of_mem_take hmem)) s hs, table_vec.2.1 _ hmem]
  exact getD_replicate hs

theorem count_first (nb p s : Nat) (h : nb = 21 ∧ p = 13 ∨ nb = 24 ∧ p = 15) (hs : s < 32) :
    ((List.range (2 ^ 8)).filter (fun x => decide (lin nb (x * 2 ^ (12 * p)) = s))).length = 8 := by
  have hc := count_linear (fun x => lin nb (x * 2 ^ (12 * p))) (fun x y => by rw [mul_xor, lin_xor]) 8 s
  change _ = countLin (wordSyndromes nb p 8) s at hc
  have hmem : syndromeTable.getD p [] ∈ syndromeTable := getD_mem (by
    have : syndromeTable.length = 16 := by decide
    omega)
  rw [hc, wordSyndromes_8, syndromes_of nb p (by omega),
    countVec_eq _ (fun a ha => table_vec.1 _ hmem a (List.mem_of_mem_drop ha)) s hs]
  rcases h with ⟨-, rfl⟩ | ⟨-, rfl⟩
  · rw [table_vec.2.2.1]; exact getD_replicate hs
  · rw [table_vec.2.2.2]; exact getD_replicate hs

/-! ## Phrases given by their indices -/

theorem decodeWords_map {L : WordList} (hL : L.Lawful) {is : List Nat} (h : ∀ x ∈ is, x < 4096) :
    decodeWords L (is.map L.word) = .ok is := by
  rw [decodeWords_ok_iff, List.map_map]
  apply List.map_congr_left
  intro x hx
  exact hL.lookup_word (h x hx)

theorem payload_cases {n i0 : Nat} (h : shaped n i0) :
    payloadBytes n = 21 ∧ n = 14 ∨ payloadBytes n = 24 ∧ n = 16 := by
  rcases h with ⟨-, rfl⟩ | ⟨-, rfl⟩
  · exact .inl ⟨rfl, rfl⟩
  · exact .inr ⟨rfl, rfl⟩

theorem decode_indices {L : WordList} (hL : L.Lawful) {is : List Nat} (h : ∀ x ∈ is, x < 4096) {i0 : Nat}
    (hh : is.head? = some i0) (hs : shaped is.length i0) :
    ((decodeMnemonic L (is.map L.word)).isOk = true ∧
      synd (payloadBytes is.length) (ofDigitsBE 4096 is) = 0) ∨
    (decodeMnemonic L (is.map L.word) = .err .invalidChecksum ∧
      synd (payloadBytes is.length) (ofDigitsBE 4096 is) ≠ 0) := by
  have := decode_shaped hL (decodeWords_map hL h) hh (by rw [List.length_map]; exact hs)
  rwa [List.length_map] at this

/-! ## C82 A lost word -/

/-- Whatever the other words are: if a word other than the first is lost, exactly 128 of the 4096 words
complete the phrase. -/
theorem c82_lost_word {L : WordList} (hL : L.Lawful) (is : List Nat) (hlt : ∀ x ∈ is, x < 4096) (i0 : Nat)
    (hh : is.head? = some i0) (hs : shaped is.length i0) (i : Nat) (hi : 1 ≤ i) (hi2 : i < is.length) :
    ((List.range 4096).filter
      (fun j => (decodeMnemonic L ((is.set i j).map L.word)).isOk)).length = 128 := by
  have hget : is[i]? = some is[i] := List.getElem?_eq_getElem hi2
  have hdl : is[i] < 4096 := hlt _ (List.getElem_mem hi2)
  have hdec : ∀ j ∈ List.range 4096, (decodeMnemonic L ((is.set i j).map L.word)).isOk =
      decide (lin (payloadBytes is.length) ((is[i] ^^^ j) * 2 ^ (12 * (is.length - 1 - i))) =
        synd (payloadBytes is.length) (ofDigitsBE 4096 is)) := by
    intro j hj
    rw [List.mem_range] at hj
    have hh' : (is.set i j).head? = some i0 := by
      cases is with
      | nil => simp at hh
      | cons x xs =>
        cases i with
        | zero => omega
        | succ i => simpa using hh
    have hlt' : ∀ x ∈ is.set i j, x < 4096 := by
      intro x hx
      rcases List.mem_or_eq_of_mem_set hx with h | h
      · exact hlt x h
      · omega
    have := decode_indices hL hlt' hh' (by rw [List.length_set]; exact hs)
    rw [List.length_set, ofDigits_set hlt hget hj, synd_xor] at this
    have hz : ∀ a b : Nat, a ^^^ b = 0 ↔ b = a := fun a b => by rw [xor_eq_zero, eq_comm]
    rcases this with ⟨h1, h2⟩ | ⟨h1, h2⟩
    · rw [h1, eq_comm, decide_eq_true_eq]
      exact (hz _ _).1 h2
    · rw [h1, eq_comm]
      exact decide_eq_false fun h => h2 ((hz _ _).2 h)
  rw [List.filter_congr hdec]
  have hx := filter_xor_range 12 is[i] (by simpa using hdl) (fun x => decide (lin
    (payloadBytes is.length) (x * 2 ^ (12 * (is.length - 1 - i))) =
      synd (payloadBytes is.length) (ofDigitsBE 4096 is)))
  rw [show (2 : Nat) ^ 12 = 4096 by norm_num] at hx
  rw [hx]
  refine count_later _ _ _ ?_ (synd_lt _ _)
  rcases payload_cases hs with ⟨h1, h2⟩ | ⟨h1, h2⟩
  · exact .inl ⟨h1, by omega⟩
  · exact .inr ⟨h1, by omega⟩

/-- If the first word of 14 or 16 is lost, exactly 8 words complete the phrase. -/
theorem c82_lost_first {L : WordList} (hL : L.Lawful) (rest : List Nat) (hlt : ∀ x ∈ rest, x < 4096)
    (hlen : rest.length = 13 ∨ rest.length = 15) :
    ((List.range 4096).filter
      (fun j => (decodeMnemonic L ((j :: rest).map L.word)).isOk)).length = 8 := by
  obtain ⟨v, hv, hn⟩ : ∃ v, v < 2 ∧ rest.length = 13 + 2 * v := by
    rcases hlen with h | h
    · exact ⟨0, by omega, by omega⟩
    · exact ⟨1, by omega, by omega⟩
  have hall : ∀ j < 4096, ∀ x ∈ j :: rest, x < 4096 := by
    intro j hj x hx
    rcases List.mem_cons.1 hx with rfl | h
    · exact hj
    · exact hlt x h
  have hshape : ∀ j, shaped (j :: rest).length j ↔ j / 256 = v := by
    intro j
    unfold shaped
    simp only [List.length_cons]
    omega
  have hnb : ∀ n, payloadBytes n = 21 ∧ n = 14 ∨ payloadBytes n = 24 ∧ n = 16 →
      n = rest.length + 1 → payloadBytes n = 21 ∧ rest.length = 13 ∨ payloadBytes n = 24 ∧ rest.length = 15 := by
    intro n h1 h2; omega
  have hnb := hnb _ (payload_cases ((hshape (v * 256)).2 (by omega))) (by simp)
  generalize hN : payloadBytes (v * 256 :: rest).length = nb at hnb
  generalize hS : synd nb (ofDigitsBE 4096 (v * 256 :: rest)) = s
  have hdec : ∀ j ∈ List.range (4096 : Nat), (decodeMnemonic L ((j :: rest).map L.word)).isOk =
      decide ((v * 256 ^^^ j) / 256 = 0 ∧ lin nb ((v * 256 ^^^ j) * 2 ^ (12 * rest.length)) = s) := by
    intro j hj
    rw [List.mem_range] at hj
    have hdiv : (v * 256 ^^^ j) / 256 = v * 256 / 256 ^^^ j / 256 := Nat.xor_div_two_pow (n := 8)
    rw [Nat.mul_div_cancel _ (by decide)] at hdiv
    by_cases hj2 : j / 256 = v
    · have hset := ofDigits_set (hall (v * 256) (by omega)) (i := 0) (d := v * 256) rfl hj
      rw [List.set_cons_zero] at hset
      have := decode_indices hL (hall j hj) rfl ((hshape j).2 hj2)
      rw [hset, show (j :: rest).length = (v * 256 :: rest).length from rfl, hN, synd_xor, hS,
        List.length_cons, Nat.add_sub_cancel, Nat.sub_zero] at this
      rw [hdiv, hj2, Nat.xor_self]
      rcases this with ⟨h1, h2⟩ | ⟨h1, h2⟩
      · rw [h1, eq_comm, decide_eq_true_eq]
        exact ⟨rfl, ((xor_eq_zero _ _).1 h2).symm⟩
      · rw [h1, eq_comm]
        exact decide_eq_false fun h => h2 ((xor_eq_zero _ _).2 h.2.symm)
    · rw [decode_wrong_shape hL (decodeWords_map hL (hall j hj)) rfl
        (by rw [List.length_map, hshape]; exact hj2), hdiv, eq_comm]
      exact decide_eq_false fun h => hj2 ((xor_eq_zero _ _).1 h.1).symm
  rw [List.filter_congr hdec]
  have h2 := filter_xor_range 12 (v * 256) (by omega)
    (fun y => decide (y / 256 = 0 ∧ lin nb (y * 2 ^ (12 * rest.length)) = s))
  rw [show (2 : Nat) ^ 12 = 4096 by norm_num] at h2
  rw [h2]
  have h3 : (List.range 4096).filter (fun y => decide (y / 256 = 0 ∧
      lin nb (y * 2 ^ (12 * rest.length)) = s)) =
      (List.range (2 ^ 8)).filter (fun y => decide (lin nb (y * 2 ^ (12 * rest.length)) = s)) := by
    rw [show (4096 : Nat) = 2 ^ 8 + 3840 by norm_num, List.range_add, List.filter_append]
    have h4 : ((List.range 3840).map (2 ^ 8 + ·)).filter (fun y => decide (y / 256 = 0 ∧
        lin nb (y * 2 ^ (12 * rest.length)) = s)) = [] := by
      rw [List.filter_eq_nil_iff]
      intro y hy
      rw [List.mem_map] at hy
      obtain ⟨z, -, rfl⟩ := hy
      simp
    rw [h4, List.append_nil]
    apply List.filter_congr
    intro y hy
    rw [List.mem_range] at hy
    have : y / 256 = 0 := by omega
    simp [this]
  rw [h3]
  exact count_first nb _ s hnb (by rw [← hS]; exact synd_lt _ _)

/-! ## C82 Two words exchanged -/

/-- The distances `(p, q)` from the end for which only 4 of the 5 checksum bits tell an exchange of the words
at `p` (the first word) and `q` -/
def weakPairs : List (Nat × Nat) := [(13, 1), (13, 8), (15, 5), (15, 6), (15, 10)]

def pairSyndromes (p q : Nat) : List Nat :=
  List.zipWith (· ^^^ ·) (syndromeTable.getD p []) (syndromeTable.getD q [])

theorem pair_row : ∀ p < 16, ∀ q ∈ List.range p, (∀ a ∈ pairSyndromes p q, a < 32) ∧
    (p < 15 → (countVec (pairSyndromes p q)).getD 0 0 = if p = 13 ∧ q = 1 then 256 else 128) ∧
    (p = 13 ∨ p = 15 → (countVec ((pairSyndromes p q).drop 4)).getD 0 0 =
      if (p, q) ∈ weakPairs then 16 else 8) := by
  intro p hp
  interval_cases p <;> decide +kernel

theorem pair_table :
    (∀ p ∈ List.range 16, ∀ q ∈ List.range p, (∀ a ∈ pairSyndromes p q, a < 32) ∧
      (p < 15 → (countVec (pairSyndromes p q)).getD 0 0 = if p = 13 ∧ q = 1 then 256 else 128)) ∧
    ∀ p ∈ [13, 15], ∀ q ∈ List.range p, (countVec ((pairSyndromes p q).drop 4)).getD 0 0 =
      if (p, q) ∈ weakPairs then 16 else 8 := by
  refine ⟨fun p hp q hq => ?_, fun p hp q hq => ?_⟩
  · have h := pair_row p (List.mem_range.1 hp) q hq
    exact ⟨h.1, h.2.1⟩
  · have h : p = 13 ∨ p = 15 := by simpa using hp
    exact (pair_row p (by omega) q hq).2.2 h

/-- What the checksum sees of the exchange of two words at distances `p` and `q` that differ by `x` -/
def seen (nb p q x : Nat) : Nat := lin nb (x * 2 ^ (12 * p)) ^^^ lin nb (x * 2 ^ (12 * q))

theorem seen_xor (nb p q x y : Nat) : seen nb p q (x ^^^ y) = seen nb p q x ^^^ seen nb p q y := by
  unfold seen
  rw [mul_xor, lin_xor, mul_xor, lin_xor]
  ac_rfl

theorem seen_basis (nb p q : Nat) (k : Nat) : (List.range k).reverse.map (fun i => seen nb p q (2 ^ i)) =
    List.zipWith (· ^^^ ·) (wordSyndromes nb p k) (wordSyndromes nb q k) := by
  unfold wordSyndromes seen
  rw [List.zipWith_map, List.zipWith_self]

theorem seen_count (nb p q : Nat) (h : nb = 21 ∧ p < 14 ∨ nb = 24 ∧ p < 16) (hq : q < p) (k : Nat)
    (hk : k ≤ 12) :
    ((List.range (2 ^ k)).filter (fun x => decide (seen nb p q x = 0))).length =
      (countVec ((pairSyndromes p q).drop (12 - k))).getD 0 0 := by
  rw [count_linear _ (seen_xor nb p q) k 0, seen_basis]
  have hw : ∀ p, wordSyndromes nb p k = (wordSyndromes nb p 12).drop (12 - k) := by
    intro p
    unfold wordSyndromes
    rw [← List.map_drop]
    interval_cases k <;> rfl
  rw [hw p, hw q, syndromes_of nb p h, syndromes_of nb q (by omega), ← List.drop_zipWith]
  have hlt := (pair_table.1 p (by simp; omega) q (by simpa using hq)).1
  exact countVec_eq _ (fun a ha => hlt a (List.mem_of_mem_drop ha)) 0 (by decide)

theorem head?_set {α : Type} {l : List α} {i : Nat} (h : 1 ≤ i) (x : α) : (l.set i x).head? = l.head? := by
  cases l with
  | nil => rfl
  | cons a as =>
    cases i with
    | zero => omega
    | succ i => rfl

theorem exchange_digits {is : List Nat} (hlt : ∀ x ∈ is, x < 4096) {i j : Nat} (hij : i < j)
    (hj : j < is.length) (nb : Nat) :
    synd nb (ofDigitsBE 4096 ((is.set i is[j]).set j is[i])) = synd nb (ofDigitsBE 4096 is) ^^^
      seen nb (is.length - 1 - i) (is.length - 1 - j) (is[i] ^^^ is[j]) := by
  have hlt' : ∀ x ∈ is.set i is[j], x < 4096 := by
    intro x hx
    rcases List.mem_or_eq_of_mem_set hx with h | h
    · exact hlt x h
    · rw [h]; exact hlt _ (List.getElem_mem _)
  have h1 := ofDigits_set hlt (List.getElem?_eq_getElem (show i < is.length by omega))
    (hlt _ (List.getElem_mem hj))
  have hg : (is.set i is[j])[j]? = some is[j] := by
    rw [List.getElem?_set_ne (by omega), List.getElem?_eq_getElem hj]
  have h2 := ofDigits_set hlt' hg (hlt _ (List.getElem_mem (show i < is.length by omega)))
  rw [h2, h1, List.length_set, synd_xor, synd_xor, seen, Nat.xor_comm is[j] is[i], Nat.xor_assoc]

/-- For any two places after the first there are 128 of the 4096 possible differences of two words (bit by
bit), or 256 for the third and the last but one of 16 words, such that exchanging the words at those places goes unnoticed exactly if their difference is one of
them (one is zero: equal words). Otherwise the checksum fails. -/
theorem c82_exchanged (n i j : Nat) (hn : n = 14 ∨ n = 16) (hi : 1 ≤ i) (hij : i < j) (hj : j < n) :
    ∃ K : List Nat, K.Nodup ∧ K.length = (if n = 16 ∧ i = 2 ∧ j = 14 then 256 else 128) ∧ (∀ x ∈ K, x < 4096) ∧ 0 ∈ K ∧
      ∀ (L : WordList), L.Lawful → ∀ is : List Nat, (hl : is.length = n) → (∀ x ∈ is, x < 4096) →
        (decodeMnemonic L (is.map L.word)).isOk = true →
        (is[i] ^^^ is[j] ∈ K →
          (decodeMnemonic L (((is.set i is[j]).set j is[i]).map L.word)).isOk = true) ∧
        (is[i] ^^^ is[j] ∉ K →
          decodeMnemonic L (((is.set i is[j]).set j is[i]).map L.word) = .err .invalidChecksum) := by
  have hnb : payloadBytes n = 21 ∧ n = 14 ∨ payloadBytes n = 24 ∧ n = 16 := by
    rcases hn with rfl | rfl
    · exact .inl ⟨rfl, rfl⟩
    · exact .inr ⟨rfl, rfl⟩
  refine ⟨(List.range (2 ^ 12)).filter
    (fun x => decide (seen (payloadBytes n) (n - 1 - i) (n - 1 - j) x = 0)),
    List.nodup_range.filter _, ?_, ?_, ?_, ?_⟩
  · rw [seen_count _ _ _ (by omega) (by omega) 12 le_rfl, Nat.sub_self, List.drop_zero]
    rw [(pair_table.1 (n - 1 - i) (by simp; omega) (n - 1 - j) (by simp; omega)).2 (by omega)]
    refine if_congr ?_ rfl rfl
    omega
  · intro x hx
    simpa using (List.mem_filter.1 hx).1
  · have := seen_xor (payloadBytes n) (n - 1 - i) (n - 1 - j) 0 0
    rw [Nat.xor_self, Nat.xor_self] at this
    simp [this]
  · intro L hL is hl hlt hok
    subst hl
    have hd := decodeWords_map hL hlt
    obtain ⟨dm, hdm⟩ : ∃ dm, decodeMnemonic L (is.map L.word) = .ok dm := by
      cases h : decodeMnemonic L (is.map L.word) with
      | ok dm => exact ⟨dm, rfl⟩
      | err e => rw [h] at hok; cases hok
      | panic p => rw [h] at hok; cases hok
    obtain ⟨is', i0, hd', hh, hs, hz⟩ := accepted_shape hL hdm
    rw [hd] at hd'
    cases hd'
    rw [List.length_map] at hs hz
    have hlt' : ∀ x ∈ (is.set i is[j]).set j is[i], x < 4096 := by
      intro x hx
      rcases List.mem_or_eq_of_mem_set hx with h | h
      · rcases List.mem_or_eq_of_mem_set h with h | h
        · exact hlt x h
        · rw [h]; exact hlt _ (List.getElem_mem _)
      · rw [h]; exact hlt _ (List.getElem_mem _)
    have := decode_indices hL hlt' (i0 := i0) (by rw [head?_set (by omega), head?_set hi, hh])
      (by simpa using hs)
    simp only [List.length_set] at this
    rw [exchange_digits hlt hij hj, hz, Nat.zero_xor] at this
    have hx : is[i] ^^^ is[j] < 2 ^ 12 := Nat.xor_lt_two_pow (hlt _ (List.getElem_mem _))
      (hlt _ (List.getElem_mem _))
    simp only [List.mem_filter, List.mem_range, decide_eq_true_eq, hx, true_and]
    constructor
    · intro h
      exact (this.resolve_right fun h' => h'.2 h).1
    · intro h
      exact (this.resolve_left fun h' => h h'.2).1

/-- For the first place and another one there are 8 such differences, 16 for five pairs of places, all below
256 (words of the same version). -/
theorem c82_exchanged_first (n j : Nat) (hn : n = 14 ∨ n = 16) (hj0 : 0 < j) (hj : j < n) :
    ∃ K : List Nat, K.Nodup ∧
      K.length = (if (n, j) ∈ [(14, 12), (14, 5), (16, 10), (16, 9), (16, 5)] then 16 else 8) ∧
      (∀ x ∈ K, x < 256) ∧ 0 ∈ K ∧
      ∀ (L : WordList), L.Lawful → ∀ is : List Nat, (hl : is.length = n) → (∀ x ∈ is, x < 4096) →
        (decodeMnemonic L (is.map L.word)).isOk = true →
        ((decodeMnemonic L (((is.set 0 is[j]).set j is[0]).map L.word)).isOk = true ↔
          is[0] ^^^ is[j] ∈ K) := by
  have hnb : payloadBytes n = 21 ∧ n = 14 ∨ payloadBytes n = 24 ∧ n = 16 := by
    rcases hn with rfl | rfl
    · exact .inl ⟨rfl, rfl⟩
    · exact .inr ⟨rfl, rfl⟩
  refine ⟨(List.range (2 ^ 8)).filter
    (fun x => decide (seen (payloadBytes n) (n - 1) (n - 1 - j) x = 0)),
    List.nodup_range.filter _, ?_, ?_, ?_, ?_⟩
  · rw [seen_count _ _ _ (by omega) (by omega) 8 (by omega)]
    have := pair_table.2 (n - 1) (by simp; omega) (n - 1 - j) (by simp; omega)
    rw [this]
    rcases hn with rfl | rfl
    · interval_cases j <;> rfl
    · interval_cases j <;> rfl
  · intro x hx
    simpa using (List.mem_filter.1 hx).1
  · have := seen_xor (payloadBytes n) (n - 1) (n - 1 - j) 0 0
    rw [Nat.xor_self, Nat.xor_self] at this
    simp [this]
  · intro L hL is hl hlt hok
    subst hl
    have hd := decodeWords_map hL hlt
    obtain ⟨dm, hdm⟩ : ∃ dm, decodeMnemonic L (is.map L.word) = .ok dm := by
      cases h : decodeMnemonic L (is.map L.word) with
      | ok dm => exact ⟨dm, rfl⟩
      | err e => rw [h] at hok; cases hok
      | panic p => rw [h] at hok; cases hok
    obtain ⟨is', i0, hd', hh, hs, hz⟩ := accepted_shape hL hdm
    rw [hd] at hd'
    cases hd'
    rw [List.length_map] at hs hz
    have h0 : is[0] = i0 := by
      rw [List.head?_eq_getElem?, List.getElem?_eq_getElem (by omega)] at hh
      exact Option.some.inj hh
    have hlt' : ∀ x ∈ (is.set 0 is[j]).set j is[0], x < 4096 := by
      intro x hx
      rcases List.mem_or_eq_of_mem_set hx with h | h
      · rcases List.mem_or_eq_of_mem_set h with h | h
        · exact hlt x h
        · rw [h]; exact hlt _ (List.getElem_mem _)
      · rw [h]; exact hlt _ (List.getElem_mem _)
    have hh' : ((is.set 0 is[j]).set j is[0]).head? = some is[j] := by
      rw [head?_set hj0, List.head?_eq_getElem?, List.getElem?_set_self (by omega)]
    have hdiv : (is[0] ^^^ is[j]) / 256 = is[0] / 256 ^^^ is[j] / 256 := Nat.xor_div_two_pow (n := 8)
    by_cases hv : is[j] / 256 = is[0] / 256
    · have hx : is[0] ^^^ is[j] < 2 ^ 8 := by
        rw [hv, Nat.xor_self] at hdiv
        omega
      have := decode_indices hL hlt' hh' (by
        simp only [List.length_set]
        unfold shaped at *
        omega)
      simp only [List.length_set] at this
      rw [exchange_digits hlt hj0 hj, hz, Nat.zero_xor, Nat.sub_zero] at this
      simp only [List.mem_filter, List.mem_range, decide_eq_true_eq, hx, true_and]
      constructor
      · intro h
        rcases this with h' | h'
        · exact h'.2
        · rw [h'.1] at h; cases h
      · intro h
        exact (this.resolve_right fun h' => h'.2 h).1
    · have hbad := decode_wrong_shape hL (decodeWords_map hL hlt') hh' (by
        simp only [List.length_map, List.length_set]
        unfold shaped at *
        omega)
      rw [hbad]
      simp only [Bool.false_eq_true, false_iff, List.mem_filter, List.mem_range, not_and]
      intro hx
      have : (is[0] ^^^ is[j]) / 256 = 0 := by omega
      rw [hdiv, xor_eq_zero] at this
      exact absurd this.symm hv

/-! Examples -/

/-- A phrase with an exchange that goes unnoticed, one in which it is noticed. -/
example :
    let dec (is : List Nat) := decodeMnemonic toyWordList (is.map toyWordList.word)
    (dec [5, 6, 7, 100, 85, 9, 9, 9, 9, 9, 9, 9, 9, 11]).isOk = true ∧
    (dec [5, 6, 7, 85, 100, 9, 9, 9, 9, 9, 9, 9, 9, 11]).isOk = true ∧
    (dec [5, 6, 7, 100, 101, 9, 9, 9, 9, 9, 9, 9, 9, 17]).isOk = true ∧
    dec [5, 6, 7, 101, 100, 9, 9, 9, 9, 9, 9, 9, 9, 17] = .err .invalidChecksum := by decide +kernel

/-- The third word lost, the first word lost. -/
example :
    ((List.range 4096).filter (fun j => (decodeMnemonic toyWordList
      (([5, 6, 7, 1, 2, 3, 4, 5, 6, 7, 8, 9, 10, 11].set 2 j).map toyWordList.word)).isOk)).length = 128 ∧
    ((List.range 4096).filter (fun j => (decodeMnemonic toyWordList
      ((j :: [6, 7, 1, 2, 3, 4, 5, 6, 7, 8, 9, 10, 11]).map toyWordList.word)).isOk)).length = 8 :=
  ⟨c82_lost_word toyWordList_lawful _ (by decide) 5 rfl (.inl ⟨by decide, rfl⟩) 2 (by decide) (by decide),
    c82_lost_first toyWordList_lawful _ (by decide) (.inl rfl)⟩

end Verif.Props
