import Verif.Proofs.Slip

/-! What a reader makes of an armored text in which two neighbouring characters have changed places. -/

namespace Verif.Armor

open Verif.Spec Verif.Spec.OpenPGP

/-- The padding shows how long the data is. -/
theorem pad_count : ∀ d : Bytes, (radix64Write d).count 0x3D = (3 - d.length % 3) % 3
  | [] => rfl
  | [a] => by
    have la := lt256 a
    have h1 := (char_plain (a.toNat / 4) (by omega)).2.1
    have h2 := (char_plain (a.toNat % 4 * 16) (by omega)).2.1
    simp [radix64Write, h1, h2]
  | [a, b] => by
    have la := lt256 a
    have lb := lt256 b
    have h1 := (char_plain (a.toNat / 4) (by omega)).2.1
    have h2 := (char_plain (a.toNat % 4 * 16 + b.toNat / 16) (by omega)).2.1
    have h3 := (char_plain (b.toNat % 16 * 4) (by omega)).2.1
    simp [radix64Write, h1, h2, h3]
  | a :: b :: c :: rest => by
    have la := lt256 a
    have lb := lt256 b
    have lc := lt256 c
    have h1 := (char_plain (a.toNat / 4) (by omega)).2.1
    have h2 := (char_plain (a.toNat % 4 * 16 + b.toNat / 16) (by omega)).2.1
    have h3 := (char_plain (b.toNat % 16 * 4 + c.toNat / 64) (by omega)).2.1
    have h4 := (char_plain (c.toNat % 64) (by omega)).2.1
    rw [radix64Write, List.count_cons_of_ne h1, List.count_cons_of_ne h2, List.count_cons_of_ne h3,
      List.count_cons_of_ne h4, pad_count rest]
    simp only [List.length_cons]
    omega

theorem swap_length {A B d d' : Bytes} {x y : Byte} (h : radix64Write d = A ++ x :: y :: B)
    (h' : radix64Write d' = A ++ y :: x :: B) : d.length = d'.length := by
  have c := pad_count d
  have c' := pad_count d'
  have l := write_length d
  have l' := write_length d'
  rw [h] at c l
  rw [h'] at c' l'
  simp only [List.count_append, List.count_cons, List.length_append, List.length_cons] at c c' l l'
  omega

theorem swap_char : ∀ (n : Nat) {A : Bytes} {x y : Byte} {B d d' : Bytes}, A.length ≤ n → d.length = d'.length →
    radix64Write d = A ++ x :: y :: B → radix64Write d' = A ++ y :: x :: B →
    ∃ a u u' b, d = a ++ u ++ b ∧ d' = a ++ u' ++ b ∧ u.length = u'.length ∧ u.length ≤ 3
  | _, _, _, _, _, [], _, _, _, h, _ => by simp [radix64Write] at h
  | _, _, _, _, _, [a], d', _, hl, _, _ => ⟨[], [a], d', [], rfl, by simp, hl, by simp⟩
  | _, _, _, _, _, [a, b], d', _, hl, _, _ => ⟨[], [a, b], d', [], rfl, by simp, hl, by simp⟩
  | _, _, _, _, _, _ :: _ :: _ :: _, [], _, hl, _, _ => by simp at hl
  | _, _, _, _, _, _ :: _ :: _ :: _, [_], _, hl, _, _ => by simp at hl
  | _, _, _, _, _, _ :: _ :: _ :: _, [_, _], _, hl, _, _ => by simp at hl
  | n, A, x, y, B, a :: b :: c :: rest, p :: q :: r :: rest', hn, hl, h, h' => by
    have hlr : rest.length = rest'.length := by
      simp only [List.length_cons] at hl
      omega
    rw [radix64Write] at h h'
    rcases A with _ | ⟨a1, _ | ⟨a2, _ | ⟨a3, _ | ⟨a4, A⟩⟩⟩⟩
    · simp only [List.nil_append, List.cons.injEq] at h h'
      have hw : radix64Write rest = radix64Write rest' := by
        have := h.2.2.trans h'.2.2.symm
        exact (List.cons.inj (List.cons.inj this).2).2
      obtain rfl := write_inj hw
      exact ⟨[], [a, b, c], [p, q, r], rest, rfl, rfl, rfl, by simp⟩
    · simp only [List.nil_append, List.cons_append, List.cons.injEq] at h h'
      have hw : radix64Write rest = radix64Write rest' := by
        have := h.2.2.2.trans h'.2.2.2.symm
        exact (List.cons.inj this).2
      obtain rfl := write_inj hw
      exact ⟨[], [a, b, c], [p, q, r], rest, rfl, rfl, rfl, by simp⟩
    · simp only [List.nil_append, List.cons_append, List.cons.injEq] at h h'
      obtain rfl := write_inj (h.2.2.2.2.trans h'.2.2.2.2.symm)
      exact ⟨[], [a, b, c], [p, q, r], rest, rfl, rfl, rfl, by simp⟩
    · simp only [List.nil_append, List.cons_append, List.cons.injEq] at h h'
      obtain ⟨e1, e2, e3, -, hw⟩ := h
      obtain ⟨f1, f2, f3, -, hw'⟩ := h'
      have la := lt256 a
      have lb := lt256 b
      have lc := lt256 c
      have lp := lt256 p
      have lq := lt256 q
      have lr := lt256 r
      have g1 := char_inj (by omega) (by omega) (e1.trans f1.symm)
      have g2 := char_inj (by omega) (by omega) (e2.trans f2.symm)
      have g3 := char_inj (by omega) (by omega) (e3.trans f3.symm)
      obtain rfl : a = p := UInt8.toNat_inj.1 (by omega)
      obtain rfl : b = q := UInt8.toNat_inj.1 (by omega)
      match rest, rest', hlr, hw, hw' with
      | [], _, _, hw, _ => cases hw
      | [s], [s'], _, _, _ => exact ⟨[a, b], [c, s], [r, s'], [], rfl, rfl, rfl, by simp⟩
      | [s, t], [s', t'], _, _, _ => exact ⟨[a, b], [c, s, t], [r, s', t'], [], rfl, rfl, rfl, by simp⟩
      | s :: t :: v :: R, s' :: t' :: v' :: R', _, hw, hw' =>
        rw [radix64Write] at hw hw'
        have hB := (List.cons.inj hw).2.trans (List.cons.inj hw').2.symm
        simp only [List.cons.injEq] at hB
        obtain ⟨k1, k2, k3, k4⟩ := hB
        obtain rfl := write_inj k4
        have ls := lt256 s
        have lt := lt256 t
        have lv := lt256 v
        have ls' := lt256 s'
        have lt' := lt256 t'
        have lv' := lt256 v'
        have m1 := char_inj (by omega) (by omega) k1
        have m2 := char_inj (by omega) (by omega) k2
        have m3 := char_inj (by omega) (by omega) k3
        obtain rfl : t = t' := UInt8.toNat_inj.1 (by omega)
        obtain rfl : v = v' := UInt8.toNat_inj.1 (by omega)
        exact ⟨[a, b], [c, s], [r, s'], t :: v :: R, rfl, rfl, rfl, by simp⟩
    · simp only [List.cons_append, List.cons.injEq] at h h'
      obtain ⟨e1, e2, e3, e4, hw⟩ := h
      obtain ⟨f1, f2, f3, f4, hw'⟩ := h'
      obtain ⟨rfl, rfl, rfl⟩ := group (e1.trans f1.symm) (e2.trans f2.symm) (e3.trans f3.symm) (e4.trans f4.symm)
      cases n with
      | zero => simp at hn
      | succ n =>
        obtain ⟨s, u, u', t, rfl, rfl, hu, h3⟩ := swap_char n (by simp only [List.length_cons] at hn; omega) hlr hw hw'
        exact ⟨a :: b :: c :: s, u, u', t, rfl, rfl, hu, h3⟩

theorem swap_data {A B d d' : Bytes} {x y : Byte} (h : radix64Write d = A ++ x :: y :: B)
    (h' : radix64Write d' = A ++ y :: x :: B) (hc : crc24 d = crc24 d') : d' = d := by
  obtain ⟨a, u, u', b, rfl, rfl, hu, h3⟩ := swap_char _ (Nat.le_refl _) (swap_length h h') h h'
  rw [crc24_change a b u u' hu h3 hc]

/-- Where the two can be -/
theorem pair {A P : Bytes} {x y z : Byte} {B Q : Bytes} (h : P ++ z :: Q = A ++ x :: y :: B) :
    (∃ A2, P = A ++ x :: y :: A2 ∧ B = A2 ++ z :: Q) ∨ (P = A ++ [x] ∧ y = z ∧ B = Q) ∨ (A = P ∧ x = z ∧ Q = y :: B) ∨
      ∃ A2, A = P ++ z :: A2 ∧ Q = A2 ++ x :: y :: B := by
  rcases place h with ⟨A2, rfl, e⟩ | ⟨rfl, rfl, rfl⟩ | ⟨A2, rfl, rfl⟩
  · cases A2 with
    | nil =>
      obtain ⟨rfl, rfl⟩ := List.cons.inj e
      exact .inr (.inl ⟨rfl, rfl, rfl⟩)
    | cons a A2 =>
      obtain ⟨rfl, rfl⟩ := List.cons.inj e
      exact .inl ⟨A2, rfl, rfl⟩
  · exact .inr (.inr (.inl ⟨rfl, rfl, rfl⟩))
  · exact .inr (.inr (.inr ⟨A2, rfl, rfl⟩))

theorem data_begins {data : Bytes} (hne : data ≠ []) :
    ∃ c c2 R, breakLines (radix64Write data) = c :: c2 :: R ∧ c2 ≠ 0x0A := by
  have hl : 4 ≤ (radix64Write data).length := by
    have := List.length_pos_iff.2 hne
    rw [write_length]
    omega
  match hw : radix64Write data, hl with
  | c :: c2 :: w, _ =>
    have h2 : c2 ≠ 0x0A := (write_plain data c2 (by rw [hw]; simp)).1
    rw [breakLines]
    split
    · exact ⟨c, c2, w, rfl, h2⟩
    · exact ⟨c, c2, _, rfl, h2⟩

/-- Lines before the checksum's, of which none has a dash -/
theorem no_tail {M : List Bytes} {T : Bytes} {d : Bytes} {D : Bytes} (hM : M = armorLines D) (hD : (0x2D : Byte) ∉ D)
    (hT : T ≠ endPrivateKey) (h5 : T.length ≠ 5) (h : armorBody (M ++ [T, endPrivateKey]) = some d) : False := by
  rcases first_sum (M := M) with h1 | ⟨M1, l, M2, rfl, hl, h1⟩
  · by_cases hh : T.head? = some 0x3D
    · obtain ⟨-, -, hs⟩ := body_some hh h1 h
      apply h5
      rw [hs, List.length_cons, write_length, crc_length]
    · rw [data_none] at h
      · cases h
      · intro l hl
        simp only [List.mem_append, List.mem_cons, List.not_mem_nil, or_false] at hl
        rcases hl with hl | rfl | rfl
        · exact h1 l hl
        · exact hh
        · exact end_head
  · rw [List.append_assoc, List.cons_append] at h
    obtain ⟨⟨rest, hr⟩, -⟩ := body_some hl h1 h
    cases M2 with
    | nil => exact hT (List.cons.inj hr).1
    | cons m M2 =>
      have hm : endPrivateKey ∈ armorLines D := by
        rw [← hM, ← (List.cons.inj hr).1]
        simp
      have he : (0x2D : Byte) ∈ endPrivateKey := by decide +kernel
      exact hD (((lines_sublist hm).trans List.filter_sublist).subset he)

theorem swapped {data A B : Bytes} {x y : Byte} {d : Bytes} (hne : data ≠ []) (hxy : x ≠ y)
    (hgo : goArmor data = A ++ x :: y :: B) (h : dearmor (A ++ y :: x :: B) = some d) : (x = 0x0A ∨ y = 0x0A) ∧ d = data := by
  obtain ⟨D, S, P, e⟩ := parts hne
  rw [e] at hgo
  rcases pair hgo with ⟨A2, e2, rfl⟩ | ⟨e2, rfl, rfl⟩ | ⟨rfl, rfl, e2⟩ | ⟨A', rfl, ht'⟩
  · -- in the header line
    exfalso
    rw [no_begin] at h
    · cases h
    · have hn : (0x0A : Byte) ∉ A ++ y :: x :: A2 := fun hm => begin_plain (by
        rw [e2]
        simp only [List.mem_append, List.mem_cons] at hm ⊢
        rcases hm with h | h | h | h
        · exact .inl h
        · exact .inr (.inr (.inl h))
        · exact .inr (.inl h)
        · exact .inr (.inr (.inr h)))
      rw [show A ++ y :: x :: (A2 ++ 0x0A :: 0x0A :: (D ++ 0x0A :: (S ++ 0x0A :: endPrivateKey))) =
        (A ++ y :: x :: A2) ++ 0x0A :: 0x0A :: (D ++ 0x0A :: (S ++ 0x0A :: endPrivateKey)) by simp, lines_split _ _ hn,
        lines_lf]
      simp only [List.mem_cons, not_or]
      refine ⟨fun hm => ?_, by decide +kernel, P.notBegin⟩
      rw [e2] at hm
      exact hxy (List.cons.inj (List.append_cancel_left hm)).1
  · -- its last character and the line feed
    exfalso
    rw [no_begin] at h
    · cases h
    · have hA : (0x0A : Byte) ∉ A := fun hm => begin_plain (by rw [e2]; exact List.mem_append_left _ hm)
      have hx : (0x0A : Byte) ∉ [x] := by simpa using Ne.symm hxy
      rw [lines_split _ _ hA, show x :: 0x0A :: (D ++ 0x0A :: (S ++ 0x0A :: endPrivateKey)) =
        [x] ++ 0x0A :: (D ++ 0x0A :: (S ++ 0x0A :: endPrivateKey)) from rfl, lines_split _ _ hx]
      simp only [List.mem_cons, not_or]
      refine ⟨fun hm => ?_, fun hm => ?_, P.notBegin⟩
      · have := congrArg List.length e2
        rw [hm] at this
        simp at this
      · have l1 : beginPrivateKey.length = 37 := by decide +kernel
        rw [hm] at l1
        simp at l1
  · exact absurd (List.cons.inj e2).1 hxy
  rcases A' with _ | ⟨a, A⟩
  · -- the empty line
    exfalso
    rw [List.nil_append] at ht'
    obtain ⟨rfl, ht⟩ := List.cons.inj ht'
    obtain ⟨c, c2, R, hD, h2⟩ := data_begins hne
    rw [← P.eq] at hD
    have hf := P.full
    rw [hD] at hf ht
    simp only [List.cons_append] at hf ht
    obtain ⟨rfl, rfl⟩ := List.cons.inj ht
    obtain ⟨l, ls, hl⟩ := List.exists_cons_of_ne_nil (lines_ne (R ++ 0x0A :: (S ++ 0x0A :: endPrivateKey)))
    have hc : (0x0A : Byte) ∉ [c] := by simpa using hxy
    rw [List.append_assoc, List.cons_append, List.nil_append,
      no_blank (ls := [c] :: (c2 :: l) :: ls)] at h
    · cases h
    · rw [lines_split _ _ begin_plain, show c :: 0x0A :: c2 :: (R ++ 0x0A :: (S ++ 0x0A :: endPrivateKey)) =
        [c] ++ 0x0A :: c2 :: (R ++ 0x0A :: (S ++ 0x0A :: endPrivateKey)) from rfl, lines_split _ _ hc, armorLines,
        if_neg h2, hl]
    · rw [armorLines, if_neg (Ne.symm hxy), armorLines, if_neg h2, hl] at hf
      intro m hm
      simp only [List.mem_cons] at hm
      rcases hm with rfl | rfl | hm
      · simp
      · simp
      · exact hf m (List.mem_cons_of_mem _ hm)
  obtain ⟨rfl, ht⟩ := List.cons.inj ht'
  clear ht'
  rw [List.append_assoc, List.cons_append, List.cons_append, begin_body] at h
  rcases pair ht with ⟨A2, e2, rfl⟩ | ⟨e2, rfl, rfl⟩ | ⟨hA, rfl, e2⟩ | ⟨A', rfl, ht'⟩
  · -- in the data
    rw [show A ++ y :: x :: (A2 ++ 0x0A :: (S ++ 0x0A :: endPrivateKey)) =
      (A ++ y :: x :: A2) ++ 0x0A :: (S ++ 0x0A :: endPrivateKey) by simp, lines_join, lines_split _ _ P.plain,
      lines_plain _ end_plain] at h
    have hdash : (A ++ y :: x :: A2).count 0x2D ≤ 1 := by
      have := List.count_eq_zero.2 P.dat.plain
      rw [e2, List.count_append, List.count_cons, List.count_cons] at this
      rw [List.count_append, List.count_cons, List.count_cons]
      omega
    obtain ⟨hw, hc⟩ := slip_data P hdash h
    have hw' := filter_mod data P
    rw [e2, List.filter_append, List.filter_cons, List.filter_cons] at hw'
    rw [List.filter_append, List.filter_cons, List.filter_cons] at hw
    by_cases hx : x = 0x0A
    · rw [if_neg (c := decide (x ≠ 0x0A) = true) (by simp [hx])] at hw hw'
      exact ⟨.inl hx, write_inj (hw.trans hw')⟩
    · by_cases hy : y = 0x0A
      · rw [if_neg (c := decide (y ≠ 0x0A) = true) (by simp [hy])] at hw hw'
        exact ⟨.inr hy, write_inj (hw.trans hw')⟩
      · rw [if_pos (decide_eq_true hx), if_pos (decide_eq_true hy)] at hw'
        rw [if_pos (decide_eq_true hx), if_pos (decide_eq_true hy)] at hw
        rw [swap_data hw'.symm hw hc, ← hw'] at hw
        exact absurd (List.cons.inj (List.append_cancel_left hw)).1 hxy
  · -- the last character of the data and the line feed
    exfalso
    have hn : (0x0A : Byte) ∉ x :: S := by
      simp only [List.mem_cons, not_or]
      exact ⟨Ne.symm hxy, P.plain⟩
    rw [show A ++ 0x0A :: x :: (S ++ 0x0A :: endPrivateKey) = A ++ 0x0A :: ((x :: S) ++ 0x0A :: endPrivateKey) from rfl,
      lines_join, lines_split _ _ hn, lines_plain _ end_plain] at h
    have hl := P.five
    refine no_tail rfl (fun hm => P.dat.plain ?_) (fun hm => ?_) ?_ h
    · rw [e2]
      exact List.mem_append_left _ hm
    · have := congrArg List.length hm
      rw [end_length, List.length_cons] at this
      omega
    · rw [List.length_cons]
      omega
  · -- the line feed and the sign before the checksum
    exfalso
    obtain rfl := hA.symm
    have hl := P.five
    have hn := P.plain
    have hs := P.sum
    cases S with
    | nil => cases hs
    | cons s S =>
      obtain ⟨rfl, rfl⟩ := List.cons.inj e2
      obtain ⟨rfl, -⟩ := List.cons.inj hs
      have hn' : (0x0A : Byte) ∉ S := fun hm => hn (List.mem_cons_of_mem _ hm)
      rw [show D ++ 0x3D :: 0x0A :: (S.append (0x0A :: endPrivateKey)) =
        (D ++ [0x3D]) ++ 0x0A :: (S ++ 0x0A :: endPrivateKey) by simp, lines_join, lines_split _ _ hn', lines_plain _ end_plain] at h
      rw [List.length_cons] at hl
      refine no_tail rfl (fun hm => ?_) (fun hm => ?_) ?_ h
      · rcases List.mem_append.1 hm with hm | hm
        · exact P.dat.plain hm
        · exact absurd hm (by decide)
      · have := congrArg List.length hm
        rw [end_length] at this
        omega
      · omega
  rw [List.append_assoc, List.cons_append, lines_join] at h
  rcases pair ht' with ⟨A2, e2, rfl⟩ | ⟨e2, rfl, rfl⟩ | ⟨hA, rfl, e2⟩ | ⟨A, rfl, he⟩
  · -- in the checksum
    have hn : (0x0A : Byte) ∉ A' ++ y :: x :: A2 := fun hm => P.plain (by
      rw [e2]
      simp only [List.mem_append, List.mem_cons] at hm ⊢
      rcases hm with h | h | h | h
      · exact .inl h
      · exact .inr (.inr (.inl h))
      · exact .inr (.inl h)
      · exact .inr (.inr (.inr h)))
    rw [show A' ++ y :: x :: (A2 ++ 0x0A :: endPrivateKey) = (A' ++ y :: x :: A2) ++ 0x0A :: endPrivateKey by simp,
      lines_split _ _ hn, lines_plain _ end_plain] at h
    by_cases hh : (A' ++ y :: x :: A2).head? = some 0x3D
    · obtain ⟨-, hw, hs⟩ := body_some hh P.dat.head h
      rw [P.dat.flat] at hw
      rw [write_inj hw, ← P.sum, e2] at hs
      exact absurd (List.cons.inj (List.append_cancel_left hs)).1.symm hxy
    · rw [data_none] at h
      · cases h
      · intro l hl
        simp only [List.mem_append, List.mem_cons, List.not_mem_nil, or_false] at hl
        rcases hl with hl | rfl | rfl
        · exact P.dat.head l hl
        · simpa using hh
        · exact end_head
  · -- its last character and the line feed
    exfalso
    have hl := P.five
    have hA : (0x0A : Byte) ∉ A' := fun hm => P.plain (by rw [e2]; exact List.mem_append_left _ hm)
    have hn : (0x0A : Byte) ∉ x :: endPrivateKey := by
      simp only [List.mem_cons, not_or]
      exact ⟨Ne.symm hxy, end_plain⟩
    rw [lines_split _ _ hA, lines_plain _ hn] at h
    have hs := P.sum
    rw [e2] at hs hl
    cases A' with
    | nil => simp at hl
    | cons a A' =>
      obtain ⟨rfl, -⟩ := List.cons.inj hs
      obtain ⟨⟨_, hr⟩, -⟩ := body_some rfl P.dat.head h
      have l1 := congrArg List.length (List.cons.inj hr).1
      simp at l1
  · -- the line feed and the first dash
    exfalso
    obtain rfl := hA.symm
    have hn : (0x0A : Byte) ∉ S ++ [y] := by
      simp only [List.mem_append, List.mem_singleton, not_or]
      exact ⟨P.plain, hxy⟩
    rw [show S ++ y :: 0x0A :: B = (S ++ [y]) ++ 0x0A :: B by simp, lines_split _ _ hn] at h
    obtain ⟨-, -, hs⟩ := body_some (by rw [P.sum]; rfl) P.dat.head h
    have l1 := congrArg List.length hs
    rw [List.length_cons, write_length, crc_length, List.length_append, P.five] at l1
    simp at l1
  · -- in the tail line
    exfalso
    have hn : (0x0A : Byte) ∉ A ++ y :: x :: B := fun hm => end_plain (by
      rw [he]
      simp only [List.mem_append, List.mem_cons] at hm ⊢
      rcases hm with h | h | h | h
      · exact .inl h
      · exact .inr (.inr (.inl h))
      · exact .inr (.inl h)
      · exact .inr (.inr (.inr h)))
    rw [List.append_assoc, List.cons_append, lines_split _ _ P.plain, lines_plain _ hn] at h
    obtain ⟨⟨_, hr⟩, -⟩ := body_some (by rw [P.sum]; rfl) P.dat.head h
    have := (List.cons.inj hr).1
    rw [he] at this
    exact hxy (List.cons.inj (List.append_cancel_left this)).1.symm

theorem swapped_end {data A B : Bytes} {x y : Byte} {d : Bytes} (hne : data ≠ []) (hxy : x ≠ y)
    (ht : goArmor data ++ [0x0A] = A ++ x :: y :: B) (h : dearmor (A ++ y :: x :: B) = some d) : (x = 0x0A ∨ y = 0x0A) ∧ d = data := by
  rcases pair ht with ⟨A2, e, rfl⟩ | ⟨e2, rfl, rfl⟩ | ⟨_, _, e⟩ | ⟨_, _, e⟩
  · rw [show A ++ y :: x :: (A2 ++ [0x0A]) = (A ++ y :: x :: A2) ++ [0x0A] by simp, dearmor_end] at h
    exact swapped hne hxy e h
  · obtain ⟨D, S, P, e⟩ := parts hne
    rcases List.eq_nil_or_concat endPrivateKey with h0 | ⟨E, z, hz⟩
    · exact absurd h0 (by decide +kernel)
    rw [e2, hz, List.concat_eq_append, show beginPrivateKey ++ 0x0A :: 0x0A :: (D ++ 0x0A :: (S ++ 0x0A :: (E ++ [z]))) =
      (beginPrivateKey ++ 0x0A :: 0x0A :: (D ++ 0x0A :: (S ++ 0x0A :: E))) ++ [z] by simp] at e
    obtain ⟨rfl, -⟩ := List.append_inj' e rfl
    rw [List.append_assoc, List.cons_append, List.cons_append, begin_body, List.append_assoc,
      List.cons_append, List.append_assoc, List.cons_append, lines_join, lines_split _ _ P.plain] at h
    exact ⟨.inr rfl, whole_data P [] [] (by simp) (by simp) (by simpa using h)⟩
  · cases e
  · exact absurd e (by simp)

end Verif.Armor
