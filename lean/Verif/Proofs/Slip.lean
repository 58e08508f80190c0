import Verif.Proofs.Damage

/-! What a reader makes of an armored text with one character missing or one too many. -/

namespace Verif.Armor

open Verif.Spec Verif.Spec.OpenPGP

/-- The parts of an armored text, and what is known about their lines. -/
structure Parts (data D S : Bytes) : Prop where
  ne : data ≠ []
  eq : D = breakLines (radix64Write data)
  dat : DataPart data D
  sum : S = 0x3D :: radix64Write (crc24Octets data)
  plain : (0x0A : Byte) ∉ S
  five : S.length = 5
  notBegin : beginPrivateKey ∉ armorLines (D ++ 0x0A :: (S ++ 0x0A :: endPrivateKey))
  full : ∀ l ∈ armorLines (D ++ 0x0A :: (S ++ 0x0A :: endPrivateKey)), l ≠ []

theorem begin_plain : (0x0A : Byte) ∉ beginPrivateKey := by decide +kernel
theorem end_plain : (0x0A : Byte) ∉ endPrivateKey := by decide +kernel
theorem end_length : endPrivateKey.length = 35 := by decide +kernel

theorem parts {data : Bytes} (hne : data ≠ []) : ∃ D S, Parts data D S ∧
    goArmor data = beginPrivateKey ++ 0x0A :: 0x0A :: (D ++ 0x0A :: (S ++ 0x0A :: endPrivateKey)) := by
  have hSn : (0x0A : Byte) ∉ 0x3D :: radix64Write (crc24Octets data) := by
    intro h
    rcases List.mem_cons.mp h with h | h
    · exact absurd h (by decide)
    · exact (write_plain _ _ h).1 rfl
  have hp := dataPart hne
  have be : beginPrivateKey ≠ endPrivateKey := by decide +kernel
  have bd : (0x2D : Byte) ∈ beginPrivateKey := by decide +kernel
  have bh : beginPrivateKey.head? ≠ some 0x3D := by decide +kernel
  have tailLines : armorLines (breakLines (radix64Write data) ++ 0x0A :: ((0x3D :: radix64Write (crc24Octets data)) ++
      0x0A :: endPrivateKey)) = armorLines (breakLines (radix64Write data)) ++
        [0x3D :: radix64Write (crc24Octets data), endPrivateKey] := by
    rw [lines_join, lines_split _ _ hSn, lines_plain _ end_plain]
  refine ⟨breakLines (radix64Write data), 0x3D :: radix64Write (crc24Octets data), ⟨hne, rfl, hp, rfl, hSn, ?_, ?_, ?_⟩, rfl⟩
  · rw [List.length_cons, write_length, crc_length]
  · rw [tailLines]
    simp only [List.mem_append, List.mem_cons, List.not_mem_nil, or_false, not_or]
    refine ⟨fun hm => hp.plain (((lines_sublist hm).trans List.filter_sublist).subset bd), fun e => ?_, be⟩
    rw [e] at bh
    exact bh rfl
  · rw [tailLines]
    intro m hm
    simp only [List.mem_append, List.mem_cons, List.not_mem_nil, or_false] at hm
    rcases hm with h | rfl | rfl
    · exact hp.full m h
    · exact List.cons_ne_nil _ _
    · decide +kernel

theorem begin_body (t : Bytes) : dearmor (beginPrivateKey ++ 0x0A :: 0x0A :: t) = armorBody (armorLines t) :=
  dearmor_head (by rw [lines_split _ _ begin_plain, lines_lf])

/-- A changed data part -/
theorem slip_data {data D S D' d : Bytes} (P : Parts data D S) (hdash : D'.count 0x2D ≤ 1)
    (h : armorBody (armorLines D' ++ [S, endPrivateKey]) = some d) :
    radix64Write d = (D'.filter fun c => decide (c ≠ 0x0A)) ∧ crc24 data = crc24 d := by
  rcases first_sum (M := armorLines D') with hM | ⟨M1, l, M2, hM, hl, h1⟩
  · obtain ⟨-, hw, hs⟩ := body_some (by rw [P.sum]; rfl) hM h
    rw [P.sum] at hs
    exact ⟨by rw [hw, lines_flatten], crc24Octets_inj (write_inj (List.cons.inj hs).2)⟩
  · exfalso
    rw [hM, List.append_assoc, List.cons_append] at h
    obtain ⟨⟨rest, hr⟩, -⟩ := body_some hl h1 h
    cases M2 with
    | nil =>
      have := (List.cons.inj hr).1
      rw [P.sum] at this
      exact end_head (by rw [← this]; rfl)
    | cons m M2 =>
      have hm : endPrivateKey ∈ armorLines D' := by
        rw [hM, ← (List.cons.inj hr).1]
        simp
      have h1 := ((lines_sublist hm).trans List.filter_sublist).count_le 0x2D
      have h2 : endPrivateKey.count 0x2D = 10 := by decide +kernel
      omega

theorem filter_mod (data : Bytes) {D S : Bytes} (P : Parts data D S) :
    (D.filter fun c => decide (c ≠ 0x0A)) = radix64Write data := by
  rw [← lines_flatten, P.dat.flat]

theorem mod_four (d : Bytes) : (radix64Write d).length % 4 = 0 := by
  rw [write_length]
  omega

/-- One character missing -/
theorem missing {data A B : Bytes} {x : Byte} {d : Bytes} (hne : data ≠ []) (hgo : goArmor data = A ++ x :: B)
    (h : dearmor (A ++ B) = some d) : x = 0x0A ∧ d = data := by
  obtain ⟨D, S, P, e⟩ := parts hne
  rw [e] at hgo
  clear e
  rcases place hgo with ⟨A2, e, rfl⟩ | ⟨rfl, rfl, rfl⟩ | ⟨A', rfl, ht'⟩
  · -- in the header line
    exfalso
    rw [no_begin] at h
    · cases h
    · have hn : (0x0A : Byte) ∉ A ++ A2 := fun hm => begin_plain (by
        rw [e]
        simp only [List.mem_append, List.mem_cons] at hm ⊢
        rcases hm with h | h
        · exact .inl h
        · exact .inr (.inr h))
      rw [← List.append_assoc, lines_split _ _ hn, lines_lf]
      simp only [List.mem_cons, not_or]
      refine ⟨fun hm => ?_, by decide +kernel, P.notBegin⟩
      have := congrArg List.length hm
      rw [e] at this
      simp at this
  · -- the line feed after it
    exfalso
    rw [no_blank (ls := armorLines (D ++ 0x0A :: (S ++ 0x0A :: endPrivateKey))) (lines_split _ _ begin_plain) P.full] at h
    cases h
  rcases A' with _ | ⟨a, A⟩
  · -- the empty line
    exfalso
    obtain ⟨rfl, rfl⟩ := List.cons.inj ht'
    rw [List.append_assoc, List.cons_append, List.nil_append,
      no_blank (ls := armorLines (D ++ 0x0A :: (S ++ 0x0A :: endPrivateKey))) (lines_split _ _ begin_plain) P.full] at h
    cases h
  obtain ⟨rfl, ht⟩ := List.cons.inj ht'
  clear ht'
  rw [List.append_assoc, List.cons_append, List.cons_append, begin_body] at h
  rcases place ht with ⟨A2, e, rfl⟩ | ⟨hA, rfl, rfl⟩ | ⟨A', rfl, ht'⟩
  · -- in the data
    rw [← List.append_assoc, lines_join, lines_split _ _ P.plain, lines_plain _ end_plain] at h
    have hdash : (A ++ A2).count 0x2D ≤ 1 := by
      have := List.count_eq_zero.2 P.dat.plain
      rw [e, List.count_append, List.count_cons] at this
      rw [List.count_append]
      omega
    have hw := (slip_data P hdash h).1
    have hw' := filter_mod data P
    rw [e, List.filter_append, List.filter_cons] at hw'
    rw [List.filter_append] at hw
    by_cases hx : x = 0x0A
    · rw [if_neg (by simp [hx]), ← hw] at hw'
      exact ⟨hx, write_inj hw'⟩
    · exfalso
      rw [if_pos (decide_eq_true hx)] at hw'
      have l1 := mod_four d
      have l2 := mod_four data
      rw [hw, List.length_append] at l1
      rw [← hw', List.length_append, List.length_cons] at l2
      omega
  · -- the line feed before the checksum
    exfalso
    obtain rfl := hA.symm
    rw [← List.append_assoc, lines_join, lines_plain _ end_plain, data_none] at h
    · cases h
    · intro l hl
      obtain ⟨init, last, first, rest, h1, h2, h3⟩ := lines_append D S
      rw [lines_plain S P.plain] at h2
      cases h2
      rw [h3] at hl
      simp only [List.mem_append, List.mem_cons, List.not_mem_nil, or_false] at hl
      rcases hl with (hl | rfl) | rfl
      · exact P.dat.head l (by rw [h1]; exact List.mem_append_left _ hl)
      · have hm : last ∈ armorLines D := by rw [h1]; simp
        have hl := P.dat.full last hm
        have := P.dat.head last hm
        cases last with
        | nil => exact absurd rfl hl
        | cons c last => exact this
      · exact end_head
  exfalso
  rw [List.append_assoc, List.cons_append, lines_join] at h
  rcases place ht' with ⟨A2, e, rfl⟩ | ⟨hA, rfl, rfl⟩ | ⟨A, rfl, he⟩
  · -- in the checksum
    have hn : (0x0A : Byte) ∉ A' ++ A2 := fun hm => P.plain (by
      rw [e]
      simp only [List.mem_append, List.mem_cons] at hm ⊢
      rcases hm with h | h
      · exact .inl h
      · exact .inr (.inr h))
    rw [← List.append_assoc, lines_split _ _ hn, lines_plain _ end_plain] at h
    by_cases hh : (A' ++ A2).head? = some 0x3D
    · obtain ⟨-, -, hs⟩ := body_some hh P.dat.head h
      have l1 := congrArg List.length hs
      have l2 := P.five
      rw [e] at l2
      rw [List.length_cons, write_length, crc_length] at l1
      simp only [List.length_append, List.length_cons] at l1 l2
      omega
    · rw [data_none] at h
      · cases h
      · intro l hl
        simp only [List.mem_append, List.mem_cons, List.not_mem_nil, or_false] at hl
        rcases hl with hl | rfl | rfl
        · exact P.dat.head l hl
        · exact hh
        · exact end_head
  · -- the line feed after the checksum
    obtain rfl := hA.symm
    rw [lines_plain (S ++ endPrivateKey) (by simp only [List.mem_append, not_or]; exact ⟨P.plain, end_plain⟩)] at h
    obtain ⟨⟨_, hr⟩, -⟩ := body_some (rest := []) (by rw [P.sum]; rfl) P.dat.head h
    cases hr
  · -- in the tail line
    rw [List.append_assoc, List.cons_append, lines_split _ _ P.plain] at h
    obtain ⟨⟨rest, hr⟩, -⟩ := body_some (by rw [P.sum]; rfl) P.dat.head h
    have hm : endPrivateKey ∈ armorLines (A ++ B) := by rw [hr]; simp
    have l1 := ((lines_sublist hm).trans List.filter_sublist).length_le
    rw [he, List.length_append, List.length_append, List.length_cons] at l1
    omega

theorem missing_end {data A B : Bytes} {x : Byte} {d : Bytes} (hne : data ≠ []) (ht : goArmor data ++ [0x0A] = A ++ x :: B)
    (h : dearmor (A ++ B) = some d) : x = 0x0A ∧ d = data := by
  rcases place ht with ⟨A2, e, rfl⟩ | ⟨rfl, rfl, rfl⟩ | ⟨_, _, e⟩
  · rw [← List.append_assoc, dearmor_end] at h
    exact missing hne e h
  · rw [List.append_nil, goArmor_reads] at h
    exact ⟨rfl, (Option.some.inj h).symm⟩
  · exact absurd e (by simp)

/-- Where a surplus character can be -/
theorem gap : ∀ {A P : Bytes} {z : Byte} {B Q : Bytes}, P ++ z :: Q = A ++ B →
    (∃ A2, P = A ++ A2 ∧ B = A2 ++ z :: Q) ∨ ∃ A2, A = P ++ z :: A2 ∧ Q = A2 ++ B
  | [], P, _, _, _, h => .inl ⟨P, rfl, h.symm⟩
  | a :: A, [], _, _, _, h => by cases h; exact .inr ⟨A, rfl, rfl⟩
  | a :: A, p :: P, _, _, _, h => by
    simp only [List.cons_append, List.cons.injEq] at h
    obtain ⟨rfl, h⟩ := h
    rcases gap h with ⟨A2, rfl, rfl⟩ | ⟨A2, rfl, rfl⟩
    · exact .inl ⟨A2, rfl, rfl⟩
    · exact .inr ⟨A2, rfl, rfl⟩

/-- The data part is whole, with an empty line before it or not. -/
theorem whole_data {data D S d : Bytes} (P : Parts data D S) {rest : List Bytes} (pre post : List Bytes)
    (hpre : ∀ l ∈ pre, l = []) (hpost : ∀ l ∈ post, l = [])
    (h : armorBody (pre ++ armorLines D ++ post ++ S :: rest) = some d) : d = data := by
  have he : ∀ ls : List Bytes, (∀ l ∈ ls, l = []) → ls.flatten = [] := fun ls h => by
    rw [List.flatten_eq_nil_iff]
    exact h
  obtain ⟨-, hw, -⟩ := body_some (by rw [P.sum]; rfl) (fun l hl => by
    simp only [List.mem_append] at hl
    rcases hl with (hl | hl) | hl
    · rw [hpre l hl]; simp
    · exact P.dat.head l hl
    · rw [hpost l hl]; simp) h
  rw [List.flatten_append, List.flatten_append, he pre hpre, he post hpost, List.nil_append, List.append_nil,
    P.dat.flat] at hw
  exact write_inj hw

/-- One character too many -/
theorem surplus {data A B : Bytes} {y : Byte} {d : Bytes} (hne : data ≠ []) (hgo : goArmor data = A ++ B)
    (h : dearmor (A ++ y :: B) = some d) : d = data := by
  obtain ⟨D, S, P, e⟩ := parts hne
  rw [e] at hgo
  have tailLines : armorLines (D ++ 0x0A :: (S ++ 0x0A :: endPrivateKey)) = armorLines D ++ [S, endPrivateKey] := by
    rw [lines_join, lines_split _ _ P.plain, lines_plain _ end_plain]
  have blank : dearmor (beginPrivateKey ++ 0x0A :: 0x0A :: 0x0A :: (D ++ 0x0A :: (S ++ 0x0A :: endPrivateKey))) = some d →
      d = data := by
    intro h
    rw [begin_body, lines_lf, tailLines] at h
    exact whole_data P [[]] [] (by simp) (by simp) (by simpa using h)
  rcases gap hgo with ⟨A2, e2, rfl⟩ | ⟨A', rfl, ht'⟩
  · -- in the header line
    have hA : (0x0A : Byte) ∉ A := fun hm => begin_plain (by rw [e2]; exact List.mem_append_left _ hm)
    have hA2 : (0x0A : Byte) ∉ A2 := fun hm => begin_plain (by rw [e2]; exact List.mem_append_right _ hm)
    by_cases hy : y = 0x0A
    · subst hy
      cases A with
      | nil =>
        rw [List.nil_append] at e2
        subst e2
        rw [List.nil_append, dearmor_lf, ← e, goArmor_reads] at h
        exact (Option.some.inj h).symm
      | cons a A =>
        cases A2 with
        | nil =>
          rw [List.append_nil] at e2
          rw [← e2, List.nil_append] at h
          exact blank h
        | cons b A2 =>
          rw [no_begin] at h
          · cases h
          · rw [lines_split _ _ hA, lines_split _ _ hA2, lines_lf]
            simp only [List.mem_cons, not_or]
            have l := congrArg List.length e2
            refine ⟨fun hm => ?_, fun hm => ?_, by decide +kernel, P.notBegin⟩
            · rw [hm, List.length_append, List.length_cons, List.length_cons] at l
              omega
            · rw [hm, List.length_append, List.length_cons, List.length_cons] at l
              omega
    · rw [no_begin] at h
      · cases h
      · rw [show A ++ y :: (A2 ++ 0x0A :: 0x0A :: (D ++ 0x0A :: (S ++ 0x0A :: endPrivateKey))) =
          (A ++ y :: A2) ++ 0x0A :: 0x0A :: (D ++ 0x0A :: (S ++ 0x0A :: endPrivateKey)) by simp, lines_split _ _ (by
            simp only [List.mem_append, List.mem_cons, not_or]
            exact ⟨hA, Ne.symm hy, hA2⟩), lines_lf]
        simp only [List.mem_cons, not_or]
        refine ⟨fun hm => ?_, by decide +kernel, P.notBegin⟩
        have := congrArg List.length hm
        rw [e2] at this
        simp at this
  rcases A' with _ | ⟨a, A⟩
  · -- in the empty line
    rw [List.nil_append] at ht'
    subst ht'
    rw [List.append_assoc, List.cons_append, List.nil_append] at h
    by_cases hy : y = 0x0A
    · subst hy
      exact blank h
    · rw [no_blank (ls := [y] :: armorLines (D ++ 0x0A :: (S ++ 0x0A :: endPrivateKey))) (by
        rw [lines_split _ _ begin_plain, show y :: 0x0A :: (D ++ 0x0A :: (S ++ 0x0A :: endPrivateKey)) =
          [y] ++ 0x0A :: (D ++ 0x0A :: (S ++ 0x0A :: endPrivateKey)) from rfl, lines_split _ _ (by
            simpa using Ne.symm hy)])
        (by
          intro l hl
          rcases List.mem_cons.1 hl with rfl | hl
          · simp
          · exact P.full l hl)] at h
      cases h
  obtain ⟨rfl, ht⟩ := List.cons.inj ht'
  clear ht'
  rw [List.append_assoc, List.cons_append, List.cons_append, begin_body] at h
  rcases gap ht with ⟨A2, e2, rfl⟩ | ⟨A', rfl, ht'⟩
  · -- in the data
    rw [show A ++ y :: (A2 ++ 0x0A :: (S ++ 0x0A :: endPrivateKey)) =
      (A ++ y :: A2) ++ 0x0A :: (S ++ 0x0A :: endPrivateKey) by simp, lines_join, lines_split _ _ P.plain,
      lines_plain _ end_plain] at h
    have hdash : (A ++ y :: A2).count 0x2D ≤ 1 := by
      have := List.count_eq_zero.2 P.dat.plain
      rw [e2, List.count_append] at this
      rw [List.count_append, List.count_cons]
      split <;> omega
    have hw := (slip_data P hdash h).1
    have hw' := filter_mod data P
    rw [e2, List.filter_append] at hw'
    rw [List.filter_append, List.filter_cons] at hw
    by_cases hy : y = 0x0A
    · rw [if_neg (by simp [hy]), hw'] at hw
      exact write_inj hw
    · exfalso
      rw [if_pos (decide_eq_true hy)] at hw
      have l1 := mod_four d
      have l2 := mod_four data
      rw [hw, List.length_append, List.length_cons] at l1
      rw [← hw', List.length_append] at l2
      omega
  rw [List.append_assoc, List.cons_append, lines_join] at h
  rcases gap ht' with ⟨A2, e2, rfl⟩ | ⟨A, rfl, he⟩
  · -- in the checksum
    have hA : (0x0A : Byte) ∉ A' := fun hm => P.plain (by rw [e2]; exact List.mem_append_left _ hm)
    have hA2 : (0x0A : Byte) ∉ A2 := fun hm => P.plain (by rw [e2]; exact List.mem_append_right _ hm)
    have hl5 := P.five
    rw [e2, List.length_append] at hl5
    by_cases hy : y = 0x0A
    · subst hy
      rw [lines_split _ _ hA, lines_split _ _ hA2, lines_plain _ end_plain] at h
      cases A' with
      | nil =>
        rw [List.nil_append] at e2
        subst e2
        exact whole_data P [] [[]] (by simp) (by simp) (by simpa using h)
      | cons a A' =>
        exfalso
        have ha : a = 0x3D := by
          have := P.sum
          rw [e2] at this
          exact (List.cons.inj this).1
        subst ha
        obtain ⟨⟨_, hr⟩, -⟩ := body_some rfl P.dat.head h
        have l1 := congrArg List.length (List.cons.inj hr).1
        rw [end_length] at l1
        omega
    · exfalso
      have hn : (0x0A : Byte) ∉ A' ++ y :: A2 := by
        simp only [List.mem_append, List.mem_cons, not_or]
        exact ⟨hA, Ne.symm hy, hA2⟩
      rw [show A' ++ y :: (A2 ++ 0x0A :: endPrivateKey) = (A' ++ y :: A2) ++ 0x0A :: endPrivateKey by simp,
        lines_split _ _ hn, lines_plain _ end_plain] at h
      by_cases hh : (A' ++ y :: A2).head? = some 0x3D
      · obtain ⟨-, -, hs⟩ := body_some hh P.dat.head h
        have l1 := congrArg List.length hs
        rw [List.length_cons, write_length, crc_length, List.length_append, List.length_cons] at l1
        omega
      · rw [data_none] at h
        · cases h
        · intro l hl
          simp only [List.mem_append, List.mem_cons, List.not_mem_nil, or_false] at hl
          rcases hl with hl | rfl | rfl
          · exact P.dat.head l hl
          · exact hh
          · exact end_head
  · -- in the tail line
    rw [List.append_assoc, List.cons_append, lines_split _ _ P.plain] at h
    exact whole_data P [] [] (by simp) (by simp) (by simpa using h)

theorem surplus_end {data A B : Bytes} {y : Byte} {d : Bytes} (hne : data ≠ []) (ht : goArmor data ++ [0x0A] = A ++ B)
    (h : dearmor (A ++ y :: B) = some d) : d = data := by
  rcases gap ht with ⟨A2, e, rfl⟩ | ⟨A2, rfl, e⟩
  · rw [show A ++ y :: (A2 ++ [0x0A]) = (A ++ y :: A2) ++ [0x0A] by simp, dearmor_end] at h
    exact surplus hne e h
  · obtain ⟨rfl, rfl⟩ := List.append_eq_nil_iff.1 e.symm
    obtain ⟨D, S, P, e⟩ := parts hne
    rw [e, List.append_assoc, List.append_assoc, List.cons_append, List.cons_append, begin_body, List.append_assoc,
      List.cons_append, List.append_assoc, List.cons_append, lines_join, lines_split _ _ P.plain] at h
    exact whole_data P [] [] (by simp) (by simp) (by simpa using h)

end Verif.Armor
