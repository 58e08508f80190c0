import Verif.Proofs.Damage
import Verif.Spec.Damage

/-! What a reader that ignores unused bits makes of an armored text with one character replaced. -/

namespace Verif.Armor

open Verif.Spec Verif.Spec.OpenPGP

theorem loose_inv {e1 e2 e3 e4 : Byte} {t d : Bytes} (h : looseRead (e1 :: e2 :: e3 :: e4 :: t) = some d) :
    ∃ p q, p < 64 ∧ q < 64 ∧ e1 = radix64Char p ∧ e2 = radix64Char q ∧
      ((e3 = 0x3D ∧ e4 = 0x3D ∧ t = [] ∧ d = [UInt8.ofNat (p * 4 + q / 16)]) ∨
      ∃ r, r < 64 ∧ e3 = radix64Char r ∧
        ((e4 = 0x3D ∧ t = [] ∧ d = [UInt8.ofNat (p * 4 + q / 16), UInt8.ofNat (q % 16 * 16 + r / 4)]) ∨
        ∃ s, s < 64 ∧ e4 = radix64Char s ∧ ∃ d2, looseRead t = some d2 ∧
          d = UInt8.ofNat (p * 4 + q / 16) :: UInt8.ofNat (q % 16 * 16 + r / 4) :: UInt8.ofNat (r % 4 * 64 + s) :: d2)) := by
  by_cases h1 : e3 = 0x3D ∧ e4 = 0x3D ∧ t = []
  · obtain ⟨rfl, rfl, rfl⟩ := h1
    rw [looseRead] at h
    simp only [Option.bind_eq_bind, Option.bind_eq_some_iff] at h
    obtain ⟨x, hx, y, hy, h⟩ := h
    obtain ⟨lx, rfl⟩ := char_value hx
    obtain ⟨ly, rfl⟩ := char_value hy
    exact ⟨x, y, lx, ly, rfl, rfl, .inl ⟨rfl, rfl, rfl, (Option.some.inj h).symm⟩⟩
  by_cases h2 : e4 = 0x3D ∧ t = []
  · obtain ⟨rfl, rfl⟩ := h2
    rw [looseRead] at h
    · simp only [Option.bind_eq_bind, Option.bind_eq_some_iff] at h
      obtain ⟨x, hx, y, hy, z, hz, h⟩ := h
      obtain ⟨lx, rfl⟩ := char_value hx
      obtain ⟨ly, rfl⟩ := char_value hy
      obtain ⟨lz, rfl⟩ := char_value hz
      exact ⟨x, y, lx, ly, rfl, rfl, .inr ⟨z, lz, rfl, .inl ⟨rfl, rfl, (Option.some.inj h).symm⟩⟩⟩
    · intro e
      exact h1 ⟨e, rfl, rfl⟩
  · rw [looseRead] at h
    · simp only [Option.bind_eq_bind, Option.bind_eq_some_iff] at h
      obtain ⟨x, hx, y, hy, z, hz, v, hv, d2, hd, h⟩ := h
      obtain ⟨lx, rfl⟩ := char_value hx
      obtain ⟨ly, rfl⟩ := char_value hy
      obtain ⟨lz, rfl⟩ := char_value hz
      obtain ⟨lv, rfl⟩ := char_value hv
      exact ⟨x, y, lx, ly, rfl, rfl, .inr ⟨z, lz, rfl, .inr ⟨v, lv, rfl, d2, hd, (Option.some.inj h).symm⟩⟩⟩
    · intro a b c
      exact h1 ⟨a, b, c⟩
    · intro a b
      exact h2 ⟨a, b⟩

/-- What the strict reader takes is taken. -/
theorem loose_read : ∀ {w d : Bytes}, radix64Read w = some d → looseRead w = some d := by
  intro w
  induction w using radix64Read.induct with
  | case1 => intro d h; exact h
  | case2 a b =>
    intro d h
    rw [radix64Read] at h
    rw [looseRead]
    simp only [Option.bind_eq_bind, Option.bind_eq_some_iff] at h ⊢
    obtain ⟨x, hx, y, hy, h⟩ := h
    split at h
    · exact ⟨x, hx, y, hy, h⟩
    · cases h
  | case3 a b c hne =>
    intro d h
    rw [radix64Read] at h
    · rw [looseRead]
      · simp only [Option.bind_eq_bind, Option.bind_eq_some_iff] at h ⊢
        obtain ⟨x, hx, y, hy, z, hz, h⟩ := h
        split at h
        · exact ⟨x, hx, y, hy, z, hz, h⟩
        · cases h
      · exact hne
    · exact hne
  | case4 a b c e rest h1 h2 ih =>
    intro d h
    rw [radix64Read] at h
    · rw [looseRead]
      · simp only [Option.bind_eq_bind, Option.bind_eq_some_iff] at h ⊢
        obtain ⟨x, hx, y, hy, z, hz, v, hv, t, ht, h⟩ := h
        exact ⟨x, hx, y, hy, z, hz, v, hv, t, ih ht, h⟩
      · exact h1
      · exact h2
    · exact h1
    · exact h2
  | case5 w h1 h2 h3 h4 =>
    intro d h
    rw [radix64Read] at h
    · cases h
    all_goals assumption

theorem loose_write (d : Bytes) : looseRead (radix64Write d) = some d := loose_read (read_write d)

theorem loose_length : ∀ {w d : Bytes}, looseRead w = some d → w.length = (d.length + 2) / 3 * 4
  | [], d, h => by cases h; rfl
  | [_], _, h => by simp [looseRead] at h
  | [_, _], _, h => by simp [looseRead] at h
  | [_, _, _], _, h => by simp [looseRead] at h
  | _ :: _ :: _ :: _ :: t, d, h => by
    obtain ⟨p, q, -, -, -, -, ⟨-, -, rfl, rfl⟩ | ⟨r, -, -, ⟨-, rfl, rfl⟩ | ⟨s, -, -, d2, h2, rfl⟩⟩⟩ := loose_inv h
    · simp
    · simp
    · have := loose_length h2
      simp only [List.length_cons] at this ⊢
      omega

/-- Without padding the reader takes only what the writer writes. -/
theorem loose_full : ∀ {w d : Bytes}, looseRead w = some d → d.length % 3 = 0 → radix64Write d = w
  | [], d, h, _ => by cases h; rfl
  | [_], _, h, _ => by simp [looseRead] at h
  | [_, _], _, h, _ => by simp [looseRead] at h
  | [_, _, _], _, h, _ => by simp [looseRead] at h
  | _ :: _ :: _ :: _ :: t, d, h, h3 => by
    obtain ⟨p, q, lp, lq, rfl, rfl, ⟨-, -, -, rfl⟩ | ⟨r, lr, rfl, ⟨-, -, rfl⟩ | ⟨s, ls, rfl, d2, h2, rfl⟩⟩⟩ := loose_inv h
    · simp at h3
    · simp at h3
    · rw [radix64Write, toNat_small (by omega), toNat_small (by omega), toNat_small (by omega),
        show (p * 4 + q / 16) / 4 = p by omega,
        show (p * 4 + q / 16) % 4 * 16 + (q % 16 * 16 + r / 4) / 16 = q by omega,
        show (q % 16 * 16 + r / 4) % 16 * 4 + (r % 4 * 64 + s) / 64 = r by omega,
        show (r % 4 * 64 + s) % 64 = s by omega, loose_full h2 (by simp only [List.length_cons] at h3; omega)]

/-- One character replaced: the octets agree but for three, or the text has another padding, and then one has an octet
more at the end. -/
theorem one_loose : ∀ (n : Nat) {A : Bytes} {x y : Byte} {B d d' : Bytes}, A.length ≤ n → radix64Write d = A ++ x :: B →
    looseRead (A ++ y :: B) = some d' →
    (∃ a u u' b, d = a ++ u ++ b ∧ d' = a ++ u' ++ b ∧ u.length = u'.length ∧ u.length ≤ 3) ∨
      ∃ c, d' = d ++ [c] ∨ d = d' ++ [c] := by
  intro n A x y B d d' hn h h'
  have hl : (A ++ y :: B).length = (radix64Write d).length := by rw [h]; simp
  obtain ⟨W, hW⟩ : ∃ W, W = A ++ y :: B := ⟨_, rfl⟩
  rw [← hW] at h' hl
  have hl4 : ∃ k, W.length = k * 4 := ⟨_, hl.trans (write_length d)⟩
  have hpos : W ≠ [] := by rw [hW]; simp
  rcases W with _ | ⟨e1, _ | ⟨e2, _ | ⟨e3, _ | ⟨e4, t⟩⟩⟩⟩
  · exact absurd rfl hpos
  · obtain ⟨k, hk⟩ := hl4; simp only [List.length_cons, List.length_nil] at hk; omega
  · obtain ⟨k, hk⟩ := hl4; simp only [List.length_cons, List.length_nil] at hk; omega
  · obtain ⟨k, hk⟩ := hl4; simp only [List.length_cons, List.length_nil] at hk; omega
  obtain ⟨p, q, lp, lq, h1, h2, hcase⟩ := loose_inv h'
  rcases d with _ | ⟨a, _ | ⟨b, _ | ⟨c, rest⟩⟩⟩
  · simp [radix64Write] at h
  · -- one octet
    have la := lt256 a
    simp only [radix64Write] at h
    rcases four h hW with ⟨ht, hf⟩ | ⟨-, -, -, -, A', -, hw, -⟩
    · subst ht
      rcases hcase with ⟨-, -, -, rfl⟩ | ⟨r, lr, h3, ⟨-, -, rfl⟩ | ⟨s, ls, h4, d2, -, -⟩⟩
      · exact .inl ⟨[], [a], [_], [], rfl, rfl, rfl, by simp⟩
      · have hr := (char_plain r lr).2.1
        have hsame : radix64Char (a.toNat / 4) = e1 ∧ radix64Char (a.toNat % 4 * 16) = e2 := by
          rcases hf with hf | hf | hf | hf
          · exact absurd (hf.2.1.trans h3).symm hr
          · exact absurd (hf.2.1.trans h3).symm hr
          · exact ⟨hf.1, hf.2.1⟩
          · exact absurd (hf.2.2.trans h3).symm hr
        have i1 := char_inj (by omega) lp (hsame.1.trans h1)
        have i2 := char_inj (by omega) lq (hsame.2.trans h2)
        refine .inr ⟨UInt8.ofNat (q % 16 * 16 + r / 4), .inl ?_⟩
        rw [show UInt8.ofNat (p * 4 + q / 16) = a from ofNat_eq (by omega)]
        rfl
      · have hr := (char_plain r lr).2.1
        have hs := (char_plain s ls).2.1
        rcases hf with hf | hf | hf | hf
        · exact absurd (hf.2.1.trans h3).symm hr
        · exact absurd (hf.2.1.trans h3).symm hr
        · exact absurd (hf.2.2.trans h4).symm hs
        · exact absurd (hf.2.2.trans h3).symm hr
    · simp at hw
  · -- two
    have la := lt256 a
    have lb := lt256 b
    have hb := (char_plain (b.toNat % 16 * 4) (by omega)).2.1
    simp only [radix64Write] at h
    rcases four h hW with ⟨ht, hf⟩ | ⟨-, -, -, -, A', -, hw, -⟩
    · subst ht
      rcases hcase with ⟨h3, -, -, rfl⟩ | ⟨r, lr, h3, ⟨-, -, rfl⟩ | ⟨s, ls, h4, d2, hd, rfl⟩⟩
      · have hsame : radix64Char (a.toNat / 4) = e1 ∧ radix64Char (a.toNat % 4 * 16 + b.toNat / 16) = e2 := by
          rcases hf with hf | hf | hf | hf
          · exact absurd (hf.2.1.trans h3) hb
          · exact absurd (hf.2.1.trans h3) hb
          · exact ⟨hf.1, hf.2.1⟩
          · exact absurd (hf.2.2.trans h3) hb
        have i1 := char_inj (by omega) lp (hsame.1.trans h1)
        have i2 := char_inj (by omega) lq (hsame.2.trans h2)
        refine .inr ⟨b, .inr ?_⟩
        rw [show UInt8.ofNat (p * 4 + q / 16) = a from ofNat_eq (by omega)]
        rfl
      · exact .inl ⟨[], [a, b], [_, _], [], rfl, rfl, rfl, by simp⟩
      · have hs := (char_plain s ls).2.1
        have hsame : radix64Char (a.toNat / 4) = e1 ∧ radix64Char (a.toNat % 4 * 16 + b.toNat / 16) = e2 ∧
            radix64Char (b.toNat % 16 * 4) = e3 := by
          rcases hf with hf | hf | hf | hf
          · exact absurd (hf.2.2.trans h4).symm hs
          · exact absurd (hf.2.2.trans h4).symm hs
          · exact absurd (hf.2.2.trans h4).symm hs
          · exact hf
        have i1 := char_inj (by omega) lp (hsame.1.trans h1)
        have i2 := char_inj (by omega) lq (hsame.2.1.trans h2)
        have i3 := char_inj (by omega) lr (hsame.2.2.trans h3)
        cases hd
        refine .inr ⟨UInt8.ofNat (r % 4 * 64 + s), .inl ?_⟩
        rw [show UInt8.ofNat (p * 4 + q / 16) = a from ofNat_eq (by omega),
          show UInt8.ofNat (q % 16 * 16 + r / 4) = b from ofNat_eq (by omega)]
        rfl
    · simp at hw
  · -- three or more
    have la := lt256 a
    have lb := lt256 b
    have lc := lt256 c
    have hb := (char_plain (b.toNat % 16 * 4 + c.toNat / 64) (by omega)).2.1
    have hc := (char_plain (c.toNat % 64) (by omega)).2.1
    rw [radix64Write] at h
    rcases four h hW with ⟨ht, hf⟩ | ⟨f1, f2, f3, f4, A', hA, hw, hw'⟩
    · subst ht
      rcases hcase with ⟨h3, h4, -, -⟩ | ⟨r, lr, h3, ⟨h4, hr, rfl⟩ | ⟨s, ls, h4, d2, hd, rfl⟩⟩
      · exfalso
        rcases hf with hf | hf | hf | hf
        · exact hb (hf.2.1.trans h3)
        · exact hb (hf.2.1.trans h3)
        · exact hc (hf.2.2.trans h4)
        · exact hb (hf.2.2.trans h3)
      · have hsame : radix64Char (a.toNat / 4) = e1 ∧ radix64Char (a.toNat % 4 * 16 + b.toNat / 16) = e2 ∧
            radix64Char (b.toNat % 16 * 4 + c.toNat / 64) = e3 := by
          rcases hf with hf | hf | hf | hf
          · exact absurd (hf.2.2.trans h4) hc
          · exact absurd (hf.2.2.trans h4) hc
          · exact absurd (hf.2.2.trans h4) hc
          · exact hf
        have i1 := char_inj (by omega) lp (hsame.1.trans h1)
        have i2 := char_inj (by omega) lq (hsame.2.1.trans h2)
        have i3 := char_inj (by omega) lr (hsame.2.2.trans h3)
        obtain rfl : rest = [] := write_inj hr
        refine .inr ⟨c, .inr ?_⟩
        rw [show UInt8.ofNat (p * 4 + q / 16) = a from ofNat_eq (by omega),
          show UInt8.ofNat (q % 16 * 16 + r / 4) = b from ofNat_eq (by omega)]
        rfl
      · rw [loose_write] at hd
        cases hd
        exact .inl ⟨[], [a, b, c], [_, _, _], rest, rfl, rfl, rfl, by simp⟩
    · rcases hcase with ⟨h3, -, -, -⟩ | ⟨r, lr, h3, ⟨h4, -, -⟩ | ⟨s, ls, h4, d2, hd, rfl⟩⟩
      · exact absurd (f3.trans h3) hb
      · exact absurd (f4.trans h4) hc
      · have i1 := char_inj (by omega) lp (f1.trans h1)
        have i2 := char_inj (by omega) lq (f2.trans h2)
        have i3 := char_inj (by omega) lr (f3.trans h3)
        have i4 := char_inj (by omega) ls (f4.trans h4)
        rw [show UInt8.ofNat (p * 4 + q / 16) = a from ofNat_eq (by omega),
          show UInt8.ofNat (q % 16 * 16 + r / 4) = b from ofNat_eq (by omega),
          show UInt8.ofNat (r % 4 * 64 + s) = c from ofNat_eq (by omega)]
        cases n with
        | zero => omega
        | succ n =>
          rw [hw'] at hd
          rcases one_loose n (by omega) hw hd with ⟨s, u, u', t, rfl, rfl, hu, h3⟩ | ⟨e, h | h⟩
          · exact .inl ⟨a :: b :: c :: s, u, u', t, rfl, rfl, hu, h3⟩
          · exact .inr ⟨e, .inl (by rw [h]; rfl)⟩
          · exact .inr ⟨e, .inr (by rw [h]; rfl)⟩

/-! ### lines, as in Proofs/Damage.lean -/

/-- What the octets read from a damaged text can be -/
def NearlyLoose (data d : Bytes) : Prop := (d = data ∧ data.length % 3 ≠ 0) ∨ ∃ c, d = data ++ [c] ∨ data = d ++ [c]

theorem loose_blank (ls : List Bytes) : looseBody (ls ++ [[]]) = looseBody ls := by
  have hend : ([] : Bytes) ≠ endPrivateKey := by decide +kernel
  unfold looseBody
  rcases hd : (armorData ls).2 with _ | ⟨sum, _ | ⟨tail, more⟩⟩
  · rw [data_blank ls hd]
  · rw [data_append ls [[]] (by rw [hd]; simp), hd]
    simp only [List.cons_append, List.nil_append]
    rw [if_neg hend]
  · rw [data_append ls [[]] (by rw [hd]; simp), hd]
    rfl

/-- A line feed at the end makes no difference. -/
theorem loose_end (t : Bytes) : looseDearmor (t ++ [0x0A]) = looseDearmor t := by
  have hb : ([] : Bytes) ≠ beginPrivateKey := by decide +kernel
  unfold looseDearmor
  rw [lines_end]
  by_cases h1 : (armorLines t).dropWhile (fun l => decide (l ≠ beginPrivateKey)) = []
  · rw [h1, dropWhile_append_nil _ _ _ h1]
    simp [hb]
  · rw [dropWhile_append_ne _ _ _ h1]
    generalize (armorLines t).dropWhile (fun l => decide (l ≠ beginPrivateKey)) = ls
    by_cases h2 : ls.dropWhile (fun l => decide (l ≠ [])) = []
    · rw [h2, dropWhile_append_nil _ _ _ h2]
      simp [looseBody, armorData]
    · rw [dropWhile_append_ne _ _ _ h2]
      cases h : ls.dropWhile (fun l => decide (l ≠ [])) with
      | nil => exact absurd h h2
      | cons l ls => exact loose_blank ls

theorem loose_no_begin {t : Bytes} (h : beginPrivateKey ∉ armorLines t) : looseDearmor t = none := by
  have : (armorLines t).dropWhile (fun l => decide (l ≠ beginPrivateKey)) = [] :=
    List.dropWhile_eq_nil_iff.2 fun l hl => decide_eq_true fun e => h (e ▸ hl)
  unfold looseDearmor
  rw [this]
  rfl

theorem loose_head {t : Bytes} {ls : List Bytes} (h : armorLines t = beginPrivateKey :: [] :: ls) :
    looseDearmor t = looseBody ls := by
  have hb : beginPrivateKey ≠ [] := by decide +kernel
  unfold looseDearmor
  rw [h, List.dropWhile_cons, if_neg (by simp), List.dropWhile_cons, if_pos (by simpa using hb),
    List.dropWhile_cons, if_neg (by simp)]

theorem loose_no_blank {t : Bytes} {ls : List Bytes} (h : armorLines t = beginPrivateKey :: ls) (hl : ∀ l ∈ ls, l ≠ []) :
    looseDearmor t = none := by
  have hb : beginPrivateKey ≠ [] := by decide +kernel
  have : (beginPrivateKey :: ls).dropWhile (fun l => decide (l ≠ [])) = [] :=
    List.dropWhile_eq_nil_iff.2 fun l hm => decide_eq_true ((List.mem_cons.1 hm).elim (fun e => e ▸ hb) (hl l))
  unfold looseDearmor
  rw [h, List.dropWhile_cons, if_neg (by simp), this]

theorem loose_none : ∀ {ls : List Bytes}, (∀ l ∈ ls, l.head? ≠ some 0x3D) → looseBody ls = none := by
  intro ls h
  have : (armorData ls).2 = [] := by
    induction ls with
    | nil => rfl
    | cons l ls ih =>
      rw [armorData, if_neg (h l List.mem_cons_self)]
      exact ih fun l hl => h l (List.mem_cons_of_mem _ hl)
  unfold looseBody
  rw [this]

/-- A block that is read: its sum and tail line -/
theorem loose_some {ls : List Bytes} {sum : Bytes} {rest : List Bytes} {d : Bytes} (hs : sum.head? = some 0x3D)
    (hl : ∀ l ∈ ls, l.head? ≠ some 0x3D) (h : looseBody (ls ++ sum :: rest) = some d) :
    (∃ rest', rest = endPrivateKey :: rest') ∧ looseRead ls.flatten = some d ∧ sum = 0x3D :: radix64Write (crc24Octets d) := by
  unfold looseBody at h
  rw [data_lines sum hs rest ls hl] at h
  cases rest with
  | nil => cases h
  | cons tail rest =>
    dsimp only at h
    split at h
    · rename_i ht
      split at h
      · rename_i d' hd
        split at h
        · rename_i hc
          cases h
          refine ⟨⟨rest, by rw [ht]⟩, hd, ?_⟩
          cases sum with
          | nil => cases hs
          | cons c sum =>
            cases hs
            rw [List.drop_succ_cons, List.drop_zero] at hc
            rw [loose_full hc (by rw [crc_length])]
        · cases h
      · cases h
    · cases h

theorem loose_data {data A B : Bytes} {x y : Byte} {S d : Bytes} (hne : data ≠ []) (hxy : x ≠ y)
    (hS : S = 0x3D :: radix64Write (crc24Octets data)) (hD : breakLines (radix64Write data) = A ++ x :: B)
    (h : looseBody (armorLines (A ++ y :: B) ++ [S, endPrivateKey]) = some d) : NearlyLoose data d := by
  have hp := dataPart hne
  rw [hD] at hp
  rcases first_sum (M := armorLines (A ++ y :: B)) with hM | ⟨M1, l, M2, hM, hl, h1⟩
  · obtain ⟨-, hw, hs⟩ := loose_some (by rw [hS]; rfl) hM h
    have hc : crc24 data = crc24 d := by
      rw [hS] at hs
      exact crc24Octets_inj (write_inj (List.cons.inj hs).2)
    have hw' := hp.flat.symm
    rw [lines_flatten] at hw hw'
    have len := loose_length hw
    have len' := write_length data
    by_cases hx : x = 0x0A
    · have hy : y ≠ 0x0A := fun e => hxy (hx.trans e.symm)
      rw [List.filter_append, List.filter_cons, if_neg (by simp [hx])] at hw'
      rw [List.filter_append, List.filter_cons, if_pos (decide_eq_true hy)] at hw
      rw [List.filter_append, List.filter_cons, if_pos (decide_eq_true hy), List.length_append, List.length_cons] at len
      rw [hw', List.length_append] at len'
      omega
    · rw [List.filter_append, List.filter_cons, if_pos (decide_eq_true hx)] at hw'
      by_cases hy : y = 0x0A
      · rw [List.filter_append, List.filter_cons, if_neg (by simp [hy])] at hw
        rw [List.filter_append, List.filter_cons, if_neg (by simp [hy]), List.length_append] at len
        rw [hw', List.length_append, List.length_cons] at len'
        omega
      · rw [List.filter_append, List.filter_cons, if_pos (decide_eq_true hy)] at hw
        rcases one_loose _ (Nat.le_refl _) hw' hw with ⟨a, u, u', b, rfl, rfl, hu, h3⟩ | h
        · obtain rfl := crc24_change a b u u' hu h3 hc
          refine .inl ⟨rfl, fun e => ?_⟩
          rw [loose_full hw e] at hw'
          exact hxy (List.cons.inj (List.append_cancel_left hw')).1.symm
        · exact .inr h
  · exfalso
    rw [hM, List.append_assoc, List.cons_append] at h
    obtain ⟨⟨rest, hr⟩, -⟩ := loose_some hl h1 h
    cases M2 with
    | nil =>
      have := (List.cons.inj hr).1
      rw [hS] at this
      exact end_head (by rw [← this]; rfl)
    | cons m M2 =>
      have hm : endPrivateKey ∈ armorLines (A ++ y :: B) := by
        rw [hM, ← (List.cons.inj hr).1]
        simp
      have h1 := ((lines_sublist hm).trans List.filter_sublist).count_le 0x2D
      have h2 : endPrivateKey.count 0x2D = 10 := by decide +kernel
      have h3 := List.count_eq_zero.2 hp.plain
      rw [List.count_append, List.count_cons] at h1 h3
      split at h1 <;> omega

theorem loose_place {data A B : Bytes} {x y : Byte} {d : Bytes} (hne : data ≠ []) (hxy : x ≠ y)
    (hgo : goArmor data = A ++ x :: B) (h : looseDearmor (A ++ y :: B) = some d) : NearlyLoose data d := by
  obtain ⟨S, hS⟩ : ∃ S, S = 0x3D :: radix64Write (crc24Octets data) := ⟨_, rfl⟩
  have hSn : (0x0A : Byte) ∉ S := by
    rw [hS]
    intro h
    rcases List.mem_cons.mp h with h | h
    · exact absurd h (by decide)
    · exact (write_plain _ _ h).1 rfl
  have hSl : S.length = 5 := by
    rw [hS, List.length_cons, write_length, crc_length]
  have hSh : S.head? = some 0x3D := by rw [hS]; rfl
  have hp := dataPart hne
  have bn : (0x0A : Byte) ∉ beginPrivateKey := by decide +kernel
  have en : (0x0A : Byte) ∉ endPrivateKey := by decide +kernel
  have be : beginPrivateKey ≠ endPrivateKey := by decide +kernel
  have bd : (0x2D : Byte) ∈ beginPrivateKey := by decide +kernel
  have bh : beginPrivateKey.head? ≠ some 0x3D := by decide +kernel
  have le : endPrivateKey.length = 35 := by decide +kernel
  obtain ⟨D, hD⟩ : ∃ D, D = breakLines (radix64Write data) := ⟨_, rfl⟩
  rw [← hD] at hp
  have bD : beginPrivateKey ∉ armorLines D := fun hm =>
    hp.plain (((lines_sublist hm).trans List.filter_sublist).subset bd)
  have tailLines : armorLines (D ++ 0x0A :: (S ++ 0x0A :: endPrivateKey)) = armorLines D ++ [S, endPrivateKey] := by
    rw [lines_join, lines_split _ _ hSn, lines_plain _ en]
  have bT : beginPrivateKey ∉ armorLines (D ++ 0x0A :: (S ++ 0x0A :: endPrivateKey)) := by
    rw [tailLines]
    simp only [List.mem_append, List.mem_cons, List.not_mem_nil, or_false, not_or]
    exact ⟨bD, fun e => bh (e ▸ hSh), be⟩
  have ht : beginPrivateKey ++ 0x0A :: (0x0A :: (D ++ 0x0A :: (S ++ 0x0A :: endPrivateKey))) = A ++ x :: B := by
    rw [← hgo, goArmor, hD, hS]
  clear hgo
  rcases place ht with ⟨A2, e, rfl⟩ | ⟨rfl, rfl, rfl⟩ | ⟨A', rfl, ht'⟩
  · -- in the header line
    rw [loose_no_begin] at h
    · cases h
    · rw [show A ++ y :: (A2 ++ 0x0A :: 0x0A :: (D ++ 0x0A :: (S ++ 0x0A :: endPrivateKey))) =
        (A ++ y :: A2) ++ 0x0A :: 0x0A :: (D ++ 0x0A :: (S ++ 0x0A :: endPrivateKey)) by simp, lines_join, lines_lf]
      simp only [List.mem_append, List.mem_cons, not_or]
      refine ⟨fun hm => ?_, by decide +kernel, bT⟩
      have := (lines_whole hm (by rw [e]; simp)).2
      rw [e] at this
      exact hxy (List.cons.inj (List.append_cancel_left this)).1
  · -- the line feed after it
    rw [loose_no_begin] at h
    · cases h
    · rw [show beginPrivateKey ++ y :: 0x0A :: (D ++ 0x0A :: (S ++ 0x0A :: endPrivateKey)) =
        (beginPrivateKey ++ [y]) ++ 0x0A :: (D ++ 0x0A :: (S ++ 0x0A :: endPrivateKey)) by simp, lines_join]
      simp only [List.mem_append, not_or]
      refine ⟨fun hm => ?_, bT⟩
      rw [lines_plain _ (by simpa [bn] using hxy), List.mem_singleton] at hm
      have := congrArg List.length hm
      simp at this
  clear ht
  rcases A' with _ | ⟨a, A⟩
  · -- the empty line
    obtain ⟨rfl, rfl⟩ := List.cons.inj ht'
    rw [List.append_assoc, List.cons_append, List.nil_append, loose_no_blank (ls := armorLines (y :: (D ++ 0x0A ::
      (S ++ 0x0A :: endPrivateKey)))) (lines_split _ _ bn)] at h
    · cases h
    · obtain ⟨l, ls, hl⟩ := List.exists_cons_of_ne_nil (lines_ne (D ++ 0x0A :: (S ++ 0x0A :: endPrivateKey)))
      have hy : y ≠ 0x0A := Ne.symm hxy
      rw [armorLines, if_neg hy, hl]
      intro m hm
      rcases List.mem_cons.1 hm with rfl | hm
      · exact List.cons_ne_nil _ _
      · have : m ∈ armorLines (D ++ 0x0A :: (S ++ 0x0A :: endPrivateKey)) := by
          rw [hl]
          exact List.mem_cons_of_mem _ hm
        rw [tailLines] at this
        simp only [List.mem_append, List.mem_cons, List.not_mem_nil, or_false] at this
        rcases this with h | rfl | rfl
        · exact hp.full m h
        · rw [hS]
          exact List.cons_ne_nil _ _
        · decide +kernel
  obtain ⟨rfl, ht⟩ := List.cons.inj ht'
  clear ht'
  have hd : ∀ t, looseDearmor (beginPrivateKey ++ 0x0A :: 0x0A :: t) = looseBody (armorLines t) := fun t =>
    loose_head (by rw [lines_split _ _ bn, lines_lf])
  rw [List.append_assoc, List.cons_append, List.cons_append, hd] at h
  rcases place ht with ⟨A2, e, rfl⟩ | ⟨hA, rfl, rfl⟩ | ⟨A', rfl, ht'⟩
  · -- in the data
    rw [show A ++ y :: (A2 ++ 0x0A :: (S ++ 0x0A :: endPrivateKey)) =
      (A ++ y :: A2) ++ 0x0A :: (S ++ 0x0A :: endPrivateKey) by simp, lines_join, lines_split _ _ hSn, lines_plain _ en] at h
    exact loose_data hne hxy hS (hD ▸ e) h
  · -- the line feed before the checksum
    exfalso
    obtain rfl := hA.symm
    rw [show D ++ y :: (S ++ 0x0A :: endPrivateKey) = (D ++ y :: S) ++ 0x0A :: endPrivateKey by simp, lines_join,
      lines_plain _ en, loose_none] at h
    · cases h
    · intro l hl
      obtain ⟨init, last, first, rest, h1, h2, h3⟩ := lines_append D (y :: S)
      rw [lines_plain (y :: S) (by simpa [hSn] using hxy)] at h2
      cases h2
      rw [h3] at hl
      simp only [List.mem_append, List.mem_cons, List.not_mem_nil, or_false] at hl
      rcases hl with (hl | rfl) | rfl
      · exact hp.head l (by rw [h1]; exact List.mem_append_left _ hl)
      · have hm : last ∈ armorLines D := by rw [h1]; simp
        have hl := hp.full last hm
        have := hp.head last hm
        cases last with
        | nil => exact absurd rfl hl
        | cons c last => exact this
      · exact end_head
  clear ht
  rw [show D ++ 0x0A :: A' ++ y :: B = D ++ 0x0A :: (A' ++ y :: B) by simp, lines_join] at h
  rcases place ht' with ⟨A2, e, rfl⟩ | ⟨hA, rfl, rfl⟩ | ⟨A, rfl, ht⟩
  · -- in the checksum
    rw [show A' ++ y :: (A2 ++ 0x0A :: endPrivateKey) = (A' ++ y :: A2) ++ 0x0A :: endPrivateKey by simp, lines_join,
      lines_plain _ en] at h
    have hl' : (A' ++ y :: A2).length = 5 := by
      rw [← hSl, e]
      simp
    rcases first_sum (M := armorLines (A' ++ y :: A2)) with hM | ⟨M1, l, M2, hM, hl, h1⟩
    · rw [loose_none] at h
      · cases h
      · intro l hl
        simp only [List.mem_append, List.mem_cons, List.not_mem_nil, or_false] at hl
        rcases hl with hl | hl | rfl
        · exact hp.head l hl
        · exact hM l hl
        · exact end_head
    · exfalso
      rw [hM, show armorLines D ++ ((M1 ++ l :: M2) ++ [endPrivateKey]) =
        (armorLines D ++ M1) ++ l :: (M2 ++ [endPrivateKey]) by simp] at h
      obtain ⟨-, hw, hs⟩ := loose_some hl (fun l hl => (List.mem_append.1 hl).elim (hp.head l) (h1 l)) h
      have hm : l ∈ armorLines (A' ++ y :: A2) := by rw [hM]; simp
      obtain ⟨h2, h3⟩ := lines_whole hm (by rw [hl', hs, List.length_cons, write_length, crc_length])
      rw [hM] at h2
      have : M1 = [] := by
        cases M1 with
        | nil => rfl
        | cons m M1 => simp at h2
      subst this
      rw [List.append_nil, hp.flat, loose_write] at hw
      obtain rfl := Option.some.inj hw
      rw [← hS, h3, e] at hs
      exact hxy (List.cons.inj (List.append_cancel_left hs)).1.symm
  · -- the line feed after the checksum
    exfalso
    obtain rfl := hA.symm
    have hn : (0x0A : Byte) ∉ S ++ y :: endPrivateKey := by
      simp only [List.mem_append, List.mem_cons, not_or]
      exact ⟨hSn, hxy, en⟩
    rw [lines_plain _ hn] at h
    obtain ⟨⟨_, hr⟩, -⟩ := loose_some (rest := []) (by rw [hS]; rfl) hp.head h
    cases hr
  · -- in the tail line
    exfalso
    rw [show S ++ 0x0A :: A ++ y :: B = S ++ 0x0A :: (A ++ y :: B) by simp, lines_split _ _ hSn] at h
    obtain ⟨⟨rest, hr⟩, -⟩ := loose_some hSh hp.head h
    have hm : endPrivateKey ∈ armorLines (A ++ y :: B) := by rw [hr]; simp
    have := (lines_whole hm (by rw [ht]; simp)).2
    rw [ht] at this
    exact hxy (List.cons.inj (List.append_cancel_left this)).1

/-- The same with a line feed at the end of the text, as it is printed -/
theorem loose_place_end {data A B : Bytes} {x y : Byte} {d : Bytes} (hne : data ≠ []) (hxy : x ≠ y)
    (ht : goArmor data ++ [0x0A] = A ++ x :: B) (h : looseDearmor (A ++ y :: B) = some d) : NearlyLoose data d := by
  rcases place ht with ⟨A2, e, rfl⟩ | ⟨rfl, rfl, rfl⟩ | ⟨_, _, e⟩
  · rw [show A ++ y :: (A2 ++ [0x0A]) = (A ++ y :: A2) ++ [0x0A] by simp, loose_end] at h
    exact loose_place hne hxy e h
  · exfalso
    have bn : (0x0A : Byte) ∉ beginPrivateKey := by decide +kernel
    have en : (0x0A : Byte) ∉ endPrivateKey ++ [y] := by
      simp only [List.mem_append, List.mem_singleton, not_or]
      exact ⟨by decide +kernel, hxy⟩
    have hSn : (0x0A : Byte) ∉ 0x3D :: radix64Write (crc24Octets data) := by
      intro h
      rcases List.mem_cons.mp h with h | h
      · exact absurd h (by decide)
      · exact (write_plain _ _ h).1 rfl
    have e : goArmor data ++ [y] = beginPrivateKey ++ 0x0A :: 0x0A :: (breakLines (radix64Write data) ++
        0x0A :: ((0x3D :: radix64Write (crc24Octets data)) ++ 0x0A :: (endPrivateKey ++ [y]))) := by
      unfold goArmor
      simp only [List.append_assoc, List.cons_append]
    rw [e, loose_head (ls := armorLines (breakLines (radix64Write data)) ++ [0x3D :: radix64Write (crc24Octets data),
      endPrivateKey ++ [y]]) (by rw [lines_split _ _ bn, lines_lf, lines_join, lines_split _ _ hSn, lines_plain _ en])] at h
    obtain ⟨⟨_, hr⟩, -⟩ := loose_some rfl (dataPart hne).head h
    have := congrArg List.length (List.cons.inj hr).1
    simp at this
  · exact absurd e (by simp)

theorem loose_reads (data : Bytes) : looseDearmor (goArmor data) = some data := by
  obtain ⟨ls, hf, hl, ht⟩ := goArmor_lines data
  have hb : beginPrivateKey ≠ [] := by decide +kernel
  unfold looseDearmor
  rw [ht, List.dropWhile_cons, if_neg (by simp), List.dropWhile_cons, if_pos (by simpa using hb),
    List.dropWhile_cons, if_neg (by simp)]
  simp only [looseBody]
  rw [data_lines (0x3D :: radix64Write (crc24Octets data)) rfl [endPrivateKey] ls fun l h => (hl l h).1, hf]
  simp [loose_write]

/-! ### a copy that is read -/

/-- Where the octets do not fill the last group, its last character can be another one. -/
theorem smudged : ∀ d : Bytes, d.length % 3 ≠ 0 → ∃ A x y B n, x ≠ y ∧ n < 64 ∧ y = radix64Char n ∧
    radix64Write d = A ++ x :: B ∧ looseRead (A ++ y :: B) = some d
  | [], h => by simp at h
  | [a], _ => by
    have la := lt256 a
    refine ⟨[radix64Char (a.toNat / 4)], radix64Char (a.toNat % 4 * 16), radix64Char (a.toNat % 4 * 16 + 1), [0x3D, 0x3D],
      _, fun e => ?_, by omega, rfl, rfl, ?_⟩
    · have := char_inj (by omega) (by omega) e
      omega
    · rw [List.cons_append, List.nil_append, looseRead, value_char _ (by omega), value_char _ (by omega)]
      simp only [Option.bind_eq_bind, Option.bind_some]
      rw [ofNat_eq (a := a) (by omega)]
  | [a, b], _ => by
    have la := lt256 a
    have lb := lt256 b
    refine ⟨[radix64Char (a.toNat / 4), radix64Char (a.toNat % 4 * 16 + b.toNat / 16)], radix64Char (b.toNat % 16 * 4),
      radix64Char (b.toNat % 16 * 4 + 1), [0x3D], _, fun e => ?_, by omega, rfl, rfl, ?_⟩
    · have := char_inj (by omega) (by omega) e
      omega
    · rw [List.cons_append, List.cons_append, List.nil_append, looseRead, value_char _ (by omega), value_char _ (by omega),
        value_char _ (by omega)]
      · simp only [Option.bind_eq_bind, Option.bind_some]
        rw [ofNat_eq (a := a) (by omega), ofNat_eq (a := b) (by omega)]
      · intro h
        exact absurd h (char_plain _ (by omega)).2.1
  | a :: b :: c :: rest, h => by
    have la := lt256 a
    have lb := lt256 b
    have lc := lt256 c
    obtain ⟨A, x, y, B, n, hxy, hn, hy, hw, hr⟩ := smudged rest (by simp only [List.length_cons] at h; omega)
    refine ⟨radix64Char (a.toNat / 4) :: radix64Char (a.toNat % 4 * 16 + b.toNat / 16) ::
      radix64Char (b.toNat % 16 * 4 + c.toNat / 64) :: radix64Char (c.toNat % 64) :: A, x, y, B, n, hxy, hn, hy, ?_, ?_⟩
    · rw [radix64Write, hw]
      rfl
    · simp only [List.cons_append]
      rw [looseRead, value_char _ (by omega), value_char _ (by omega), value_char _ (by omega), value_char _ (by omega), hr]
      · simp only [Option.bind_eq_bind, Option.bind_some]
        rw [ofNat_eq (a := a) (by omega), ofNat_eq (a := b) (by omega), ofNat_eq (a := c) (by omega)]
      · intro h
        exact absurd h (char_plain _ (by omega)).2.1
      · intro h
        exact absurd h (char_plain _ (by omega)).2.1

/-- The lines are broken at the same places. -/
theorem break_swap : ∀ (n : Nat) (A : Bytes) (x y : Byte) (B : Bytes), A.length ≤ n → ∃ A' B',
    breakLines (A ++ x :: B) = A' ++ x :: B' ∧ breakLines (A ++ y :: B) = A' ++ y :: B'
  | n, A, x, y, B, hn => by
    have hl : (A ++ x :: B).length = (A ++ y :: B).length := by simp
    rw [breakLines, breakLines.eq_1 (A ++ y :: B), ← hl]
    split
    · exact ⟨A, B, rfl, rfl⟩
    · by_cases hA : A.length < 64
      · have e : ∀ z, (A ++ z :: B).take 64 = A ++ z :: B.take (63 - A.length) := fun z => by
          rw [List.take_append, List.take_of_length_le (by omega), show 64 - A.length = (63 - A.length) + 1 by omega,
            List.take_succ_cons]
        have e' : ∀ z, (A ++ z :: B).drop 64 = B.drop (63 - A.length) := fun z => by
          rw [List.drop_append, List.drop_eq_nil_of_le (by omega), show 64 - A.length = (63 - A.length) + 1 by omega,
            List.drop_succ_cons, List.nil_append]
        refine ⟨A, B.take (63 - A.length) ++ 0x0A :: breakLines (B.drop (63 - A.length)), ?_, ?_⟩
        · rw [e, e', List.append_assoc, List.cons_append]
        · rw [e, e', List.append_assoc, List.cons_append]
      · cases n with
        | zero => omega
        | succ n =>
          have e : ∀ z, (A ++ z :: B).take 64 = A.take 64 := fun z => List.take_append_of_le_length (by omega)
          have e' : ∀ z, (A ++ z :: B).drop 64 = A.drop 64 ++ z :: B := fun z => List.drop_append_of_le_length (by omega)
          obtain ⟨A', B', h1, h2⟩ := break_swap n (A.drop 64) x y B (by rw [List.length_drop]; omega)
          refine ⟨A.take 64 ++ 0x0A :: A', B', ?_, ?_⟩
          · rw [e, e', h1, List.append_assoc, List.cons_append]
          · rw [e, e', h2, List.append_assoc, List.cons_append]

theorem loose_copy (data : Bytes) (h : data.length % 3 ≠ 0) : ∃ A x y B, x ≠ y ∧ goArmor data = A ++ x :: B ∧
    looseDearmor (A ++ y :: B) = some data := by
  obtain ⟨A, x, y, B, n, hxy, hn, hy, hw, hr⟩ := smudged data h
  obtain ⟨A', B', h1, h2⟩ := break_swap _ A x y B (Nat.le_refl _)
  have yp := char_plain n hn
  rw [← hy] at yp
  have hplain : ∀ c ∈ A ++ y :: B, c ≠ 0x0A ∧ c ≠ 0x2D := by
    intro c hc
    rcases List.mem_append.1 hc with hc | hc
    · exact write_plain data c (by rw [hw]; exact List.mem_append_left _ hc)
    · rcases List.mem_cons.1 hc with rfl | hc
      · exact ⟨yp.1, yp.2.2⟩
      · exact write_plain data c (by rw [hw]; exact List.mem_append_right _ (List.mem_cons_of_mem _ hc))
  have hhead : ∀ k, ((A ++ y :: B).drop (64 * k)).head? ≠ some 0x3D := by
    intro k
    have hd := write_head (16 * k) data
    rw [show 4 * (16 * k) = 64 * k by omega, hw, List.head?_drop] at hd
    rw [List.head?_drop]
    rcases Nat.lt_trichotomy (64 * k) A.length with hlt | heq | hgt
    · rw [List.getElem?_append_left hlt] at hd ⊢
      exact hd
    · rw [heq, List.getElem?_append_right (Nat.le_refl _), Nat.sub_self]
      exact fun e => yp.2.1 (Option.some.inj e)
    · rw [List.getElem?_append_right (by omega), show 64 * k - A.length = (64 * k - A.length - 1) + 1 by omega,
        List.getElem?_cons_succ] at hd ⊢
      exact hd
  obtain ⟨ls, hf, hl, ht⟩ := break_lines _ (A ++ y :: B) (Nat.le_refl _) hplain hhead
  have hsum : (0x0A : Byte) ∉ 0x3D :: radix64Write (crc24Octets data) := by
    intro h
    rcases List.mem_cons.mp h with h | h
    · exact absurd h (by decide)
    · exact (write_plain _ _ h).1 rfl
  refine ⟨beginPrivateKey ++ 0x0A :: 0x0A :: A', x, y, B' ++
    0x0A :: (0x3D :: radix64Write (crc24Octets data) ++ 0x0A :: endPrivateKey), hxy, ?_, ?_⟩
  · rw [goArmor, hw, h1]
    simp only [List.append_assoc, List.cons_append]
  · rw [show beginPrivateKey ++ 0x0A :: 0x0A :: A' ++ y :: (B' ++
      0x0A :: (0x3D :: radix64Write (crc24Octets data) ++ 0x0A :: endPrivateKey)) = beginPrivateKey ++ 0x0A :: 0x0A ::
        (breakLines (A ++ y :: B) ++ 0x0A :: (0x3D :: radix64Write (crc24Octets data) ++ 0x0A :: endPrivateKey)) by
      rw [h2]; simp only [List.append_assoc, List.cons_append]]
    rw [loose_head (ls := ls ++ [0x3D :: radix64Write (crc24Octets data), endPrivateKey]) (by
      rw [lines_split _ _ (by decide +kernel), lines_lf, ht, lines_split _ _ hsum, lines_plain endPrivateKey (by decide +kernel)])]
    simp only [looseBody]
    rw [data_lines (0x3D :: radix64Write (crc24Octets data)) rfl [endPrivateKey] ls fun l h => (hl l h).1, hf]
    simp [loose_write, hr]

end Verif.Armor
