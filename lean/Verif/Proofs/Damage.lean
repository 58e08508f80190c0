import Mathlib.Data.List.TakeWhile
import Verif.Proofs.Armor
import Verif.Proofs.Crc24
import Verif.Spec.OpenPGP

/-! What a reader makes of an armored text with one character replaced. -/

namespace Verif.Armor

open Verif.Spec Verif.Spec.OpenPGP

/-! ### radix 64 -/

theorem char_value {c : Byte} {n : Nat} (h : radix64Value c = some n) : n < 64 ∧ radix64Char n = c := by
  have all : ∀ c : Fin 256, ∀ n, radix64Value (UInt8.ofFin c) = some n → n < 64 ∧ radix64Char n = UInt8.ofFin c := by
    have : ∀ c : Fin 256, (radix64Value (UInt8.ofFin c)).all fun n => decide (n < 64 ∧ radix64Char n = UInt8.ofFin c) := by
      decide +kernel
    intro c n h
    have := this c
    rw [h] at this
    exact of_decide_eq_true this
  exact all c.toFin n h

theorem toNat_small {n : Nat} (h : n < 256) : (UInt8.ofNat n).toNat = n := by
  rw [UInt8.toNat_ofNat', Nat.mod_eq_of_lt h]

/-- The reader is strict: it takes only what the writer writes. -/
theorem write_read : ∀ {w d : Bytes}, radix64Read w = some d → radix64Write d = w := by
  intro w
  induction w using radix64Read.induct with
  | case1 => intro d h; rw [radix64Read] at h; cases h; rfl
  | case2 a b =>
    intro d h
    rw [radix64Read] at h
    simp only [Option.bind_eq_bind, Option.bind_eq_some_iff] at h
    obtain ⟨x, hx, y, hy, h⟩ := h
    obtain ⟨lx, rfl⟩ := char_value hx
    obtain ⟨ly, rfl⟩ := char_value hy
    split at h
    · cases h
      rw [radix64Write, toNat_small (by omega), show (x * 4 + y / 16) / 4 = x by omega,
        show (x * 4 + y / 16) % 4 * 16 = y by omega]
    · cases h
  | case3 a b c hne =>
    intro d h
    rw [radix64Read] at h
    · simp only [Option.bind_eq_bind, Option.bind_eq_some_iff] at h
      obtain ⟨x, hx, y, hy, z, hz, h⟩ := h
      obtain ⟨lx, rfl⟩ := char_value hx
      obtain ⟨ly, rfl⟩ := char_value hy
      obtain ⟨lz, rfl⟩ := char_value hz
      split at h
      · cases h
        rw [radix64Write, toNat_small (by omega), toNat_small (by omega), show (x * 4 + y / 16) / 4 = x by omega,
          show (x * 4 + y / 16) % 4 * 16 + (y % 16 * 16 + z / 4) / 16 = y by omega,
          show (y % 16 * 16 + z / 4) % 16 * 4 = z by omega]
      · cases h
    · exact hne
  | case4 a b c e rest h1 h2 ih =>
    intro d h
    rw [radix64Read] at h
    · simp only [Option.bind_eq_bind, Option.bind_eq_some_iff] at h
      obtain ⟨x, hx, y, hy, z, hz, v, hv, t, ht, h⟩ := h
      obtain ⟨lx, rfl⟩ := char_value hx
      obtain ⟨ly, rfl⟩ := char_value hy
      obtain ⟨lz, rfl⟩ := char_value hz
      obtain ⟨lv, rfl⟩ := char_value hv
      cases h
      rw [radix64Write, toNat_small (by omega), toNat_small (by omega), toNat_small (by omega), ih ht,
        show (x * 4 + y / 16) / 4 = x by omega,
        show (x * 4 + y / 16) % 4 * 16 + (y % 16 * 16 + z / 4) / 16 = y by omega,
        show (y % 16 * 16 + z / 4) % 16 * 4 + (z % 4 * 64 + v) / 64 = z by omega,
        show (z % 4 * 64 + v) % 64 = v by omega]
    · exact h1
    · exact h2
  | case5 w h1 h2 h3 h4 =>
    intro d h
    rw [radix64Read] at h
    · cases h
    all_goals assumption

theorem write_length : ∀ d : Bytes, (radix64Write d).length = (d.length + 2) / 3 * 4
  | [] => rfl
  | [_] => by simp [radix64Write]
  | [_, _] => by simp [radix64Write]
  | _ :: _ :: _ :: rest => by
    simp only [radix64Write, List.length_cons, write_length rest]
    omega

theorem write_inj {d d' : Bytes} (h : radix64Write d = radix64Write d') : d = d' := by
  have := read_write d
  rw [h, read_write] at this
  exact (Option.some.inj this).symm

theorem char_inj {m n : Nat} (hm : m < 64) (hn : n < 64) (h : radix64Char m = radix64Char n) : m = n := by
  have := value_char m hm
  rw [h, value_char n hn] at this
  exact (Option.some.inj this).symm

/-- Two lists that differ in one place: it is among the first four, or behind. -/
theorem four {c1 c2 c3 c4 e1 e2 e3 e4 x y : Byte} {w w' A B : Bytes} (h : c1 :: c2 :: c3 :: c4 :: w = A ++ x :: B)
    (h' : e1 :: e2 :: e3 :: e4 :: w' = A ++ y :: B) :
    (w = w' ∧ ((c2 = e2 ∧ c3 = e3 ∧ c4 = e4) ∨ (c1 = e1 ∧ c3 = e3 ∧ c4 = e4) ∨ (c1 = e1 ∧ c2 = e2 ∧ c4 = e4) ∨
      (c1 = e1 ∧ c2 = e2 ∧ c3 = e3))) ∨
    (c1 = e1 ∧ c2 = e2 ∧ c3 = e3 ∧ c4 = e4 ∧ ∃ A', A'.length < A.length ∧ w = A' ++ x :: B ∧ w' = A' ++ y :: B) := by
  rcases A with _ | ⟨a1, _ | ⟨a2, _ | ⟨a3, _ | ⟨a4, A⟩⟩⟩⟩
  · cases h; cases h'
    exact .inl ⟨rfl, .inl ⟨rfl, rfl, rfl⟩⟩
  · cases h; cases h'
    exact .inl ⟨rfl, .inr (.inl ⟨rfl, rfl, rfl⟩)⟩
  · cases h; cases h'
    exact .inl ⟨rfl, .inr (.inr (.inl ⟨rfl, rfl, rfl⟩))⟩
  · cases h; cases h'
    exact .inl ⟨rfl, .inr (.inr (.inr ⟨rfl, rfl, rfl⟩))⟩
  · simp only [List.cons_append, List.cons.injEq] at h h'
    obtain ⟨rfl, rfl, rfl, rfl, h⟩ := h
    obtain ⟨rfl, rfl, rfl, rfl, h'⟩ := h'
    exact .inr ⟨rfl, rfl, rfl, rfl, A, by simp only [List.length_cons]; omega, h, h'⟩

theorem pad2 {a p q x y : Byte} {A B : Bytes} (h : radix64Write [a] = A ++ x :: B) (h' : radix64Write [p, q] = A ++ y :: B) :
    a = p := by
  have la := lt256 a
  have lp := lt256 p
  have lq := lt256 q
  have hq := (char_plain (q.toNat % 16 * 4) (by omega)).2.1
  simp only [radix64Write] at h h'
  rcases four h h' with ⟨-, h | h | h | h⟩ | h
  · exact absurd h.2.1.symm hq
  · exact absurd h.2.1.symm hq
  · have e1 := char_inj (by omega) (by omega) h.1
    have e2 := char_inj (by omega) (by omega) h.2.1
    exact UInt8.toNat_inj.1 (by omega)
  · exact absurd h.2.2.symm hq
  · exact absurd h.2.2.1.symm hq

theorem pad3 {a p q r x y : Byte} {rest A B : Bytes} (h : radix64Write [a] = A ++ x :: B)
    (h' : radix64Write (p :: q :: r :: rest) = A ++ y :: B) : False := by
  have lq := lt256 q
  have lr := lt256 r
  have hq := (char_plain (q.toNat % 16 * 4 + r.toNat / 64) (by omega)).2.1
  have hr := (char_plain (r.toNat % 64) (by omega)).2.1
  simp only [radix64Write] at h h'
  rcases four h h' with ⟨-, h | h | h | h⟩ | h
  · exact hq h.2.1.symm
  · exact hq h.2.1.symm
  · exact hr h.2.2.symm
  · exact hq h.2.2.symm
  · exact hq h.2.2.1.symm

theorem pad4 {a b p q r x y : Byte} {rest A B : Bytes} (h : radix64Write [a, b] = A ++ x :: B)
    (h' : radix64Write (p :: q :: r :: rest) = A ++ y :: B) : a = p ∧ b = q ∧ rest = [] := by
  have la := lt256 a
  have lb := lt256 b
  have lp := lt256 p
  have lq := lt256 q
  have lr := lt256 r
  have hr := (char_plain (r.toNat % 64) (by omega)).2.1
  simp only [radix64Write] at h h'
  rcases four h h' with ⟨hw, h | h | h | h⟩ | h
  · exact absurd h.2.2.symm hr
  · exact absurd h.2.2.symm hr
  · exact absurd h.2.2.symm hr
  · have e1 := char_inj (by omega) (by omega) h.1
    have e2 := char_inj (by omega) (by omega) h.2.1
    have e3 := char_inj (by omega) (by omega) h.2.2
    exact ⟨UInt8.toNat_inj.1 (by omega), UInt8.toNat_inj.1 (by omega), write_inj hw.symm⟩
  · exact absurd h.2.2.2.1.symm hr

theorem group {a b c p q r : Byte} (h1 : radix64Char (a.toNat / 4) = radix64Char (p.toNat / 4))
    (h2 : radix64Char (a.toNat % 4 * 16 + b.toNat / 16) = radix64Char (p.toNat % 4 * 16 + q.toNat / 16))
    (h3 : radix64Char (b.toNat % 16 * 4 + c.toNat / 64) = radix64Char (q.toNat % 16 * 4 + r.toNat / 64))
    (h4 : radix64Char (c.toNat % 64) = radix64Char (r.toNat % 64)) : a = p ∧ b = q ∧ c = r := by
  have la := lt256 a
  have lb := lt256 b
  have lc := lt256 c
  have lp := lt256 p
  have lq := lt256 q
  have lr := lt256 r
  have e1 := char_inj (by omega) (by omega) h1
  have e2 := char_inj (by omega) (by omega) h2
  have e3 := char_inj (by omega) (by omega) h3
  have e4 := char_inj (by omega) (by omega) h4
  exact ⟨UInt8.toNat_inj.1 (by omega), UInt8.toNat_inj.1 (by omega), UInt8.toNat_inj.1 (by omega)⟩

/-- One character replaced: the octets agree but for three, or the text has another padding, and then one has an octet
more at the end. -/
theorem one_char : ∀ (n : Nat) {A : Bytes} {x y : Byte} {B d d' : Bytes}, A.length ≤ n → radix64Write d = A ++ x :: B →
    radix64Write d' = A ++ y :: B →
    (∃ a u u' b, d = a ++ u ++ b ∧ d' = a ++ u' ++ b ∧ u.length = u'.length ∧ u.length ≤ 3) ∨
      ∃ c, d' = d ++ [c] ∨ d = d' ++ [c]
  | _, _, _, _, _, [], _, _, h, _ => by simp [radix64Write] at h
  | _, _, _, _, _, _, [], _, _, h => by simp [radix64Write] at h
  | _, _, _, _, _, [a], [p], _, _, _ => .inl ⟨[], [a], [p], [], rfl, rfl, rfl, by simp⟩
  | _, _, _, _, _, [a], [p, q], _, h, h' => by
    obtain rfl := pad2 h h'
    exact .inr ⟨q, .inl rfl⟩
  | _, _, _, _, _, [a], p :: q :: r :: rest, _, h, h' => (pad3 h h').elim
  | _, _, _, _, _, [a, b], [p], _, h, h' => by
    obtain rfl := pad2 h' h
    exact .inr ⟨b, .inr rfl⟩
  | _, _, _, _, _, [a, b], [p, q], _, _, _ => .inl ⟨[], [a, b], [p, q], [], rfl, rfl, rfl, by simp⟩
  | _, _, _, _, _, [a, b], p :: q :: r :: rest, _, h, h' => by
    obtain ⟨rfl, rfl, rfl⟩ := pad4 h h'
    exact .inr ⟨r, .inl rfl⟩
  | _, _, _, _, _, a :: b :: c :: rest, [p], _, h, h' => (pad3 h' h).elim
  | _, _, _, _, _, a :: b :: c :: rest, [p, q], _, h, h' => by
    obtain ⟨rfl, rfl, rfl⟩ := pad4 h' h
    exact .inr ⟨c, .inr rfl⟩
  | n, A, x, y, B, a :: b :: c :: rest, p :: q :: r :: rest', hn, h, h' => by
    rw [radix64Write] at h h'
    rcases four h h' with ⟨hw, -⟩ | ⟨h1, h2, h3, h4, A', hA, hw, hw'⟩
    · obtain rfl := write_inj hw
      exact .inl ⟨[], [a, b, c], [p, q, r], rest, rfl, rfl, rfl, by simp⟩
    · obtain ⟨rfl, rfl, rfl⟩ := group h1 h2 h3 h4
      cases n with
      | zero => omega
      | succ n =>
        rcases one_char n (by omega) hw hw' with ⟨s, u, u', t, rfl, rfl, hu, h3⟩ | ⟨e, h | h⟩
        · exact .inl ⟨a :: b :: c :: s, u, u', t, rfl, rfl, hu, h3⟩
        · exact .inr ⟨e, .inl (by rw [h]; rfl)⟩
        · exact .inr ⟨e, .inr (by rw [h]; rfl)⟩

/-! ### packets -/

theorem split_append {n : Nat} {b l r : Bytes} (h : split n b = some (l, r)) (e : Bytes) : split n (b ++ e) = some (l, r ++ e) := by
  unfold split at h ⊢
  split at h
  · cases h
  · rename_i hn
    cases h
    rw [if_neg (by rw [List.length_append]; omega), List.take_append_of_le_length (by omega),
      List.drop_append_of_le_length (by omega)]

theorem readLength_append {b r : Bytes} {n : Nat} (h : readLength b = some (n, r)) (e : Bytes) :
    readLength (b ++ e) = some (n, r ++ e) := by
  cases b with
  | nil => cases h
  | cons a b =>
    rw [List.cons_append]
    simp only [readLength] at h ⊢
    split at h
    · rename_i ha
      cases h
      rw [if_pos ha]
    · rename_i ha
      rw [if_neg ha]
      split at h
      · rename_i hb
        rw [if_pos hb]
        cases b with
        | nil => cases h
        | cons c b => cases h; rfl
      · rename_i hb
        rw [if_neg hb]
        split at h
        · rename_i hc
          rw [if_pos hc]
          simp only [Option.bind_eq_bind, Option.bind_eq_some_iff] at h ⊢
          obtain ⟨⟨l, t⟩, h1, h2⟩ := h
          cases h2
          exact ⟨_, split_append h1 e, rfl⟩
        · cases h

theorem readPacket_append {b r : Bytes} {p : Nat × Bytes} (h : readPacket b = some (p, r)) (e : Bytes) :
    readPacket (b ++ e) = some (p, r ++ e) := by
  cases b with
  | nil => cases h
  | cons a b =>
    rw [List.cons_append]
    simp only [readPacket] at h ⊢
    split at h
    · cases h
    · rename_i ha
      rw [if_neg ha]
      simp only [Option.bind_eq_bind, Option.bind_eq_some_iff] at h
      obtain ⟨⟨n, t⟩, h1, ⟨l, t'⟩, h2, h3⟩ := h
      obtain ⟨rfl, rfl⟩ := Prod.mk.inj (Option.some.inj h3)
      rw [readLength_append h1 e]
      simp only [Option.bind_eq_bind, Option.bind_some]
      rw [split_append h2 e]
      simp only [Option.bind_some]

theorem readPacket_one (c : Byte) : readPacket [c] = none := by
  simp only [readPacket]
  split <;> rfl

theorem packets_one : ∀ (n m : Nat) {b : Bytes} {ps : List (Nat × Bytes)} (c : Byte),
    readPacketsFuel n b = some ps → readPacketsFuel m (b ++ [c]) = none
  | n, 0, b, ps, c, _ => by
    rw [readPacketsFuel, if_neg (by simp)]
  | 0, m + 1, b, ps, c, h => by
    rw [readPacketsFuel] at h
    split at h
    · rename_i hb
      subst hb
      rw [readPacketsFuel, if_neg (by simp), List.nil_append, readPacket_one]
      rfl
    · cases h
  | n + 1, m + 1, b, ps, c, h => by
    rw [readPacketsFuel] at h ⊢
    rw [if_neg (by simp)]
    split at h
    · rename_i hb
      subst hb
      rw [List.nil_append, readPacket_one]
      rfl
    · simp only [Option.bind_eq_bind, Option.bind_eq_some_iff] at h
      obtain ⟨⟨p, r⟩, h1, qs, h2, -⟩ := h
      rw [readPacket_append h1]
      simp only [Option.bind_eq_bind, Option.bind_some]
      rw [packets_one n m c h2]
      rfl

theorem readPackets_one {b : Bytes} {ps : List (Nat × Bytes)} (c : Byte) (h : readPackets b = some ps) :
    readPackets (b ++ [c]) = none := packets_one _ _ c h

/-! ### lines -/

theorem lines_join (l t : Bytes) : armorLines (l ++ 0x0A :: t) = armorLines l ++ armorLines t := by
  obtain ⟨init, last, first, rest, h1, h2, h3⟩ := lines_append l (0x0A :: t)
  rw [lines_lf] at h2
  cases h2
  rw [h3, h1, List.append_nil, List.append_assoc]
  rfl

theorem lines_flatten (t : Bytes) : (armorLines t).flatten = t.filter fun c => decide (c ≠ 0x0A) := by
  induction t with
  | nil => rfl
  | cons b t ih =>
    by_cases hb : b = 0x0A
    · subst hb
      rw [lines_lf, List.flatten_cons, ih, List.filter_cons, if_neg (by decide)]
      rfl
    · obtain ⟨l, ls, h⟩ := List.exists_cons_of_ne_nil (lines_ne t)
      rw [armorLines, if_neg hb, h, List.filter_cons, if_pos (decide_eq_true hb), ← ih, h]
      rfl

theorem lines_sublist {l t : Bytes} (h : l ∈ armorLines t) : l.Sublist (t.filter fun c => decide (c ≠ 0x0A)) := by
  rw [← lines_flatten]
  exact List.sublist_flatten_of_mem h

theorem lines_whole {l t : Bytes} (h : l ∈ armorLines t) (hl : t.length ≤ l.length) : armorLines t = [t] ∧ l = t := by
  have h1 := (lines_sublist h).length_le
  by_cases hn : (0x0A : Byte) ∈ t
  · have : (t.filter fun c => decide (c ≠ 0x0A)).length < t.length := by
      refine lt_of_le_of_ne (List.length_filter_le _ _) fun e => ?_
      have := List.length_filter_eq_length_iff.1 e _ hn
      simp at this
    omega
  · rw [lines_plain t hn] at h ⊢
    exact ⟨rfl, List.mem_singleton.1 h⟩

theorem break_ne : ∀ (n : Nat) (w : Bytes), w.length ≤ n → w ≠ [] → (∀ c ∈ w, c ≠ 0x0A) →
    ∀ l ∈ armorLines (breakLines w), l ≠ []
  | n, w, hn, hne, hw => by
    rw [breakLines]
    split
    · rw [lines_plain w fun h => hw _ h rfl]
      intro l hl
      rwa [List.mem_singleton.1 hl]
    · rename_i hlen
      cases n with
      | zero => omega
      | succ n =>
        rw [lines_split _ _ fun h => hw _ (List.mem_of_mem_take h) rfl]
        intro l hl
        rcases List.mem_cons.1 hl with rfl | hl
        · intro e
          have := congrArg List.length e
          rw [List.length_take, List.length_nil] at this
          omega
        · refine break_ne n (w.drop 64) (by rw [List.length_drop]; omega) (fun e => ?_)
            (fun c hc => hw c (List.mem_of_mem_drop hc)) l hl
          have := congrArg List.length e
          rw [List.length_drop, List.length_nil] at this
          omega

/-- The data part of an armored text. -/
structure DataPart (data D : Bytes) : Prop where
  flat : (armorLines D).flatten = radix64Write data
  head : ∀ l ∈ armorLines D, l.head? ≠ some 0x3D
  plain : (0x2D : Byte) ∉ D
  full : ∀ l ∈ armorLines D, l ≠ []

theorem dataPart {data : Bytes} (h : data ≠ []) : DataPart data (breakLines (radix64Write data)) := by
  obtain ⟨ls, hf, hl, ht⟩ := break_lines _ (radix64Write data) (Nat.le_refl _) (write_plain data)
    (fun k => by rw [show 64 * k = 4 * (16 * k) by omega]; exact write_head _ data)
  have e : armorLines (breakLines (radix64Write data)) = ls := by
    have := ht []
    rw [lines_join] at this
    exact List.append_cancel_right this
  refine ⟨e ▸ hf, fun l h => (hl l (e ▸ h)).1, fun hm => ?_, break_ne _ _ (Nat.le_refl _) (fun e => ?_)
    fun c hc => (write_plain data c hc).1⟩
  · have : (0x2D : Byte) ∈ radix64Write data := by
      rw [← hf, ← e, lines_flatten]
      exact List.mem_filter.2 ⟨hm, by decide⟩
    exact (write_plain data _ this).2 rfl
  · have := read_write data
    rw [e] at this
    exact h (Option.some.inj this).symm

/-! ### readers -/

theorem no_begin {t : Bytes} (h : beginPrivateKey ∉ armorLines t) : dearmor t = none := by
  have : (armorLines t).dropWhile (fun l => decide (l ≠ beginPrivateKey)) = [] :=
    List.dropWhile_eq_nil_iff.2 fun l hl => decide_eq_true fun e => h (e ▸ hl)
  unfold dearmor
  rw [this]
  rfl

theorem dearmor_head {t : Bytes} {ls : List Bytes} (h : armorLines t = beginPrivateKey :: [] :: ls) :
    dearmor t = armorBody ls := by
  have hb : beginPrivateKey ≠ [] := by decide +kernel
  unfold dearmor
  rw [h, List.dropWhile_cons, if_neg (by simp), List.dropWhile_cons, if_pos (by simpa using hb),
    List.dropWhile_cons, if_neg (by simp)]

theorem no_blank {t : Bytes} {ls : List Bytes} (h : armorLines t = beginPrivateKey :: ls) (hl : ∀ l ∈ ls, l ≠ []) :
    dearmor t = none := by
  have hb : beginPrivateKey ≠ [] := by decide +kernel
  have : (beginPrivateKey :: ls).dropWhile (fun l => decide (l ≠ [])) = [] :=
    List.dropWhile_eq_nil_iff.2 fun l hm => decide_eq_true ((List.mem_cons.1 hm).elim (fun e => e ▸ hb) (hl l))
  unfold dearmor
  rw [h, List.dropWhile_cons, if_neg (by simp), this]

theorem data_none : ∀ {ls : List Bytes}, (∀ l ∈ ls, l.head? ≠ some 0x3D) → armorBody ls = none := by
  intro ls h
  have : (armorData ls).2 = [] := by
    induction ls with
    | nil => rfl
    | cons l ls ih =>
      rw [armorData, if_neg (h l List.mem_cons_self)]
      exact ih fun l hl => h l (List.mem_cons_of_mem _ hl)
  unfold armorBody
  rw [this]

/-- A block that is read: its sum and tail line -/
theorem body_some {ls : List Bytes} {sum : Bytes} {rest : List Bytes} {d : Bytes} (hs : sum.head? = some 0x3D)
    (hl : ∀ l ∈ ls, l.head? ≠ some 0x3D) (h : armorBody (ls ++ sum :: rest) = some d) :
    (∃ rest', rest = endPrivateKey :: rest') ∧ radix64Write d = ls.flatten ∧ sum = 0x3D :: radix64Write (crc24Octets d) := by
  unfold armorBody at h
  rw [data_lines sum hs rest ls hl] at h
  cases rest with
  | nil => cases h
  | cons tail rest =>
    dsimp only at h
    split at h
    · rename_i ht
      split at h
      · rename_i d' hd
        split at h
        · rename_i hc
          cases h
          refine ⟨⟨rest, by rw [ht]⟩, write_read hd, ?_⟩
          cases sum with
          | nil => cases hs
          | cons c sum =>
            cases hs
            rw [List.drop_succ_cons, List.drop_zero] at hc
            rw [write_read hc]
        · cases h
      · cases h
    · cases h

theorem first_sum : ∀ {M : List Bytes}, (∀ l ∈ M, l.head? ≠ some 0x3D) ∨
    ∃ M1 l M2, M = M1 ++ l :: M2 ∧ l.head? = some 0x3D ∧ ∀ l ∈ M1, l.head? ≠ some 0x3D
  | [] => .inl fun _ h => absurd h List.not_mem_nil
  | m :: M => by
    by_cases hm : m.head? = some 0x3D
    · exact .inr ⟨[], m, M, rfl, hm, fun _ h => absurd h List.not_mem_nil⟩
    · rcases first_sum (M := M) with h | ⟨M1, l, M2, rfl, hl, h⟩
      · exact .inl fun l hl => (List.mem_cons.1 hl).elim (fun e => e ▸ hm) (h l)
      · exact .inr ⟨m :: M1, l, M2, rfl, hl, fun l hl => (List.mem_cons.1 hl).elim (fun e => e ▸ hm) (h l)⟩

/-- Where a replaced character can be -/
theorem place : ∀ {A P : Bytes} {x z : Byte} {B Q : Bytes}, P ++ z :: Q = A ++ x :: B →
    (∃ A2, P = A ++ x :: A2 ∧ B = A2 ++ z :: Q) ∨ (A = P ∧ x = z ∧ B = Q) ∨ ∃ A2, A = P ++ z :: A2 ∧ Q = A2 ++ x :: B
  | [], [], _, _, _, _, h => by cases h; exact .inr (.inl ⟨rfl, rfl, rfl⟩)
  | [], p :: P, _, _, _, _, h => by cases h; exact .inl ⟨P, rfl, rfl⟩
  | a :: A, [], _, _, _, _, h => by cases h; exact .inr (.inr ⟨A, rfl, rfl⟩)
  | a :: A, p :: P, _, _, _, _, h => by
    simp only [List.cons_append, List.cons.injEq] at h
    obtain ⟨rfl, h⟩ := h
    rcases place h with ⟨A2, rfl, rfl⟩ | ⟨rfl, rfl, rfl⟩ | ⟨A2, rfl, rfl⟩
    · exact .inl ⟨A2, rfl, rfl⟩
    · exact .inr (.inl ⟨rfl, rfl, rfl⟩)
    · exact .inr (.inr ⟨A2, rfl, rfl⟩)

/-- What the octets read from a damaged text can be -/
def Nearly (data d : Bytes) : Prop := ∃ c, d = data ++ [c] ∨ data = d ++ [c]

theorem end_head : endPrivateKey.head? ≠ some 0x3D := by decide +kernel

theorem in_data {data A B : Bytes} {x y : Byte} {S d : Bytes} (hne : data ≠ []) (hxy : x ≠ y)
    (hS : S = 0x3D :: radix64Write (crc24Octets data)) (hD : breakLines (radix64Write data) = A ++ x :: B)
    (h : armorBody (armorLines (A ++ y :: B) ++ [S, endPrivateKey]) = some d) : Nearly data d := by
  have hp := dataPart hne
  rw [hD] at hp
  rcases first_sum (M := armorLines (A ++ y :: B)) with hM | ⟨M1, l, M2, hM, hl, h1⟩
  · obtain ⟨-, hw, hs⟩ := body_some (by rw [hS]; rfl) hM h
    have hc : crc24 data = crc24 d := by
      rw [hS] at hs
      exact crc24Octets_inj (write_inj (List.cons.inj hs).2)
    have hw' := hp.flat.symm
    rw [lines_flatten] at hw hw'
    have len := write_length d
    have len' := write_length data
    by_cases hx : x = 0x0A
    · have hy : y ≠ 0x0A := fun e => hxy (hx.trans e.symm)
      rw [List.filter_append, List.filter_cons, if_neg (by simp [hx])] at hw'
      rw [List.filter_append, List.filter_cons, if_pos (decide_eq_true hy)] at hw
      rw [hw, List.length_append, List.length_cons] at len
      rw [hw', List.length_append] at len'
      omega
    · rw [List.filter_append, List.filter_cons, if_pos (decide_eq_true hx)] at hw'
      by_cases hy : y = 0x0A
      · rw [List.filter_append, List.filter_cons, if_neg (by simp [hy])] at hw
        rw [hw, List.length_append] at len
        rw [hw', List.length_append, List.length_cons] at len'
        omega
      · rw [List.filter_append, List.filter_cons, if_pos (decide_eq_true hy)] at hw
        rcases one_char _ (Nat.le_refl _) hw' hw with ⟨a, u, u', b, rfl, rfl, hu, h3⟩ | h
        · rw [crc24_change a b u u' hu h3 hc, hw] at hw'
          exact absurd (List.cons.inj (List.append_cancel_left hw')).1.symm hxy
        · exact h
  · exfalso
    rw [hM, List.append_assoc, List.cons_append] at h
    obtain ⟨⟨rest, hr⟩, -⟩ := body_some hl h1 h
    cases M2 with
    | nil =>
      have := (List.cons.inj hr).1
      rw [hS] at this
      exact end_head (by rw [← this]; rfl)
    | cons m M2 =>
      have hm : endPrivateKey ∈ armorLines (A ++ y :: B) := by
        rw [hM, ← (List.cons.inj hr).1]
        simp
      have h1 := ((lines_sublist hm).trans List.filter_sublist).count_le 0x2D
      have h2 : endPrivateKey.count 0x2D = 10 := by decide +kernel
      have h3 := List.count_eq_zero.2 hp.plain
      rw [List.count_append, List.count_cons] at h1 h3
      split at h1 <;> omega

theorem crc_length (d : Bytes) : (crc24Octets d).length = 3 := by simp [crc24Octets]

theorem one_place {data A B : Bytes} {x y : Byte} {d : Bytes} (hne : data ≠ []) (hxy : x ≠ y)
    (hgo : goArmor data = A ++ x :: B) (h : dearmor (A ++ y :: B) = some d) : Nearly data d := by
  obtain ⟨S, hS⟩ : ∃ S, S = 0x3D :: radix64Write (crc24Octets data) := ⟨_, rfl⟩
  have hSn : (0x0A : Byte) ∉ S := by
    rw [hS]
    intro h
    rcases List.mem_cons.mp h with h | h
    · exact absurd h (by decide)
    · exact (write_plain _ _ h).1 rfl
  have hSl : S.length = 5 := by
    rw [hS, List.length_cons, write_length, crc_length]
  have hSh : S.head? = some 0x3D := by rw [hS]; rfl
  have hp := dataPart hne
  have bn : (0x0A : Byte) ∉ beginPrivateKey := by decide +kernel
  have en : (0x0A : Byte) ∉ endPrivateKey := by decide +kernel
  have be : beginPrivateKey ≠ endPrivateKey := by decide +kernel
  have bd : (0x2D : Byte) ∈ beginPrivateKey := by decide +kernel
  have bh : beginPrivateKey.head? ≠ some 0x3D := by decide +kernel
  have le : endPrivateKey.length = 35 := by decide +kernel
  obtain ⟨D, hD⟩ : ∃ D, D = breakLines (radix64Write data) := ⟨_, rfl⟩
  rw [← hD] at hp
  have bD : beginPrivateKey ∉ armorLines D := fun hm =>
    hp.plain (((lines_sublist hm).trans List.filter_sublist).subset bd)
  have tailLines : armorLines (D ++ 0x0A :: (S ++ 0x0A :: endPrivateKey)) = armorLines D ++ [S, endPrivateKey] := by
    rw [lines_join, lines_split _ _ hSn, lines_plain _ en]
  have bT : beginPrivateKey ∉ armorLines (D ++ 0x0A :: (S ++ 0x0A :: endPrivateKey)) := by
    rw [tailLines]
    simp only [List.mem_append, List.mem_cons, List.not_mem_nil, or_false, not_or]
    exact ⟨bD, fun e => bh (e ▸ hSh), be⟩
  have ht : beginPrivateKey ++ 0x0A :: (0x0A :: (D ++ 0x0A :: (S ++ 0x0A :: endPrivateKey))) = A ++ x :: B := by
    rw [← hgo, goArmor, hD, hS]
  clear hgo
  rcases place ht with ⟨A2, e, rfl⟩ | ⟨rfl, rfl, rfl⟩ | ⟨A', rfl, ht'⟩
  · -- in the header line
    rw [no_begin] at h
    · cases h
    · rw [show A ++ y :: (A2 ++ 0x0A :: 0x0A :: (D ++ 0x0A :: (S ++ 0x0A :: endPrivateKey))) =
        (A ++ y :: A2) ++ 0x0A :: 0x0A :: (D ++ 0x0A :: (S ++ 0x0A :: endPrivateKey)) by simp, lines_join, lines_lf]
      simp only [List.mem_append, List.mem_cons, not_or]
      refine ⟨fun hm => ?_, by decide +kernel, bT⟩
      have := (lines_whole hm (by rw [e]; simp)).2
      rw [e] at this
      exact hxy (List.cons.inj (List.append_cancel_left this)).1
  · -- the line feed after it
    rw [no_begin] at h
    · cases h
    · rw [show beginPrivateKey ++ y :: 0x0A :: (D ++ 0x0A :: (S ++ 0x0A :: endPrivateKey)) =
        (beginPrivateKey ++ [y]) ++ 0x0A :: (D ++ 0x0A :: (S ++ 0x0A :: endPrivateKey)) by simp, lines_join]
      simp only [List.mem_append, not_or]
      refine ⟨fun hm => ?_, bT⟩
      rw [lines_plain _ (by simpa [bn] using hxy), List.mem_singleton] at hm
      have := congrArg List.length hm
      simp at this
  clear ht
  rcases A' with _ | ⟨a, A⟩
  · -- the empty line
    obtain ⟨rfl, rfl⟩ := List.cons.inj ht'
    rw [List.append_assoc, List.cons_append, List.nil_append, no_blank (ls := armorLines (y :: (D ++ 0x0A ::
      (S ++ 0x0A :: endPrivateKey)))) (lines_split _ _ bn)] at h
    · cases h
    · obtain ⟨l, ls, hl⟩ := List.exists_cons_of_ne_nil (lines_ne (D ++ 0x0A :: (S ++ 0x0A :: endPrivateKey)))
      have hy : y ≠ 0x0A := Ne.symm hxy
      rw [armorLines, if_neg hy, hl]
      intro m hm
      rcases List.mem_cons.1 hm with rfl | hm
      · exact List.cons_ne_nil _ _
      · have : m ∈ armorLines (D ++ 0x0A :: (S ++ 0x0A :: endPrivateKey)) := by
          rw [hl]
          exact List.mem_cons_of_mem _ hm
        rw [tailLines] at this
        simp only [List.mem_append, List.mem_cons, List.not_mem_nil, or_false] at this
        rcases this with h | rfl | rfl
        · exact hp.full m h
        · rw [hS]
          exact List.cons_ne_nil _ _
        · decide +kernel
  obtain ⟨rfl, ht⟩ := List.cons.inj ht'
  clear ht'
  have hd : ∀ t, dearmor (beginPrivateKey ++ 0x0A :: 0x0A :: t) = armorBody (armorLines t) := fun t =>
    dearmor_head (by rw [lines_split _ _ bn, lines_lf])
  rw [List.append_assoc, List.cons_append, List.cons_append, hd] at h
  rcases place ht with ⟨A2, e, rfl⟩ | ⟨hA, rfl, rfl⟩ | ⟨A', rfl, ht'⟩
  · -- in the data
    rw [show A ++ y :: (A2 ++ 0x0A :: (S ++ 0x0A :: endPrivateKey)) =
      (A ++ y :: A2) ++ 0x0A :: (S ++ 0x0A :: endPrivateKey) by simp, lines_join, lines_split _ _ hSn, lines_plain _ en] at h
    exact in_data hne hxy hS (hD ▸ e) h
  · -- the line feed before the checksum
    exfalso
    obtain rfl := hA.symm
    rw [show D ++ y :: (S ++ 0x0A :: endPrivateKey) = (D ++ y :: S) ++ 0x0A :: endPrivateKey by simp, lines_join,
      lines_plain _ en, data_none] at h
    · cases h
    · intro l hl
      obtain ⟨init, last, first, rest, h1, h2, h3⟩ := lines_append D (y :: S)
      rw [lines_plain (y :: S) (by simpa [hSn] using hxy)] at h2
      cases h2
      rw [h3] at hl
      simp only [List.mem_append, List.mem_cons, List.not_mem_nil, or_false] at hl
      rcases hl with (hl | rfl) | rfl
      · exact hp.head l (by rw [h1]; exact List.mem_append_left _ hl)
      · have hm : last ∈ armorLines D := by rw [h1]; simp
        have hl := hp.full last hm
        have := hp.head last hm
        cases last with
        | nil => exact absurd rfl hl
        | cons c last => exact this
      · exact end_head
  clear ht
  rw [show D ++ 0x0A :: A' ++ y :: B = D ++ 0x0A :: (A' ++ y :: B) by simp, lines_join] at h
  rcases place ht' with ⟨A2, e, rfl⟩ | ⟨hA, rfl, rfl⟩ | ⟨A, rfl, ht⟩
  · -- in the checksum
    rw [show A' ++ y :: (A2 ++ 0x0A :: endPrivateKey) = (A' ++ y :: A2) ++ 0x0A :: endPrivateKey by simp, lines_join,
      lines_plain _ en] at h
    have hl' : (A' ++ y :: A2).length = 5 := by
      rw [← hSl, e]
      simp
    rcases first_sum (M := armorLines (A' ++ y :: A2)) with hM | ⟨M1, l, M2, hM, hl, h1⟩
    · rw [data_none] at h
      · cases h
      · intro l hl
        simp only [List.mem_append, List.mem_cons, List.not_mem_nil, or_false] at hl
        rcases hl with hl | hl | rfl
        · exact hp.head l hl
        · exact hM l hl
        · exact end_head
    · exfalso
      rw [hM, show armorLines D ++ ((M1 ++ l :: M2) ++ [endPrivateKey]) =
        (armorLines D ++ M1) ++ l :: (M2 ++ [endPrivateKey]) by simp] at h
      obtain ⟨-, hw, hs⟩ := body_some hl (fun l hl => (List.mem_append.1 hl).elim (hp.head l) (h1 l)) h
      have hm : l ∈ armorLines (A' ++ y :: A2) := by rw [hM]; simp
      obtain ⟨h2, h3⟩ := lines_whole hm (by rw [hl', hs, List.length_cons, write_length, crc_length])
      rw [hM] at h2
      have : M1 = [] := by
        cases M1 with
        | nil => rfl
        | cons m M1 => simp at h2
      subst this
      rw [List.append_nil, hp.flat] at hw
      rw [write_inj hw, ← hS, h3, e] at hs
      exact hxy (List.cons.inj (List.append_cancel_left hs)).1.symm
  · -- the line feed after the checksum
    exfalso
    obtain rfl := hA.symm
    have hn : (0x0A : Byte) ∉ S ++ y :: endPrivateKey := by
      simp only [List.mem_append, List.mem_cons, not_or]
      exact ⟨hSn, hxy, en⟩
    rw [lines_plain _ hn] at h
    obtain ⟨⟨_, hr⟩, -⟩ := body_some (rest := []) (by rw [hS]; rfl) hp.head h
    cases hr
  · -- in the tail line
    exfalso
    rw [show S ++ 0x0A :: A ++ y :: B = S ++ 0x0A :: (A ++ y :: B) by simp, lines_split _ _ hSn] at h
    obtain ⟨⟨rest, hr⟩, -⟩ := body_some hSh hp.head h
    have hm : endPrivateKey ∈ armorLines (A ++ y :: B) := by rw [hr]; simp
    have := (lines_whole hm (by rw [ht]; simp)).2
    rw [ht] at this
    exact hxy (List.cons.inj (List.append_cancel_left this)).1

/-- The same with a line feed at the end of the text, as it is printed -/
theorem one_place_end {data A B : Bytes} {x y : Byte} {d : Bytes} (hne : data ≠ []) (hxy : x ≠ y)
    (ht : goArmor data ++ [0x0A] = A ++ x :: B) (h : dearmor (A ++ y :: B) = some d) : Nearly data d := by
  rcases place ht with ⟨A2, e, rfl⟩ | ⟨rfl, rfl, rfl⟩ | ⟨_, _, e⟩
  · rw [show A ++ y :: (A2 ++ [0x0A]) = (A ++ y :: A2) ++ [0x0A] by simp, dearmor_end] at h
    exact one_place hne hxy e h
  · exfalso
    have bn : (0x0A : Byte) ∉ beginPrivateKey := by decide +kernel
    have en : (0x0A : Byte) ∉ endPrivateKey ++ [y] := by
      simp only [List.mem_append, List.mem_singleton, not_or]
      exact ⟨by decide +kernel, hxy⟩
    have hSn : (0x0A : Byte) ∉ 0x3D :: radix64Write (crc24Octets data) := by
      intro h
      rcases List.mem_cons.mp h with h | h
      · exact absurd h (by decide)
      · exact (write_plain _ _ h).1 rfl
    have e : goArmor data ++ [y] = beginPrivateKey ++ 0x0A :: 0x0A :: (breakLines (radix64Write data) ++
        0x0A :: ((0x3D :: radix64Write (crc24Octets data)) ++ 0x0A :: (endPrivateKey ++ [y]))) := by
      unfold goArmor
      simp only [List.append_assoc, List.cons_append]
    rw [e, dearmor_head (ls := armorLines (breakLines (radix64Write data)) ++ [0x3D :: radix64Write (crc24Octets data),
      endPrivateKey ++ [y]]) (by rw [lines_split _ _ bn, lines_lf, lines_join, lines_split _ _ hSn, lines_plain _ en])] at h
    obtain ⟨⟨_, hr⟩, -⟩ := body_some rfl (dataPart hne).head h
    have := congrArg List.length (List.cons.inj hr).1
    simp at this
  · exact absurd e (by simp)

end Verif.Armor
