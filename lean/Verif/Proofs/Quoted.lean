import Verif.Model.Cli.Format
import Verif.Spec.Quoted

/-! # Lemmas on texts in quotes -/

namespace Verif.Proofs

open Verif.Model Verif.Model.Cli Verif.Spec

/-! ## UTF-8 -/

theorem utf8First_cases {b size lo hi : Nat} (h : utf8First b = some (size, lo, hi)) :
    size = 2 ∧ 0xC2 ≤ b ∧ b ≤ 0xDF ∧ lo = 0x80 ∧ hi = 0xBF ∨
    size = 3 ∧ 0xE0 ≤ b ∧ b ≤ 0xEF ∧ 0x80 ≤ lo ∧ hi ≤ 0xBF ∧ (b = 0xE0 → lo = 0xA0) ∧ (b = 0xED → hi = 0x9F) ∨
    size = 4 ∧ 0xF0 ≤ b ∧ b ≤ 0xF4 ∧ 0x80 ≤ lo ∧ hi ≤ 0xBF ∧ (b = 0xF0 → lo = 0x90) ∧ (b = 0xF4 → hi = 0x8F) := by
  unfold utf8First at h
  by_cases c1 : 0xC2 ≤ b ∧ b ≤ 0xDF
  · rw [if_pos c1] at h; simp at h; omega
  rw [if_neg c1] at h
  by_cases c2 : b = 0xE0
  · rw [if_pos c2] at h; simp at h; omega
  rw [if_neg c2] at h
  by_cases c3 : b = 0xED
  · rw [if_pos c3] at h; simp at h; omega
  rw [if_neg c3] at h
  by_cases c4 : 0xE1 ≤ b ∧ b ≤ 0xEF
  · rw [if_pos c4] at h; simp at h; omega
  rw [if_neg c4] at h
  by_cases c5 : b = 0xF0
  · rw [if_pos c5] at h; simp at h; omega
  rw [if_neg c5] at h
  by_cases c6 : 0xF1 ≤ b ∧ b ≤ 0xF3
  · rw [if_pos c6] at h; simp at h; omega
  rw [if_neg c6] at h
  by_cases c7 : b = 0xF4
  · rw [if_pos c7] at h; simp at h; omega
  rw [if_neg c7] at h
  cases h

theorem byte_eq {b : Byte} {n : Nat} (h : n = b.toNat) : UInt8.ofNat n = b := by
  rw [h]; simp

theorem decode_cases (b0 : Byte) (rest : Bytes) (h : 0x80 ≤ b0.toNat) :
    decodeRune (b0 :: rest) = (runeError, 1) ∨
    ∃ r rest', Scalar r ∧ 0x80 ≤ r ∧ b0 :: rest = utf8 r ++ rest' ∧ decodeRune (b0 :: rest) = (r, (utf8 r).length) ∧
      2 ≤ (utf8 r).length := by
  rw [decodeRune, if_neg (by omega)]
  rcases hf : utf8First b0.toNat with - | ⟨size, lo, hi⟩
  · exact .inl rfl
  dsimp only
  by_cases hlen : (b0 :: rest).length < size
  · rw [if_pos hlen]; exact .inl rfl
  rw [if_neg hlen]
  by_cases h1 : (rest.getD 0 0).toNat < lo ∨ hi < (rest.getD 0 0).toNat
  · rw [if_pos h1]; exact .inl rfl
  rw [if_neg h1]
  have hc := utf8First_cases hf
  by_cases hs2 : size ≤ 2
  · rw [if_pos hs2]
    obtain ⟨b1, rest, rfl⟩ : ∃ b1 rest', rest = b1 :: rest' := by
      match rest, hlen with
      | [], hlen => simp at hlen; omega
      | b :: r, _ => exact ⟨_, _, rfl⟩
    simp only [List.getD_cons_zero] at h1 ⊢
    obtain ⟨r, hr⟩ : ∃ r, r = b0.toNat % 32 * 64 + b1.toNat % 64 := ⟨_, rfl⟩
    have hu : utf8 r = [b0, b1] := by
      unfold utf8
      rw [if_neg (by omega), if_pos (by omega), byte_eq (b := b0) (by omega), byte_eq (b := b1) (by omega)]
    refine .inr ⟨r, rest, ?_, by omega, ?_, ?_, ?_⟩
    · unfold Scalar; omega
    · rw [hu]; rfl
    · rw [hu, hr]; rfl
    · rw [hu]; exact Nat.le_of_ble_eq_true rfl
  rw [if_neg hs2]
  by_cases h2 : (rest.getD 1 0).toNat < 0x80 ∨ 0xBF < (rest.getD 1 0).toNat
  · rw [if_pos h2]; exact .inl rfl
  rw [if_neg h2]
  by_cases hs3 : size ≤ 3
  · rw [if_pos hs3]
    obtain ⟨b1, b2, rest, rfl⟩ : ∃ b1 b2 rest', rest = b1 :: b2 :: rest' := by
      match rest, hlen with
      | [], hlen => simp at hlen; omega
      | [_], hlen => simp at hlen; omega
      | b :: c :: r, _ => exact ⟨_, _, _, rfl⟩
    simp only [List.getD_cons_zero, List.getD_cons_succ] at h1 h2 ⊢
    obtain ⟨r, hr⟩ : ∃ r, r = b0.toNat % 16 * 4096 + b1.toNat % 64 * 64 + b2.toNat % 64 := ⟨_, rfl⟩
    have hu : utf8 r = [b0, b1, b2] := by
      unfold utf8
      rw [if_neg (by omega), if_neg (by omega), if_pos (by omega), byte_eq (b := b0) (by omega),
        byte_eq (b := b1) (by omega), byte_eq (b := b2) (by omega)]
    refine .inr ⟨r, rest, ?_, by omega, ?_, ?_, ?_⟩
    · unfold Scalar; omega
    · rw [hu]; rfl
    · rw [hu, hr]; rfl
    · rw [hu]; exact Nat.le_of_ble_eq_true rfl
  rw [if_neg hs3]
  by_cases h3 : (rest.getD 2 0).toNat < 0x80 ∨ 0xBF < (rest.getD 2 0).toNat
  · rw [if_pos h3]; exact .inl rfl
  rw [if_neg h3]
  obtain ⟨b1, b2, b3, rest, rfl⟩ : ∃ b1 b2 b3 rest', rest = b1 :: b2 :: b3 :: rest' := by
    match rest, hlen with
    | [], hlen => simp at hlen; omega
    | [_], hlen => simp at hlen; omega
    | [_, _], hlen => simp at hlen; omega
    | b :: c :: d :: r, _ => exact ⟨_, _, _, _, rfl⟩
  simp only [List.getD_cons_zero, List.getD_cons_succ] at h1 h2 h3 ⊢
  obtain ⟨r, hr⟩ : ∃ r, r = b0.toNat % 8 * 262144 + b1.toNat % 64 * 4096 + b2.toNat % 64 * 64 + b3.toNat % 64 := ⟨_, rfl⟩
  have hu : utf8 r = [b0, b1, b2, b3] := by
    unfold utf8
    rw [if_neg (by omega), if_neg (by omega), if_neg (by omega), byte_eq (b := b0) (by omega),
      byte_eq (b := b1) (by omega), byte_eq (b := b2) (by omega), byte_eq (b := b3) (by omega)]
  refine .inr ⟨r, rest, ?_, by omega, ?_, ?_, ?_⟩
  · unfold Scalar; omega
  · rw [hu]; rfl
  · rw [hu, hr]; rfl
  · rw [hu]; exact Nat.le_of_ble_eq_true rfl

theorem appendRune_eq {r : Nat} (h : Scalar r) : appendRune r = utf8 r := by
  have hv : validRune r = true := by
    unfold validRune Scalar at *
    simp
    omega
  unfold appendRune utf8
  simp only [hv, not_true_eq_false, if_false]
  by_cases c1 : r < 0x80
  · rw [if_pos (by omega), if_pos c1]
  rw [if_neg (by omega), if_neg c1]
  by_cases c2 : r < 0x800
  · rw [if_pos (by omega), if_pos c2]
  rw [if_neg (by omega), if_neg c2]
  by_cases c3 : r < 0x10000
  · rw [if_pos (by omega), if_pos c3]
  rw [if_neg (by omega), if_neg c3]

/-! ## Hexadecimal digits -/

theorem hexDigits_eq : ∀ n r, hexDigits r n = hexText (n + 1) r
  | 0, r => by simp [hexDigits, hexText, lowerhex]
  | n + 1, r => by
    have key : ∀ n r, hexText (n + 1) r = (str "0123456789abcdef").getD (r / 16 ^ n % 16) 0 :: hexText n r := by
      intro n
      induction n with
      | zero => intro r; simp [hexText]
      | succ n ih =>
        intro r
        rw [hexText, ih (r / 16), List.cons_append, Nat.div_div_eq_div_mul, Nat.pow_succ, Nat.mul_comm 16]
        rfl
    rw [hexDigits, hexDigits_eq n, key (n + 1) r, lowerhex]

/-! ## Quoting -/

theorem escaped_piece {isPrint : Nat → Bool} (hp : PrintLawful isPrint) {r : Nat} (h : Scalar r) :
    Piece (appendEscapedRune isPrint r) (utf8 r) := by
  have small : ∀ {x : Nat}, x < 0x80 → utf8 x = [UInt8.ofNat x] := fun hx => by rw [utf8, if_pos hx]
  have hv : validRune r = true := by
    unfold validRune Scalar at *
    simp
    omega
  unfold appendEscapedRune
  by_cases c0 : r = 0x22 ∨ r = 0x5C
  · rw [if_pos c0, small (by omega)]
    exact .escape (by rcases c0 with rfl | rfl <;> decide)
  rw [if_neg c0]
  by_cases cp : isPrint r = true
  · rw [if_pos cp, appendRune_eq h]
    exact .char h (hp.shown r cp) (by omega) (by omega)
  rw [if_neg cp]
  by_cases c1 : r = 0x07
  · subst c1; rw [if_pos rfl]; exact .escape (letter := 0x61) (b := 7) (by decide)
  rw [if_neg c1]
  by_cases c1 : r = 0x08
  · subst c1; rw [if_pos rfl]; exact .escape (letter := 0x62) (b := 8) (by decide)
  rw [if_neg c1]
  by_cases c1 : r = 0x0C
  · subst c1; rw [if_pos rfl]; exact .escape (letter := 0x66) (b := 0x0C) (by decide)
  rw [if_neg c1]
  by_cases c1 : r = 0x0A
  · subst c1; rw [if_pos rfl]; exact .escape (letter := 0x6E) (b := 0x0A) (by decide)
  rw [if_neg c1]
  by_cases c1 : r = 0x0D
  · subst c1; rw [if_pos rfl]; exact .escape (letter := 0x72) (b := 0x0D) (by decide)
  rw [if_neg c1]
  by_cases c1 : r = 0x09
  · subst c1; rw [if_pos rfl]; exact .escape (letter := 0x74) (b := 0x09) (by decide)
  rw [if_neg c1]
  by_cases c1 : r = 0x0B
  · subst c1; rw [if_pos rfl]; exact .escape (letter := 0x76) (b := 0x0B) (by decide)
  rw [if_neg c1]
  by_cases c1 : r < 0x20 ∨ r = 0x7F
  · rw [if_pos c1, hexDigits_eq, small (by omega)]
    have := Piece.byte (UInt8.ofNat r)
    rwa [show (UInt8.ofNat r).toNat = r by simp; omega] at this
  rw [if_neg c1]
  simp only [hv, if_true]
  by_cases c2 : r < 0x10000
  · rw [if_pos c2, hexDigits_eq]
    exact .short h c2
  · rw [if_neg c2, hexDigits_eq]
    exact .long h

theorem quoteLoop_pieces {isPrint : Nat → Bool} (hp : PrintLawful isPrint) : ∀ (n : Nat) (s : Bytes), s.length ≤ n →
    Pieces (quoteLoop isPrint n s) s
  | 0, s, h => by
    rw [List.length_eq_zero_iff.1 (Nat.le_zero.1 h)]
    exact .nil
  | n + 1, [], _ => .nil
  | n + 1, b0 :: rest, h => by
    rw [List.length_cons] at h
    rw [quoteLoop]
    by_cases h80 : b0.toNat ≥ 0x80
    · simp only [if_pos h80]
      rcases decode_cases b0 rest h80 with he | ⟨r, rest', hr, hr80, hs, he, hw⟩
      · rw [he]
        dsimp only
        rw [if_pos ⟨rfl, rfl⟩, hexDigits_eq, List.drop_one, List.tail_cons]
        exact .cons (.byte b0) (quoteLoop_pieces hp n rest (by omega))
      · rw [he]
        dsimp only
        rw [if_neg (by omega), hs, List.drop_left]
        have hl : rest'.length ≤ n := by
          have := congrArg List.length hs
          rw [List.length_cons, List.length_append] at this
          omega
        exact .cons (escaped_piece hp hr) (quoteLoop_pieces hp n rest' hl)
    · simp only [if_neg h80]
      have hu : utf8 b0.toNat = [b0] := by rw [utf8, if_pos (by omega)]; simp
      rw [if_neg (by unfold runeError; omega), List.drop_one, List.tail_cons]
      have := Pieces.cons (escaped_piece hp (r := b0.toNat) (.inl (by omega))) (quoteLoop_pieces hp n rest (by omega))
      rwa [hu] at this

theorem goQuote_quoted {isPrint : Nat → Bool} (hp : PrintLawful isPrint) (s : Bytes) : Quoted (goQuote isPrint s) s :=
  .intro (quoteLoop_pieces hp _ s (Nat.le_refl _))

/-! ## A text in quotes stands for one value -/

theorem ofNat_inj {a b : Nat} (h : UInt8.ofNat a = UInt8.ofNat b) : a % 256 = b % 256 := by
  have := congrArg UInt8.toNat h
  simpa using this

theorem utf8_unique {c c' : Nat} (h : Scalar c) (h' : Scalar c') {t t' : Bytes} (e : utf8 c ++ t = utf8 c' ++ t') :
    c = c' ∧ t = t' := by
  have hc : c < 0x110000 := by unfold Scalar at h; omega
  have hc' : c' < 0x110000 := by unfold Scalar at h'; omega
  have key : c = c' := by
    unfold utf8 at e
    by_cases a1 : c < 0x80 <;> by_cases b1 : c' < 0x80 <;> by_cases a2 : c < 0x800 <;> by_cases b2 : c' < 0x800 <;>
      by_cases a3 : c < 0x10000 <;> by_cases b3 : c' < 0x10000 <;>
      simp only [a1, b1, a2, b2, a3, b3, if_true, if_false, List.cons_append, List.nil_append, List.cons.injEq] at e <;>
      (first
        | omega
        | (obtain ⟨e0, e1, e2, e3, -⟩ := e
           have e0 := ofNat_inj e0
           have e1 := ofNat_inj e1
           have e2 := ofNat_inj e2
           have e3 := ofNat_inj e3
           omega)
        | (obtain ⟨e0, e1, e2, -⟩ := e
           have e0 := ofNat_inj e0
           have e1 := ofNat_inj e1
           have e2 := ofNat_inj e2
           omega)
        | (obtain ⟨e0, e1, -⟩ := e
           have e0 := ofNat_inj e0
           have e1 := ofNat_inj e1
           omega)
        | (obtain ⟨e0, -⟩ := e
           have e0 := ofNat_inj e0
           omega))
  subst key
  exact ⟨rfl, List.append_cancel_left e⟩

theorem utf8_head {c : Nat} (h : Scalar c) (h5 : c ≠ 0x5C) (h2 : c ≠ 0x22) : ∃ b rest, utf8 c = b :: rest ∧ b ≠ 0x5C ∧ b ≠ 0x22 := by
  have hc : c < 0x110000 := by unfold Scalar at h; omega
  have ne : ∀ {n k : Nat}, n < 256 → k < 256 → n ≠ k → UInt8.ofNat n ≠ UInt8.ofNat k := fun hn hk hnk he => by
    have := ofNat_inj he
    omega
  unfold utf8
  by_cases a1 : c < 0x80
  · rw [if_pos a1]
    exact ⟨_, _, rfl, ne (k := 0x5C) (by omega) (by omega) h5, ne (k := 0x22) (by omega) (by omega) h2⟩
  rw [if_neg a1]
  by_cases a2 : c < 0x800
  · rw [if_pos a2]
    exact ⟨_, _, rfl, ne (k := 0x5C) (by omega) (by omega) (by omega), ne (k := 0x22) (by omega) (by omega) (by omega)⟩
  rw [if_neg a2]
  by_cases a3 : c < 0x10000
  · rw [if_pos a3]
    exact ⟨_, _, rfl, ne (k := 0x5C) (by omega) (by omega) (by omega), ne (k := 0x22) (by omega) (by omega) (by omega)⟩
  rw [if_neg a3]
  exact ⟨_, _, rfl, ne (k := 0x5C) (by omega) (by omega) (by omega), ne (k := 0x22) (by omega) (by omega) (by omega)⟩

theorem hexText_length : ∀ n x, (hexText n x).length = n
  | 0, _ => rfl
  | n + 1, x => by rw [hexText, List.length_append, hexText_length n, List.length_singleton]

theorem hexText_inj : ∀ {n x y : Nat}, x < 16 ^ n → y < 16 ^ n → hexText n x = hexText n y → x = y
  | 0, x, y, hx, hy, _ => by simp at hx hy; omega
  | n + 1, x, y, hx, hy, h => by
    rw [Nat.pow_succ] at hx hy
    rw [hexText, hexText] at h
    obtain ⟨h1, h2⟩ := List.append_inj h (by rw [hexText_length, hexText_length])
    have e := hexText_inj (n := n) (by omega) (by omega) h1
    have hd : ∀ a < 16, ∀ b < 16, (str "0123456789abcdef").getD a 0 = (str "0123456789abcdef").getD b 0 → a = b := by
      decide +kernel
    have := hd _ (Nat.mod_lt x (by decide)) _ (Nat.mod_lt y (by decide)) (List.singleton_inj.1 h2)
    omega

theorem hexText_unique {n x y : Nat} {t t' : Bytes} (hx : x < 16 ^ n) (hy : y < 16 ^ n)
    (h : hexText n x ++ t = hexText n y ++ t') : x = y ∧ t = t' := by
  obtain ⟨h1, h2⟩ := List.append_inj h (by rw [hexText_length, hexText_length])
  exact ⟨hexText_inj hx hy h1, h2⟩

theorem escapes_letters : ∀ p ∈ escapes, p.1 ≠ 0x78 ∧ p.1 ≠ 0x75 ∧ p.1 ≠ 0x55 := by decide

theorem escapes_unique : ∀ p ∈ escapes, ∀ q ∈ escapes, p.1 = q.1 → p = q := by decide

/-- A piece other than a character: a backslash, a letter, and digits -/
theorem piece_cases {a x : Bytes} (h : Piece a x) :
    (∃ c, Scalar c ∧ c ≠ 0x22 ∧ c ≠ 0x5C ∧ a = utf8 c ∧ x = utf8 c) ∨
    (∃ p ∈ escapes, a = [0x5C, p.1] ∧ x = [p.2]) ∨
    (∃ b : Byte, a = 0x5C :: 0x78 :: hexText 2 b.toNat ∧ x = [b]) ∨
    (∃ c, Scalar c ∧ c < 0x10000 ∧ a = 0x5C :: 0x75 :: hexText 4 c ∧ x = utf8 c) ∨
    (∃ c, Scalar c ∧ a = 0x5C :: 0x55 :: hexText 8 c ∧ x = utf8 c) := by
  cases h with
  | char h1 _ h3 h4 => exact .inl ⟨_, h1, h3, h4, rfl, rfl⟩
  | escape h => exact .inr (.inl ⟨_, h, rfl, rfl⟩)
  | byte b => exact .inr (.inr (.inl ⟨b, rfl, rfl⟩))
  | short h1 h2 => exact .inr (.inr (.inr (.inl ⟨_, h1, h2, rfl, rfl⟩)))
  | long h1 => exact .inr (.inr (.inr (.inr ⟨_, h1, rfl, rfl⟩)))

theorem piece_unique {a x a' x' t t' : Bytes} (h : Piece a x) (h' : Piece a' x') (e : a ++ t = a' ++ t') :
    x = x' ∧ t = t' := by
  have lt8 : ∀ {c}, Scalar c → c < 16 ^ 8 := fun h => by unfold Scalar at h; omega
  have ltb : ∀ b : Byte, b.toNat < 16 ^ 2 := fun b => b.toNat_lt
  rcases piece_cases h with ⟨c, hc, h2, h5, rfl, rfl⟩ | hr
  · rcases piece_cases h' with ⟨c', hc', -, -, rfl, rfl⟩ | hr'
    · obtain ⟨rfl, rfl⟩ := utf8_unique hc hc' e
      exact ⟨rfl, rfl⟩
    · obtain ⟨b, rest, hb, hb5, -⟩ := utf8_head hc h5 h2
      rw [hb] at e
      rcases hr' with ⟨p, -, rfl, -⟩ | ⟨b, rfl, -⟩ | ⟨c, -, -, rfl, -⟩ | ⟨c, -, rfl, -⟩ <;>
        exact absurd (List.cons.inj e).1 hb5
  · rcases piece_cases h' with ⟨c', hc', h2, h5, rfl, rfl⟩ | hr'
    · obtain ⟨b, rest, hb, hb5, -⟩ := utf8_head hc' h5 h2
      rw [hb] at e
      rcases hr with ⟨p, -, rfl, -⟩ | ⟨b, rfl, -⟩ | ⟨c, -, -, rfl, -⟩ | ⟨c, -, rfl, -⟩ <;>
        exact absurd (List.cons.inj e).1.symm hb5
    · rcases hr with ⟨p, hp, rfl, rfl⟩ | ⟨b, rfl, rfl⟩ | ⟨c, hc, hlt, rfl, rfl⟩ | ⟨c, hc, rfl, rfl⟩ <;>
        rcases hr' with ⟨q, hq, rfl, rfl⟩ | ⟨b', rfl, rfl⟩ | ⟨c', hc', hlt', rfl, rfl⟩ | ⟨c', hc', rfl, rfl⟩ <;>
        (simp only [List.cons_append, List.nil_append, List.cons.injEq, true_and] at e)
      · obtain ⟨e1, rfl⟩ := e
        rw [escapes_unique p hp q hq e1]
        exact ⟨rfl, rfl⟩
      · exact absurd e.1 (escapes_letters p hp).1
      · exact absurd e.1 (escapes_letters p hp).2.1
      · exact absurd e.1 (escapes_letters p hp).2.2
      · exact absurd e.1.symm (escapes_letters q hq).1
      · obtain ⟨e1, rfl⟩ := hexText_unique (ltb b) (ltb b') e
        rw [UInt8.toNat_inj.1 e1]
        exact ⟨rfl, rfl⟩
      · exact absurd e.1 (by decide)
      · exact absurd e.1 (by decide)
      · exact absurd e.1.symm (escapes_letters q hq).2.1
      · exact absurd e.1 (by decide)
      · obtain ⟨rfl, rfl⟩ := hexText_unique (show c < 16 ^ 4 by omega) (show c' < 16 ^ 4 by omega) e
        exact ⟨rfl, rfl⟩
      · exact absurd e.1 (by decide)
      · exact absurd e.1.symm (escapes_letters q hq).2.2
      · exact absurd e.1 (by decide)
      · exact absurd e.1 (by decide)
      · obtain ⟨rfl, rfl⟩ := hexText_unique (lt8 hc) (lt8 hc') e
        exact ⟨rfl, rfl⟩

theorem piece_ne {a x : Bytes} (h : Piece a x) : ∃ b rest, a = b :: rest := by
  rcases piece_cases h with ⟨c, hc, h2, h5, rfl, rfl⟩ | ⟨p, -, rfl, -⟩ | ⟨b, rfl, -⟩ | ⟨c, -, -, rfl, -⟩ | ⟨c, -, rfl, -⟩
  · obtain ⟨b, rest, hb, -⟩ := utf8_head hc h5 h2
    exact ⟨b, rest, hb⟩
  all_goals exact ⟨_, _, rfl⟩

theorem pieces_value {t a b : Bytes} (h : Pieces t a) (h' : Pieces t b) : a = b := by
  induction h generalizing b with
  | nil =>
    generalize ht : ([] : Bytes) = t at h'
    cases h' with
    | nil => rfl
    | cons hp _ =>
      obtain ⟨c, rest, rfl⟩ := piece_ne hp
      cases ht
  | cons hp _ ih =>
    rename_i a x u y _
    generalize ht : a ++ u = t at h'
    cases h' with
    | nil =>
      obtain ⟨c, rest, rfl⟩ := piece_ne hp
      cases ht
    | cons hp' hps' =>
      obtain ⟨rfl, rfl⟩ := piece_unique hp hp' ht
      rw [ih hps']

theorem quoted_value {t a b : Bytes} (h : Quoted t a) (h' : Quoted t b) : a = b := by
  obtain @⟨u, _, h⟩ := h
  generalize ht : str "\"" ++ u ++ str "\"" = t at h'
  obtain @⟨v, _, h'⟩ := h'
  obtain rfl : u = v := List.append_cancel_left (List.append_cancel_right ht)
  exact pieces_value h h'

/-! ## A text in quotes does nothing to a terminal -/

theorem harmless_append {a b : Bytes} (ha : Harmless a) (hb : Harmless b) : Harmless (a ++ b) := by
  obtain ⟨cs, h, rfl⟩ := ha
  obtain ⟨ds, h', rfl⟩ := hb
  exact ⟨cs ++ ds, fun c hc => (List.mem_append.1 hc).elim (h c) (h' c), by rw [List.flatMap_append]⟩

theorem harmless_ascii : ∀ {t : Bytes}, (∀ b ∈ t, 0x20 ≤ b ∧ b < 0x7F) → Harmless t
  | [], _ => ⟨[], by simp, rfl⟩
  | b :: t, h => by
    refine harmless_append (a := [b]) ⟨[b.toNat], fun c hc => ?_, ?_⟩ (harmless_ascii fun c hc => h c (List.mem_cons_of_mem _ hc))
    · obtain ⟨h1, h2⟩ := h b List.mem_cons_self
      rw [List.mem_singleton.1 hc]
      have h1 : 0x20 ≤ b.toNat := h1
      have h2 : b.toNat < 0x7F := h2
      unfold Scalar Control
      omega
    · obtain ⟨h1, h2⟩ := h b List.mem_cons_self
      have h2 : b.toNat < 0x7F := h2
      rw [List.flatMap_singleton, utf8, if_pos (by omega)]
      simp

theorem hexText_ascii : ∀ n x, ∀ b ∈ hexText n x, 0x20 ≤ b ∧ b < 0x7F
  | 0, x, b, h => by simp [hexText] at h
  | n + 1, x, b, h => by
    rw [hexText, List.mem_append, List.mem_singleton] at h
    rcases h with h | rfl
    · exact hexText_ascii n _ b h
    · have : ∀ d < 16, 0x20 ≤ (str "0123456789abcdef").getD d 0 ∧ (str "0123456789abcdef").getD d 0 < 0x7F := by
        decide +kernel
      exact this _ (Nat.mod_lt _ (by decide))

theorem piece_harmless {a x : Bytes} (h : Piece a x) : Harmless a := by
  cases h with
  | char h1 h2 _ _ => exact ⟨[_], fun c hc => by rw [List.mem_singleton.1 hc]; exact ⟨h1, h2⟩, by simp⟩
  | @escape l b h =>
    have : ∀ p ∈ escapes, 0x20 ≤ p.1 ∧ p.1 < 0x7F := by decide
    refine harmless_ascii fun c hc => ?_
    rcases List.mem_cons.1 hc with rfl | hc
    · decide
    · rw [List.mem_singleton.1 hc]; exact this _ h
  | byte b =>
    exact harmless_append (harmless_ascii (by decide)) (harmless_ascii (hexText_ascii _ _))
  | short _ _ =>
    exact harmless_append (harmless_ascii (by decide)) (harmless_ascii (hexText_ascii _ _))
  | long _ =>
    exact harmless_append (harmless_ascii (by decide)) (harmless_ascii (hexText_ascii _ _))

theorem pieces_harmless {t s : Bytes} (h : Pieces t s) : Harmless t := by
  induction h with
  | nil => exact ⟨[], by simp, rfl⟩
  | cons hp _ ih => exact harmless_append (piece_harmless hp) ih

theorem quoted_harmless {t s : Bytes} (h : Quoted t s) : Harmless t := by
  obtain ⟨h⟩ := h
  exact harmless_append (harmless_append (harmless_ascii (by decide)) (pieces_harmless h)) (harmless_ascii (by decide))

/-! ## Printable ASCII stays as it is -/

theorem quoteLoop_plain {isPrint : Nat → Bool} (hp : PrintLawful isPrint) : ∀ (n : Nat) (s : Bytes), s.length ≤ n →
    (∀ c ∈ s, 0x20 ≤ c ∧ c < 0x7F ∧ c ≠ 0x22 ∧ c ≠ 0x5C) → quoteLoop isPrint n s = s
  | 0, s, h, _ => by rw [List.length_eq_zero_iff.1 (Nat.le_zero.1 h)]; rfl
  | n + 1, [], _, _ => rfl
  | n + 1, b0 :: rest, h, hs => by
    rw [List.length_cons] at h
    obtain ⟨h1, h2, h3, h4⟩ := hs b0 List.mem_cons_self
    have h1 : 0x20 ≤ b0.toNat := h1
    have h2 : b0.toNat < 0x7F := h2
    have h3 : b0.toNat ≠ 0x22 := fun e => h3 (UInt8.toNat_inj.1 e)
    have h4 : b0.toNat ≠ 0x5C := fun e => h4 (UInt8.toNat_inj.1 e)
    rw [quoteLoop]
    simp only [if_neg (show ¬ b0.toNat ≥ 0x80 by omega)]
    rw [if_neg (by unfold runeError; omega), appendEscapedRune, if_neg (by omega), if_pos (hp.ascii _ h1 h2),
      appendRune_eq (.inl (by omega)), utf8, if_pos (by omega), List.drop_one, List.tail_cons,
      quoteLoop_plain hp n rest (by omega) fun c hc => hs c (List.mem_cons_of_mem _ hc)]
    simp

end Verif.Proofs
