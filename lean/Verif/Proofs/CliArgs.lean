import Verif.Model.Cli.Run
import Verif.Spec.Args
import Mathlib.Data.List.TakeWhile
import Mathlib.Tactic.ByContra

/-!
# Lemmas on command lines
-/

namespace Verif.Proofs

open Verif.Model Verif.Model.Cli Verif.Spec

/-! ## Integers -/

theorem byte_all {P : Byte → Prop} (h : ∀ n : Fin 256, P (UInt8.ofNat n)) (c : Byte) : P c := by
  have := h ⟨c.toNat, c.toNat_lt⟩
  simpa using this

theorem digitVal_digit (c : Byte) : ∀ d < 16, digitVal c = some d ↔
    (c = UInt8.ofNat (48 + d) ∧ d < 10) ∨
      (10 ≤ d ∧ (c = UInt8.ofNat (87 + d) ∨ c = UInt8.ofNat (55 + d))) :=
  byte_all (P := fun c => ∀ d < 16, digitVal c = some d ↔
    (c = UInt8.ofNat (48 + d) ∧ d < 10) ∨
      (10 ≤ d ∧ (c = UInt8.ofNat (87 + d) ∨ c = UInt8.ofNat (55 + d)))) (by decide +kernel) c

theorem digit_iff (c : Byte) (d : Nat) (hd : d < 16) : digitVal c = some d ↔ Digit c d := by
  rw [digitVal_digit c d hd]
  constructor
  · rintro (⟨rfl, h⟩ | ⟨h, rfl | rfl⟩)
    · exact .decimal d h
    · exact .lower d h hd
    · exact .upper d h hd
  · rintro (⟨_, h⟩ | ⟨_, h, _⟩ | ⟨_, h, _⟩)
    · exact .inl ⟨rfl, h⟩
    · exact .inr ⟨h, .inl rfl⟩
    · exact .inr ⟨h, .inr rfl⟩

theorem digit_lt {c : Byte} {d : Nat} (h : Digit c d) : d < 16 := by
  cases h <;> omega

theorem digit_ne {c : Byte} {d : Nat} (h : Digit c d) : c ≠ 0x5F := by
  rintro rfl
  have hd := digit_lt h
  have := (digit_iff _ d hd).2 h
  revert this
  have : digitVal 0x5F = none := by decide
  rw [this]; simp

theorem digits_le {b n m : Nat} {s : Bytes} (hb : 1 ≤ b) (h : Digits b n s m) : n ≤ m := by
  induction h with
  | done => exact le_rfl
  | digit _ _ _ ih => exact le_trans (le_trans (Nat.le_mul_of_pos_right _ hb) (Nat.le_add_right _ _)) ih
  | underscore _ _ _ ih =>
    exact le_trans (le_trans (Nat.le_mul_of_pos_right _ hb) (Nat.le_add_right _ _)) ih

/-- The character class of underscoreOK contains every digit of the base. -/
def okChar (hex : Bool) (c : Byte) : Bool :=
  decide ((0x30 ≤ c ∧ c ≤ 0x39) ∨ (hex = true ∧ 0x61 ≤ lowerCase c ∧ lowerCase c ≤ 0x66))

theorem okChar_digit (c : Byte) : ∀ d, d < 16 → digitVal c = some d →
    okChar true c = true ∧ (d < 10 → okChar false c = true) :=
  byte_all (P := fun c => ∀ d, d < 16 → digitVal c = some d →
    okChar true c = true ∧ (d < 10 → okChar false c = true)) (by decide +kernel) c

theorem okChar_of {b : Nat} {hex : Bool} (hb : (hex = true ∧ b = 16) ∨ (hex = false ∧ b ≤ 10))
    {c : Byte} {d : Nat} (hc : digitVal c = some d) (hd : d < b) : okChar hex c = true := by
  rcases hb with ⟨rfl, rfl⟩ | ⟨rfl, hb⟩
  · exact (okChar_digit c d hd hc).1
  · exact (okChar_digit c d (by omega) hc).2 (by omega)

theorem underscoreLoop_ok {hex : Bool} {c : Byte} (saw : Saw) (rest : Bytes) (h : okChar hex c = true) :
    underscoreLoop hex saw (c :: rest) = underscoreLoop hex .digit rest := by
  rw [underscoreLoop, if_pos (of_decide_eq_true h)]

theorem underscoreLoop_under {hex : Bool} (saw : Saw) (rest : Bytes) :
    underscoreLoop hex saw (0x5F :: rest) =
      if saw ≠ .digit then false else underscoreLoop hex .underscore rest := by
  rw [underscoreLoop, if_neg, if_pos rfl]
  cases hex <;> decide

theorem uint_digits {b : Nat} {hex : Bool} (hb : (hex = true ∧ b = 16) ∨ (hex = false ∧ b ≤ 10))
    (hb1 : 1 ≤ b) (k : Nat) : ∀ (s : Bytes) (n m : Nat), s.length ≤ k → n < 2 ^ 64 →
    ((uintLoop b n s = some m ∧ underscoreLoop hex .digit s = true) ↔ (Digits b n s m ∧ m < 2 ^ 64)) := by
  have hb16 : b ≤ 16 := by omega
  have step : ∀ (c : Byte) (rest : Bytes) (n m : Nat), n < 2 ^ 64 → c ≠ 0x5F →
      (∀ n, n < 2 ^ 64 → ((uintLoop b n rest = some m ∧ underscoreLoop hex .digit rest = true) ↔
        (Digits b n rest m ∧ m < 2 ^ 64))) →
      ∀ saw, ((uintLoop b n (c :: rest) = some m ∧ underscoreLoop hex saw (c :: rest) = true) ↔
        ((∃ d, Digit c d ∧ d < b ∧ Digits b (n * b + d) rest m) ∧ m < 2 ^ 64)) := by
    intro c rest n m hn hc ih saw
    rw [uintLoop, if_neg hc]
    constructor
    · rintro ⟨h1, h2⟩
      split at h1
      · cases h1
      · rename_i d hd
        split at h1
        · cases h1
        · rename_i hdb
          have hdb : d < b := by omega
          split at h1
          · rename_i hlt
            rw [underscoreLoop_ok saw rest (okChar_of hb hd hdb)] at h2
            obtain ⟨h3, h4⟩ := (ih _ hlt).1 ⟨h1, h2⟩
            exact ⟨⟨d, (digit_iff c d (by omega)).1 hd, hdb, h3⟩, h4⟩
          · cases h1
    · rintro ⟨⟨d, hd, hdb, h3⟩, h4⟩
      have hv := (digit_iff c d (by omega)).2 hd
      have hle := digits_le hb1 h3
      rw [hv]
      dsimp only
      rw [if_neg (by omega), if_pos (by omega), underscoreLoop_ok saw rest (okChar_of hb hv hdb)]
      exact (ih _ (by omega)).2 ⟨h3, h4⟩
  induction k with
  | zero =>
    intro s n m hs hn
    have : s = [] := List.eq_nil_of_length_eq_zero (by omega)
    subst this
    constructor
    · rintro ⟨h1, _⟩
      rw [uintLoop] at h1
      cases h1
      exact ⟨.done n, hn⟩
    · rintro ⟨h1, _⟩
      cases h1
      exact ⟨rfl, rfl⟩
  | succ k ih =>
    intro s n m hs hn
    match s with
    | [] =>
      constructor
      · rintro ⟨h1, _⟩
        rw [uintLoop] at h1
        cases h1
        exact ⟨.done n, hn⟩
      · rintro ⟨h1, _⟩
        cases h1
        exact ⟨rfl, rfl⟩
    | c :: rest =>
      simp only [List.length_cons] at hs
      by_cases hc : c = 0x5F
      · subst hc
        rw [uintLoop, if_pos rfl, underscoreLoop_under]
        simp only [ne_eq, not_true_eq_false, if_false]
        match rest with
        | [] =>
          constructor
          · rintro ⟨_, h⟩
            exact absurd h (by cases hex <;> decide)
          · rintro ⟨h, _⟩
            cases h with
            | digit hd _ _ => exact absurd rfl (digit_ne hd)
        | c' :: rest =>
          simp only [List.length_cons] at hs
          by_cases hc' : c' = 0x5F
          · subst hc'
            rw [underscoreLoop_under, if_pos (by decide)]
            constructor
            · rintro ⟨_, h⟩; cases h
            · rintro ⟨h, _⟩
              cases h with
              | digit hd _ _ => exact absurd rfl (digit_ne hd)
              | underscore hd _ _ => exact absurd rfl (digit_ne hd)
          · rw [step c' rest n m hn hc' (fun n hn => ih rest n m (by omega) hn) .underscore]
            refine and_congr_left fun _ => ⟨?_, ?_⟩
            · rintro ⟨d, h1, h2, h3⟩
              exact .underscore h1 h2 h3
            · intro h
              cases h with
              | digit hd _ _ => exact absurd rfl (digit_ne hd)
              | underscore h1 h2 h3 => exact ⟨_, h1, h2, h3⟩
      · rw [step c rest n m hn hc (fun n hn => ih rest n m (by omega) hn) .digit]
        refine and_congr_left fun _ => ⟨?_, ?_⟩
        · rintro ⟨d, h1, h2, h3⟩
          exact .digit h1 h2 h3
        · intro h
          cases h with
          | digit h1 h2 h3 => exact ⟨_, h1, h2, h3⟩
          | underscore _ _ _ => exact absurd rfl hc

theorem underscoreLoop_none {hex : Bool} : ∀ (s : Bytes) (saw : Saw), 0x5F ∉ s → saw ≠ .underscore →
    underscoreLoop hex saw s = true := by
  intro s
  induction s with
  | nil => intro saw _ h; simpa [underscoreLoop] using h
  | cons c rest ih =>
    intro saw h1 h2
    simp only [List.mem_cons, not_or] at h1
    rw [underscoreLoop]
    split
    · exact ih _ h1.2 (by decide)
    · rw [if_neg (Ne.symm h1.1)]
      exact ih _ h1.2 (by decide)

theorem str0 : str "0" = [0x30] := by decide

theorem lower_letter (c : Byte) :
    (lowerCase c = 0x62 ↔ c = 0x62 ∨ c = 0x42) ∧ (lowerCase c = 0x6F ↔ c = 0x6F ∨ c = 0x4F) ∧
      (lowerCase c = 0x78 ↔ c = 0x78 ∨ c = 0x58) :=
  byte_all (P := fun c => (lowerCase c = 0x62 ↔ c = 0x62 ∨ c = 0x42) ∧
    (lowerCase c = 0x6F ↔ c = 0x6F ∨ c = 0x4F) ∧ (lowerCase c = 0x78 ↔ c = 0x78 ∨ c = 0x58))
    (by decide +kernel) c

theorem not_octal (c : Byte) (h : lowerCase c = 0x62 ∨ lowerCase c = 0x6F ∨ lowerCase c = 0x78) :
    c ≠ 0x5F ∧ ∀ d, Digit c d → ¬ d < 8 := by
  have key : ∀ c : Byte, (lowerCase c = 0x62 ∨ lowerCase c = 0x6F ∨ lowerCase c = 0x78) →
      c ≠ 0x5F ∧ ∀ d < 8, digitVal c ≠ some d :=
    byte_all (P := fun c => (lowerCase c = 0x62 ∨ lowerCase c = 0x6F ∨ lowerCase c = 0x78) →
      c ≠ 0x5F ∧ ∀ d < 8, digitVal c ≠ some d) (by decide +kernel)
  refine ⟨(key c h).1, fun d hd hlt => (key c h).2 d hlt ((digit_iff c d (by omega)).2 hd)⟩

theorem prefixLetter_zero (c : Byte) (t : Bytes) : prefixLetter (0x30 :: c :: t) =
    if lowerCase c = 0x62 ∨ lowerCase c = 0x6F ∨ lowerCase c = 0x78 then some (lowerCase c) else none :=
  rfl

theorem prefixLetter_other {c : Byte} {t : Bytes} (h : c ≠ 0x30) : prefixLetter (c :: t) = none := by
  unfold prefixLetter
  split
  · rename_i heq; exact absurd (List.cons.inj heq).1 h
  · rfl

theorem uintBase_prefix {p : Byte} {u : Bytes}
    (hp : lowerCase p = 0x62 ∨ lowerCase p = 0x6F ∨ lowerCase p = 0x78) (hu : u ≠ []) :
    uintBase (0x30 :: p :: u) =
      (if lowerCase p = 0x62 then 2 else if lowerCase p = 0x6F then 8 else 16, u) := by
  match u with
  | [] => exact absurd rfl hu
  | q :: v =>
    unfold uintBase
    rw [prefixLetter_zero, if_pos hp]
    rfl

theorem uintBase_plain {p : Byte} {u : Bytes}
    (hp : ¬ (lowerCase p = 0x62 ∨ lowerCase p = 0x6F ∨ lowerCase p = 0x78)) :
    uintBase (0x30 :: p :: u) = (8, p :: u) := by
  unfold uintBase
  rw [prefixLetter_zero, if_neg hp]
  dsimp only
  exact ite_self _

theorem uintBase_other {c : Byte} {t : Bytes} (h : c ≠ 0x30) : uintBase (c :: t) = (10, c :: t) := by
  unfold uintBase
  split
  · rename_i heq; exact absurd (List.cons.inj heq).1 h
  · rfl

/-- The literal's digits, whatever the kind. -/
theorem intLit_zero_prefix {p : Byte} {t : Bytes} {n : Nat}
    (hp : lowerCase p = 0x62 ∨ lowerCase p = 0x6F ∨ lowerCase p = 0x78) :
    IntLit (0x30 :: p :: t) n ↔ t ≠ [] ∧
      Digits (if lowerCase p = 0x62 then 2 else if lowerCase p = 0x6F then 8 else 16) 0 t n := by
  obtain ⟨hb, ho, hx⟩ := lower_letter p
  have e1 : str "0b" = [0x30, 0x62] := by decide
  have e2 : str "0B" = [0x30, 0x42] := by decide
  have e3 : str "0o" = [0x30, 0x6F] := by decide
  have e4 : str "0O" = [0x30, 0x4F] := by decide
  have e5 : str "0x" = [0x30, 0x78] := by decide
  have e6 : str "0X" = [0x30, 0x58] := by decide
  constructor
  · intro h
    generalize hs : (0x30 :: p :: t : Bytes) = s at h
    cases h with
    | @decimal c d m s' hd h0 h10 _ =>
      exfalso
      have := (List.cons.inj hs).1
      subst this
      have hv := (digit_iff _ d (by omega)).2 hd
      have : digitVal 0x30 = some 0 := by decide
      rw [this] at hv
      cases hv
      omega
    | octal hd =>
      rw [str0] at hs
      simp only [List.cons_append, List.nil_append, List.cons.injEq, true_and] at hs
      subst hs
      exfalso
      cases hd with
      | digit h1 h2 _ => exact (not_octal p hp).2 _ h1 h2
      | underscore _ _ _ => exact (not_octal _ hp).1 rfl
    | @octalO m p' s' h1 h2 h3 =>
      have : (p = 0x6F ∨ p = 0x4F) ∧ t = s' := by
        rcases h1 with rfl | rfl
        · rw [e3] at hs; simp only [List.cons_append, List.nil_append, List.cons.injEq, true_and] at hs
          exact ⟨.inl hs.1, hs.2⟩
        · rw [e4] at hs; simp only [List.cons_append, List.nil_append, List.cons.injEq, true_and] at hs
          exact ⟨.inr hs.1, hs.2⟩
      obtain ⟨hp', rfl⟩ := this
      have hl := ho.2 hp'
      refine ⟨h2, ?_⟩
      rw [hl, if_neg (by decide), if_pos rfl]
      exact h3
    | @binary m p' s' h1 h2 h3 =>
      have : (p = 0x62 ∨ p = 0x42) ∧ t = s' := by
        rcases h1 with rfl | rfl
        · rw [e1] at hs; simp only [List.cons_append, List.nil_append, List.cons.injEq, true_and] at hs
          exact ⟨.inl hs.1, hs.2⟩
        · rw [e2] at hs; simp only [List.cons_append, List.nil_append, List.cons.injEq, true_and] at hs
          exact ⟨.inr hs.1, hs.2⟩
      obtain ⟨hp', rfl⟩ := this
      have hl := hb.2 hp'
      refine ⟨h2, ?_⟩
      rw [hl, if_pos rfl]
      exact h3
    | @hex m p' s' h1 h2 h3 =>
      have : (p = 0x78 ∨ p = 0x58) ∧ t = s' := by
        rcases h1 with rfl | rfl
        · rw [e5] at hs; simp only [List.cons_append, List.nil_append, List.cons.injEq, true_and] at hs
          exact ⟨.inl hs.1, hs.2⟩
        · rw [e6] at hs; simp only [List.cons_append, List.nil_append, List.cons.injEq, true_and] at hs
          exact ⟨.inr hs.1, hs.2⟩
      obtain ⟨hp', rfl⟩ := this
      have hl := hx.2 hp'
      refine ⟨h2, ?_⟩
      rw [hl, if_neg (by decide), if_neg (by decide)]
      exact h3
  · rintro ⟨h1, h2⟩
    rcases hp with hp | hp | hp
    · rw [hp, if_pos rfl] at h2
      rcases hb.1 hp with rfl | rfl
      · have := IntLit.binary (p := str "0b") (.inl rfl) h1 h2
        rwa [e1] at this
      · have := IntLit.binary (p := str "0B") (.inr rfl) h1 h2
        rwa [e2] at this
    · rw [hp, if_neg (by decide), if_pos rfl] at h2
      rcases ho.1 hp with rfl | rfl
      · have := IntLit.octalO (p := str "0o") (.inl rfl) h1 h2
        rwa [e3] at this
      · have := IntLit.octalO (p := str "0O") (.inr rfl) h1 h2
        rwa [e4] at this
    · rw [hp, if_neg (by decide), if_neg (by decide)] at h2
      rcases hx.1 hp with rfl | rfl
      · have := IntLit.hex (p := str "0x") (.inl rfl) h1 h2
        rwa [e5] at this
      · have := IntLit.hex (p := str "0X") (.inr rfl) h1 h2
        rwa [e6] at this

theorem two_chars_ne {a : Byte} {q : Bytes} {s : Bytes} (p : Bytes) (h : p = str "0o" ∨ p = str "0O" ∨
    p = str "0b" ∨ p = str "0B" ∨ p = str "0x" ∨ p = str "0X") (hs : a :: q = p ++ s) :
    a = 0x30 ∧ ∃ c, (lowerCase c = 0x62 ∨ lowerCase c = 0x6F ∨ lowerCase c = 0x78) ∧ q = c :: s := by
  have e1 : str "0b" = [0x30, 0x62] := by decide
  have e2 : str "0B" = [0x30, 0x42] := by decide
  have e3 : str "0o" = [0x30, 0x6F] := by decide
  have e4 : str "0O" = [0x30, 0x4F] := by decide
  have e5 : str "0x" = [0x30, 0x78] := by decide
  have e6 : str "0X" = [0x30, 0x58] := by decide
  rw [e1, e2, e3, e4, e5, e6] at h
  rcases h with rfl | rfl | rfl | rfl | rfl | rfl <;>
    · simp only [List.cons_append, List.nil_append, List.cons.injEq] at hs
      exact ⟨hs.1, _, by decide, hs.2⟩

theorem intLit_zero_plain {t : Bytes} {n : Nat}
    (hp : ∀ c u, t = c :: u → ¬ (lowerCase c = 0x62 ∨ lowerCase c = 0x6F ∨ lowerCase c = 0x78)) :
    IntLit (0x30 :: t) n ↔ Digits 8 0 t n := by
  constructor
  · intro h
    generalize hs : (0x30 :: t : Bytes) = s at h
    cases h with
    | @decimal c d m s' hd h0 h10 _ =>
      exfalso
      have := (List.cons.inj hs).1
      subst this
      have hv := (digit_iff _ d (by omega)).2 hd
      have : digitVal 0x30 = some 0 := by decide
      rw [this] at hv
      cases hv
      omega
    | octal hd =>
      rw [str0] at hs
      simp only [List.cons_append, List.nil_append, List.cons.injEq, true_and] at hs
      subst hs
      exact hd
    | octalO h1 h2 h3 =>
      obtain ⟨_, c, hc, hq⟩ := two_chars_ne _ (by tauto) hs
      exact absurd hc (hp c _ hq)
    | binary h1 h2 h3 =>
      obtain ⟨_, c, hc, hq⟩ := two_chars_ne _ (by tauto) hs
      exact absurd hc (hp c _ hq)
    | hex h1 h2 h3 =>
      obtain ⟨_, c, hc, hq⟩ := two_chars_ne _ (by tauto) hs
      exact absurd hc (hp c _ hq)
  · intro h
    have := IntLit.octal h
    rwa [str0] at this

theorem intLit_other {c : Byte} {t : Bytes} {n : Nat} (hc : c ≠ 0x30) :
    IntLit (c :: t) n ↔ ∃ d, Digit c d ∧ d < 10 ∧ Digits 10 d t n := by
  constructor
  · intro h
    generalize hs : (c :: t : Bytes) = s at h
    cases h with
    | decimal hd h0 h10 h =>
      obtain ⟨rfl, rfl⟩ := List.cons.inj hs
      exact ⟨_, hd, h10, h⟩
    | octal hd =>
      rw [str0] at hs
      exact absurd (List.cons.inj hs).1 hc
    | octalO h1 h2 h3 => exact absurd (two_chars_ne _ (by tauto) hs).1 hc
    | binary h1 h2 h3 => exact absurd (two_chars_ne _ (by tauto) hs).1 hc
    | hex h1 h2 h3 => exact absurd (two_chars_ne _ (by tauto) hs).1 hc
  · rintro ⟨d, h1, h2, h3⟩
    refine .decimal h1 ?_ h2 h3
    rcases Nat.eq_zero_or_pos d with rfl | h
    · exfalso
      cases h1 with
      | decimal => exact hc (by decide)
      | lower => omega
      | upper => omega
    · exact h

theorem parseUintAny_eq (s : Bytes) (n : Nat) (hs : s ≠ []) : parseUintAny s = some n ↔
    uintLoop (uintBase s).1 0 (uintBase s).2 = some n ∧ underscoreOK s = true := by
  have key : 0x5F ∉ (uintBase s).2 → underscoreOK s = true := by
    intro h
    match s with
    | [] => exact absurd rfl hs
    | c :: t =>
      by_cases hc : c = 0x30
      · subst hc
        match t with
        | [] => decide
        | p :: u =>
          unfold underscoreOK
          rw [prefixLetter_zero]
          by_cases hp : lowerCase p = 0x62 ∨ lowerCase p = 0x6F ∨ lowerCase p = 0x78
          · rw [if_pos hp]
            match u with
            | [] => cases decide (lowerCase p = 0x78) <;> rfl
            | q :: v =>
              rw [uintBase_prefix hp (by simp)] at h
              exact underscoreLoop_none _ _ h (by decide)
          · rw [if_neg hp]
            rw [uintBase_plain hp] at h
            refine underscoreLoop_none _ _ ?_ (by decide)
            intro hm
            rcases List.mem_cons.1 hm with hm | hm
            · revert hm; decide
            · exact h hm
      · rw [uintBase_other hc] at h
        unfold underscoreOK
        rw [prefixLetter_other hc]
        exact underscoreLoop_none _ _ h (by decide)
  unfold parseUintAny
  rw [if_neg hs]
  cases uintLoop (uintBase s).1 0 (uintBase s).2 with
  | none => simp
  | some m =>
    dsimp only
    by_cases h1 : 0x5F ∈ (uintBase s).2
    · cases h2 : underscoreOK s <;> simp [h1]
    · simp [h1, key h1]

/-- `strconv.ParseUint(s, 0, 64)` accepts exactly Go's integer literals below 2^64. -/
theorem parseUintAny_iff (s : Bytes) (n : Nat) : parseUintAny s = some n ↔ IntLit s n ∧ n < 2 ^ 64 := by
  match s with
  | [] =>
    constructor
    · intro h; simp [parseUintAny] at h
    · rintro ⟨h, _⟩
      generalize hs : ([] : Bytes) = s at h
      cases h with
      | decimal => cases hs
      | octal => rw [str0] at hs; cases hs
      | octalO h => rcases h with rfl | rfl <;> exact absurd hs (by intro h; cases h)
      | binary h => rcases h with rfl | rfl <;> exact absurd hs (by intro h; cases h)
      | hex h => rcases h with rfl | rfl <;> exact absurd hs (by intro h; cases h)
  | c :: t =>
    rw [parseUintAny_eq _ _ (by simp)]
    by_cases hc : c = 0x30
    · subst hc
      match t with
      | [] =>
        rw [intLit_zero_plain (by simp)]
        exact uint_digits (b := 8) (hex := false) (.inr ⟨rfl, by omega⟩) (by omega) 0 [] 0 n (by simp)
          (by decide)
      | p :: u =>
        by_cases hp : lowerCase p = 0x62 ∨ lowerCase p = 0x6F ∨ lowerCase p = 0x78
        · rw [intLit_zero_prefix hp]
          match u with
          | [] =>
            constructor
            · rintro ⟨h, _⟩
              exfalso
              have hb : uintBase [0x30, p] = (8, [p]) := rfl
              rw [hb] at h
              dsimp only at h
              rw [uintLoop, if_neg (not_octal p hp).1] at h
              split at h
              · cases h
              · rename_i d hd
                split at h
                · cases h
                · rename_i hlt
                  exact (not_octal p hp).2 d ((digit_iff p d (by omega)).1 hd) (by omega)
            · rintro ⟨⟨h, _⟩, _⟩; exact absurd rfl h
          | q :: v =>
            have hb := uintBase_prefix (u := q :: v) hp (by simp)
            have hu : underscoreOK (0x30 :: p :: q :: v) =
                underscoreLoop (lowerCase p = 0x78) .digit (q :: v) := by
              unfold underscoreOK
              rw [prefixLetter_zero, if_pos hp]
              rfl
            rw [hb, hu]
            dsimp only
            rw [uint_digits (b := if lowerCase p = 0x62 then 2 else if lowerCase p = 0x6F then 8 else 16)
              (hex := decide (lowerCase p = 0x78)) ?_ ?_ (q :: v).length (q :: v) 0 n le_rfl (by decide)]
            · simp
            · rcases hp with hp | hp | hp <;> rw [hp] <;> decide
            · rcases hp with hp | hp | hp <;> rw [hp] <;> decide
        · rw [intLit_zero_plain (by intro c v hcv; cases hcv; exact hp)]
          have hb := uintBase_plain (u := u) hp
          have hu : underscoreOK (0x30 :: p :: u) = underscoreLoop false .digit (p :: u) := by
            unfold underscoreOK
            rw [prefixLetter_zero, if_neg hp]
            exact underscoreLoop_ok .start _ (by decide)
          rw [hb, hu]
          exact uint_digits (b := 8) (hex := false) (.inr ⟨rfl, by omega⟩) (by omega) _ _ 0 n le_rfl
            (by decide)
    · rw [intLit_other hc, uintBase_other hc]
      have hu : underscoreOK (c :: t) = underscoreLoop false .start (c :: t) := by
        unfold underscoreOK
        rw [prefixLetter_other hc]
      rw [hu]
      dsimp only
      by_cases hc' : c = 0x5F
      · subst hc'
        rw [underscoreLoop_under, if_pos (by decide)]
        constructor
        · rintro ⟨_, h⟩; cases h
        · rintro ⟨⟨d, hd, _⟩, _⟩; exact absurd rfl (digit_ne hd)
      · rw [uintLoop, if_neg hc']
        constructor
        · rintro ⟨h1, h2⟩
          split at h1
          · cases h1
          · rename_i d hd
            split at h1
            · cases h1
            · rename_i hlt
              split at h1
              · rename_i hn
                rw [underscoreLoop_ok .start t (okChar_of (b := 10) (.inr ⟨rfl, by omega⟩) hd (by omega))] at h2
                obtain ⟨h3, h4⟩ := (uint_digits (b := 10) (hex := false) (.inr ⟨rfl, by omega⟩) (by omega)
                  _ t _ n le_rfl hn).1 ⟨h1, h2⟩
                refine ⟨⟨d, (digit_iff c d (by omega)).1 hd, by omega, ?_⟩, h4⟩
                simpa using h3
              · cases h1
        · rintro ⟨⟨d, hd, hlt, h3⟩, h4⟩
          have hv := (digit_iff c d (by omega)).2 hd
          rw [hv]
          dsimp only
          rw [if_neg (by omega), if_pos (by omega),
            underscoreLoop_ok .start t (okChar_of (b := 10) (.inr ⟨rfl, by omega⟩) hv (by omega))]
          refine (uint_digits (b := 10) (hex := false) (.inr ⟨rfl, by omega⟩) (by omega) _ t _ n le_rfl
            (by omega)).2 ⟨?_, h4⟩
          simpa using h3

/-! ## Values -/

def kindOf : FlagKind → Spec.Kind
  | .bool => .bool
  | .string => .string
  | .uint => .uint

def valueOf : FlagValue → Spec.Value
  | .bool b => .bool b
  | .string s => .string s
  | .uint n => .uint n

def valueTo : Spec.Value → FlagValue
  | .bool b => .bool b
  | .string s => .string s
  | .uint n => .uint n

theorem valueOf_to (x : Spec.Value) : valueOf (valueTo x) = x := by cases x <;> rfl
theorem valueTo_of (x : FlagValue) : valueTo (valueOf x) = x := by cases x <;> rfl

def settingsOf (l : List (Bytes × FlagValue)) : List (Bytes × Spec.Value) := l.map fun s => (s.1, valueOf s.2)

def kinds (f : Bytes → Option FlagKind) (name : Bytes) : Option Spec.Kind := (f name).map kindOf

theorem settingsOf_surj (l : List (Bytes × Spec.Value)) :
    settingsOf (l.map fun s => (s.1, valueTo s.2)) = l := by
  unfold settingsOf
  rw [List.map_map]
  conv_rhs => rw [← List.map_id l]
  apply List.map_congr_left
  intro a _
  simp [valueOf_to]

theorem settingsOf_inj {l m : List (Bytes × FlagValue)} (h : settingsOf l = settingsOf m) : l = m := by
  have : ∀ l, (settingsOf l).map (fun s => (s.1, valueTo s.2)) = l := by
    intro l
    unfold settingsOf
    rw [List.map_map]
    conv_rhs => rw [← List.map_id l]
    apply List.map_congr_left
    intro a _
    simp [valueTo_of]
  rw [← this l, h, this m]

theorem parseBool_iff (v : Bytes) (b : Bool) : parseBool v = some b ↔ Reads .bool v (.bool b) := by
  unfold parseBool
  constructor
  · intro h
    split at h
    · rename_i hm
      cases h
      refine .yes ?_
      simp only [List.mem_cons, List.not_mem_nil, or_false] at hm ⊢
      tauto
    · split at h
      · rename_i hm
        cases h
        refine .no ?_
        simp only [List.mem_cons, List.not_mem_nil, or_false] at hm ⊢
        tauto
      · cases h
  · intro h
    cases h with
    | yes hm =>
      rw [if_pos]
      simp only [List.mem_cons, List.not_mem_nil, or_false] at hm ⊢
      tauto
    | no hm =>
      rw [if_neg, if_pos]
      · simp only [List.mem_cons, List.not_mem_nil, or_false] at hm ⊢
        tauto
      · simp only [List.mem_cons, List.not_mem_nil, or_false] at hm
        rcases hm with rfl | rfl | rfl | rfl | rfl | rfl <;> decide

theorem setValue_iff (k : FlagKind) (v : Bytes) (x : FlagValue) :
    setValue k v = some x ↔ Reads (kindOf k) v (valueOf x) := by
  cases k with
  | bool =>
    simp only [setValue, kindOf, Option.map_eq_some_iff, parseBool_iff]
    constructor
    · rintro ⟨b, h, rfl⟩; exact h
    · intro h
      cases x with
      | bool b => exact ⟨b, h, rfl⟩
      | string => cases h
      | uint => cases h
  | string =>
    simp only [setValue, kindOf, Option.some.injEq]
    constructor
    · rintro rfl; exact .string v
    · intro h
      cases x with
      | bool b => cases h
      | string => cases h; rfl
      | uint => cases h
  | uint =>
    simp only [setValue, kindOf, Option.map_eq_some_iff, parseUintAny_iff]
    constructor
    · rintro ⟨b, h, rfl⟩; exact .uint h.1 h.2
    · intro h
      cases x with
      | bool b => cases h
      | string => cases h
      | uint n => cases h with | uint h1 h2 => exact ⟨n, ⟨h1, h2⟩, rfl⟩

/-! ## Arguments -/

theorem str_dash : str "-" = [0x2D] := by decide
theorem str_dashes : str "--" = [0x2D, 0x2D] := by decide
theorem str_eq : str "=" = [0x3D] := by decide

def GoodName (name : Bytes) : Prop := name ≠ [] ∧ name.head? ≠ some 0x2D ∧ 0x3D ∉ name

def valueText : Option Bytes → Bytes
  | none => []
  | some v => str "=" ++ v

theorem classify_positional (s : Bytes) : classify s = .positional ↔ NotFlag s := by
  unfold classify NotFlag
  match s with
  | [] => simp
  | [a] => simp
  | a :: b :: t =>
    by_cases ha : a = 0x2D
    · subst ha
      constructor
      · intro h
        exfalso
        revert h
        rw [if_neg (by simp)]
        split
        · simp
        · generalize List.drop (if (0x2D :: b :: t : Bytes)[1]? = some 0x2D then 2 else 1) (0x2D :: b :: t) = nm
          dsimp only
          split <;> simp
      · intro h; exact absurd rfl (h b t)
    · rw [if_pos (by simp [ha])]
      simp [ha]

theorem classify_dashes (s : Bytes) : classify s = .dashes ↔ s = str "--" := by
  unfold classify
  constructor
  · intro h
    split at h
    · cases h
    · split at h
      · assumption
      · generalize List.drop (if s[1]? = some 0x2D then 2 else 1) s = nm at h
        dsimp only at h
        split at h <;> cases h
  · rintro rfl; decide

theorem takeWhile_ne_mem (l : Bytes) : 0x3D ∉ l.takeWhile (· ≠ 0x3D) := by
  intro h
  have := List.mem_takeWhile_imp h
  simp at this

theorem cutValue_good {name : Bytes} (h : GoodName name) (value : Option Bytes) :
    cutValue (name ++ valueText value) = (name, value) := by
  obtain ⟨h1, _, h3⟩ := h
  match name with
  | [] => exact absurd rfl h1
  | c :: rest =>
    have hr : ∀ a ∈ rest, (decide (a ≠ (0x3D : Byte))) = true := by
      intro a ha
      simp only [decide_eq_true_eq]
      rintro rfl
      exact h3 (List.mem_cons_of_mem _ ha)
    cases value with
    | none =>
      simp only [valueText, List.append_nil, cutValue]
      rw [List.dropWhile_eq_nil_iff.2 hr]
    | some v =>
      simp only [valueText, str_eq, List.cons_append, List.nil_append, cutValue]
      rw [List.dropWhile_append_of_pos hr, List.takeWhile_append_of_pos hr]
      simp

theorem cutValue_text (c : Byte) (rest : Bytes) (hc : c ≠ 0x3D) :
    (cutValue (c :: rest)).1 ++ valueText (cutValue (c :: rest)).2 = c :: rest ∧
      0x3D ∉ (cutValue (c :: rest)).1 ∧ (cutValue (c :: rest)).1.head? = some c := by
  unfold cutValue
  dsimp only
  split
  · rename_i h
    refine ⟨by simp [valueText], ?_, rfl⟩
    have := List.dropWhile_eq_nil_iff.1 h
    intro hm
    rcases List.mem_cons.1 hm with hm | hm
    · exact hc hm.symm
    · have := this _ hm
      simp at this
  · rename_i d v h
    have hd : d = 0x3D := by
      have := List.head?_dropWhile_not (fun x : Byte => decide (x ≠ 0x3D)) rest
      rw [h] at this
      simpa using this
    refine ⟨?_, ?_, rfl⟩
    · simp only [valueText, str_eq, List.cons_append, List.nil_append, List.cons.injEq, true_and]
      rw [hd] at h
      rw [← h]
      exact List.takeWhile_append_dropWhile
    · intro hm
      rcases List.mem_cons.1 hm with hm | hm
      · exact hc hm.symm
      · exact takeWhile_ne_mem _ hm

theorem classify_flag (s name : Bytes) (value : Option Bytes) : classify s = .flag name value ↔
    ∃ dash, (dash = str "-" ∨ dash = str "--") ∧ GoodName name ∧ s = dash ++ name ++ valueText value := by
  constructor
  · intro h
    unfold classify at h
    split at h
    · cases h
    · rename_i h1
      split at h
      · cases h
      · rename_i h2
        generalize hnm : List.drop (if s[1]? = some 0x2D then 2 else 1) s = nm at h
        dsimp only at h
        split at h
        · cases h
        · rename_i h3
          simp only [not_or, not_not] at h1 h3
          subst hnm
          match s with
          | [] => simp at h1
          | [a] => simp at h1
          | a :: b :: t =>
            have ha : a = 0x2D := by simpa using h1.2
            subst ha
            simp only [Arg.flag.injEq] at h
            by_cases hb : b = 0x2D
            · subst hb
              simp only [List.getElem?_cons_succ, List.getElem?_cons_zero, if_true, List.drop_succ_cons,
                List.drop_zero] at h h3
              match t with
              | [] => exact absurd rfl h3.1
              | c :: u =>
                obtain ⟨e1, e2, e3⟩ := cutValue_text c u (by simpa using h3.2.2)
                rw [h.1, h.2] at e1
                rw [h.1] at e2 e3
                refine ⟨str "--", .inr rfl, ⟨?_, ?_, e2⟩, ?_⟩
                · rintro rfl; cases e3
                · rw [e3]; exact h3.2.1
                · rw [str_dashes, List.append_assoc, e1]; rfl
            · simp only [List.getElem?_cons_succ, List.getElem?_cons_zero, Option.some.injEq, hb, if_false,
                List.drop_succ_cons, List.drop_zero] at h h3
              obtain ⟨e1, e2, e3⟩ := cutValue_text b t (by simpa using h3.2.2)
              rw [h.1, h.2] at e1
              rw [h.1] at e2 e3
              refine ⟨str "-", .inl rfl, ⟨?_, ?_, e2⟩, ?_⟩
              · rintro rfl; cases e3
              · rw [e3]; exact h3.2.1
              · rw [str_dash, List.append_assoc, e1]; rfl
  · rintro ⟨dash, hd, hg, rfl⟩
    have hcut := cutValue_good hg value
    obtain ⟨h1, h2, h3⟩ := hg
    match name with
    | [] => exact absurd rfl h1
    | c :: rest =>
      have hc : c ≠ 0x2D := by simpa using h2
      have hc' : c ≠ 0x3D := by rintro rfl; exact h3 (by simp)
      rw [List.append_assoc]
      unfold classify
      rcases hd with rfl | rfl
      · rw [str_dash, if_neg (by simp), if_neg (by simp [str_dashes, hc])]
        simp only [List.cons_append, List.nil_append, List.getElem?_cons_succ, List.getElem?_cons_zero,
          Option.some.injEq, hc, if_false, List.drop_succ_cons, List.drop_zero]
        rw [if_neg (by simp [hc, hc'])]
        rw [List.cons_append] at hcut
        rw [hcut]
      · rw [str_dashes, if_neg (by simp), if_neg (by simp)]
        simp only [List.cons_append, List.nil_append, List.getElem?_cons_succ, List.getElem?_cons_zero,
          if_true, List.drop_succ_cons, List.drop_zero]
        rw [if_neg (by simp [hc, hc'])]
        rw [List.cons_append] at hcut
        rw [hcut]

/-! ## Command lines -/

theorem set_ok {y : Bytes × FlagValue} {r : ParsedArgs} {settings rest} :
    r.set y = .ok settings rest ↔ ∃ tail, settings = y :: tail ∧ r = .ok tail rest := by
  cases r with
  | ok s r =>
    simp only [ParsedArgs.set, ParsedArgs.ok.injEq]
    constructor
    · rintro ⟨rfl, rfl⟩; exact ⟨_, rfl, rfl, rfl⟩
    · rintro ⟨_, rfl, rfl, rfl⟩; exact ⟨rfl, rfl⟩
  | help => simp [ParsedArgs.set]
  | failed => simp [ParsedArgs.set]

theorem set_help {y : Bytes × FlagValue} {r : ParsedArgs} : r.set y = .help ↔ r = .help := by
  cases r <;> simp [ParsedArgs.set]

theorem parseArgs_flag_none {f} {s name : Bytes} {value} {args} (h : classify s = .flag name value)
    (hf : f name = none) :
    parseArgs f (s :: args) = if name = str "help" ∨ name = str "h" then .help else .failed := by
  rw [parseArgs.eq_def]
  simp only [h, hf]

theorem parseArgs_switch {f} {s name : Bytes} {args} (h : classify s = .flag name none)
    (hf : f name = some .bool) :
    parseArgs f (s :: args) = (parseArgs f args).set (name, .bool true) := by
  rw [parseArgs.eq_def]
  simp only [h, hf]

theorem parseArgs_equals {f} {s name v : Bytes} {k} {args} (h : classify s = .flag name (some v))
    (hf : f name = some k) :
    parseArgs f (s :: args) = match setValue k v with
      | none => .failed
      | some x => (parseArgs f args).set (name, x) := by
  rw [parseArgs.eq_def]
  cases k <;> simp only [h, hf] <;> cases setValue _ v <;> rfl

theorem parseArgs_next {f} {s name : Bytes} {k} {args} (h : classify s = .flag name none)
    (hf : f name = some k) (hk : k ≠ .bool) :
    parseArgs f (s :: args) = match args with
      | [] => .failed
      | v :: args => match setValue k v with
        | none => .failed
        | some x => (parseArgs f args).set (name, x) := by
  rw [parseArgs.eq_def]
  cases k with
  | bool => exact absurd rfl hk
  | string => simp only [h, hf]; cases args <;> rfl
  | uint => simp only [h, hf]; cases args <;> rfl

theorem valueText_none (l : Bytes) : l ++ valueText none = l := by simp [valueText]
theorem valueText_some (l v : Bytes) : l ++ valueText (some v) = l ++ str "=" ++ v := by simp [valueText]

theorem kindOf_bool {k : FlagKind} : kindOf k = .bool ↔ k = .bool := by cases k <;> simp [kindOf]

theorem kinds_some {f : Bytes → Option FlagKind} {name : Bytes} {k : Spec.Kind} (h : kinds f name = some k) :
    ∃ k', f name = some k' ∧ kindOf k' = k := by
  unfold kinds at h
  exact Option.map_eq_some_iff.1 h

theorem kinds_of {f : Bytes → Option FlagKind} {name : Bytes} {k : FlagKind} (h : f name = some k) :
    kinds f name = some (kindOf k) := by
  unfold kinds
  rw [h]
  rfl

theorem kinds_bool {f : Bytes → Option FlagKind} {name : Bytes} (h : kinds f name = some .bool) :
    f name = some .bool := by
  obtain ⟨k, h1, h2⟩ := kinds_some h
  rw [kindOf_bool] at h2
  rw [h1, h2]

theorem commandLine_of_parse {f : Bytes → Option FlagKind} : ∀ (n : Nat) (args : List Bytes), args.length ≤ n →
    ∀ settings rest, parseArgs f args = .ok settings rest →
      CommandLine (kinds f) (settingsOf settings) rest args := by
  intro n
  induction n with
  | zero =>
    intro args hn settings rest h
    match args with
    | [] => rw [parseArgs] at h; cases h; exact .nothing
    | _ :: _ => simp at hn
  | succ n ih =>
    intro args hn settings rest h
    match args with
    | [] => rw [parseArgs] at h; cases h; exact .nothing
    | s :: args =>
      simp only [List.length_cons] at hn
      cases hc : classify s with
      | positional =>
        rw [parseArgs.eq_def] at h
        simp only [hc] at h
        cases h
        exact .positional _ ((classify_positional s).1 hc)
      | dashes =>
        rw [parseArgs.eq_def] at h
        simp only [hc] at h
        cases h
        rw [(classify_dashes s).1 hc]
        exact .dashes _
      | bad =>
        rw [parseArgs.eq_def] at h
        simp only [hc] at h
        cases h
      | flag name value =>
        obtain ⟨dash, hd, hg, hs⟩ := (classify_flag s name value).1 hc
        cases hf : f name with
        | none =>
          rw [parseArgs_flag_none hc hf] at h
          split at h <;> cases h
        | some k =>
          cases value with
          | some v =>
            rw [parseArgs_equals hc hf] at h
            cases hx : setValue k v with
            | none => rw [hx] at h; cases h
            | some x =>
              rw [hx] at h
              obtain ⟨tail, rfl, ht⟩ := set_ok.1 h
              rw [valueText_some] at hs
              rw [hs]
              exact .equals hd (kinds_of hf) ((setValue_iff _ _ _).1 hx) (ih _ (by omega) _ _ ht)
          | none =>
            rw [valueText_none] at hs
            rw [hs]
            by_cases hk : k = .bool
            · subst hk
              rw [parseArgs_switch hc hf] at h
              obtain ⟨tail, rfl, ht⟩ := set_ok.1 h
              exact .switch hd (kinds_of hf) (ih _ (by omega) _ _ ht)
            · rw [parseArgs_next hc hf hk] at h
              match args with
              | [] => cases h
              | v :: args =>
                dsimp only at h
                cases hx : setValue k v with
                | none => rw [hx] at h; cases h
                | some x =>
                  rw [hx] at h
                  obtain ⟨tail, rfl, ht⟩ := set_ok.1 h
                  simp only [List.length_cons] at hn
                  exact .next hd (kinds_of hf) (by rwa [ne_eq, kindOf_bool]) ((setValue_iff _ _ _).1 hx)
                    (ih _ (by omega) _ _ ht)

theorem parse_of_commandLine {f : Bytes → Option FlagKind} (hg : GoodNames (kinds f)) {settings' rest args}
    (h : CommandLine (kinds f) settings' rest args) :
    ∃ settings, settingsOf settings = settings' ∧ parseArgs f args = .ok settings rest := by
  induction h with
  | nothing => exact ⟨[], rfl, by rw [parseArgs]⟩
  | positional rest hs =>
    refine ⟨[], rfl, ?_⟩
    rw [parseArgs.eq_def]
    simp only [(classify_positional _).2 hs]
  | dashes rest =>
    refine ⟨[], rfl, ?_⟩
    rw [parseArgs.eq_def]
    simp only [(classify_dashes _).2 rfl]
  | @equals dash name v k x _ _ args hd hk hr _ ih =>
    obtain ⟨settings, h1, h2⟩ := ih
    obtain ⟨k', hf, rfl⟩ := kinds_some hk
    have hc : classify (dash ++ name ++ str "=" ++ v) = .flag name (some v) :=
      (classify_flag _ _ _).2 ⟨dash, hd, hg _ _ hk, by rw [valueText_some]⟩
    rw [← valueOf_to x, ← setValue_iff] at hr
    refine ⟨(name, valueTo x) :: settings, ?_, ?_⟩
    · simp only [settingsOf, List.map_cons, valueOf_to]
      rw [← h1]
      rfl
    · rw [parseArgs_equals hc hf, hr, h2]
      rfl
  | @switch dash name _ _ args hd hk _ ih =>
    obtain ⟨settings, h1, h2⟩ := ih
    have hc : classify (dash ++ name) = .flag name none :=
      (classify_flag _ _ _).2 ⟨dash, hd, hg _ _ hk, by rw [valueText_none]⟩
    refine ⟨(name, .bool true) :: settings, ?_, ?_⟩
    · simp only [settingsOf, List.map_cons]
      rw [← h1]
      rfl
    · rw [parseArgs_switch hc (kinds_bool hk), h2]
      rfl
  | @next dash name v k x _ _ args hd hk hk' hr _ ih =>
    obtain ⟨settings, h1, h2⟩ := ih
    obtain ⟨k', hf, rfl⟩ := kinds_some hk
    have hc : classify (dash ++ name) = .flag name none :=
      (classify_flag _ _ _).2 ⟨dash, hd, hg _ _ hk, by rw [valueText_none]⟩
    rw [← valueOf_to x, ← setValue_iff] at hr
    refine ⟨(name, valueTo x) :: settings, ?_, ?_⟩
    · simp only [settingsOf, List.map_cons, valueOf_to]
      rw [← h1]
      rfl
    · rw [parseArgs_next hc hf (by rwa [ne_eq, ← kindOf_bool])]
      dsimp only
      rw [hr, h2]
      rfl

theorem parseArgs_ok {f : Bytes → Option FlagKind} (hg : GoodNames (kinds f)) (args settings rest) :
    parseArgs f args = .ok settings rest ↔ CommandLine (kinds f) (settingsOf settings) rest args := by
  constructor
  · exact commandLine_of_parse args.length args le_rfl settings rest
  · intro h
    obtain ⟨s, h1, h2⟩ := parse_of_commandLine hg h
    rw [settingsOf_inj h1] at h2
    exact h2

theorem asksHelp_of_parse {f : Bytes → Option FlagKind} : ∀ (n : Nat) (args : List Bytes), args.length ≤ n →
    parseArgs f args = .help → AsksHelp (kinds f) args := by
  intro n
  induction n with
  | zero =>
    intro args hn h
    match args with
    | [] => rw [parseArgs] at h; cases h
    | _ :: _ => simp at hn
  | succ n ih =>
    intro args hn h
    match args with
    | [] => rw [parseArgs] at h; cases h
    | s :: args =>
      simp only [List.length_cons] at hn
      cases hc : classify s with
      | positional => rw [parseArgs.eq_def] at h; simp only [hc] at h; cases h
      | dashes => rw [parseArgs.eq_def] at h; simp only [hc] at h; cases h
      | bad => rw [parseArgs.eq_def] at h; simp only [hc] at h; cases h
      | flag name value =>
        obtain ⟨dash, hd, hg, hs⟩ := (classify_flag s name value).1 hc
        cases hf : f name with
        | none =>
          rw [parseArgs_flag_none hc hf] at h
          split at h
          · rename_i hn
            rw [hs]
            refine .help hd hn (by unfold kinds; rw [hf]; rfl) ?_
            cases value with
            | none => exact .inl rfl
            | some v => exact .inr ⟨v, rfl⟩
          · cases h
        | some k =>
          cases value with
          | some v =>
            rw [parseArgs_equals hc hf] at h
            cases hx : setValue k v with
            | none => rw [hx] at h; cases h
            | some x =>
              rw [hx] at h
              rw [valueText_some] at hs
              rw [hs]
              exact .equals hd (kinds_of hf) ((setValue_iff _ _ _).1 hx) (ih _ (by omega) (set_help.1 h))
          | none =>
            rw [valueText_none] at hs
            rw [hs]
            by_cases hk : k = .bool
            · subst hk
              rw [parseArgs_switch hc hf] at h
              exact .switch hd (kinds_of hf) (ih _ (by omega) (set_help.1 h))
            · rw [parseArgs_next hc hf hk] at h
              match args with
              | [] => cases h
              | v :: args =>
                dsimp only at h
                cases hx : setValue k v with
                | none => rw [hx] at h; cases h
                | some x =>
                  rw [hx] at h
                  simp only [List.length_cons] at hn
                  exact .next hd (kinds_of hf) (by rwa [ne_eq, kindOf_bool]) ((setValue_iff _ _ _).1 hx)
                    (ih _ (by omega) (set_help.1 h))

theorem parseArgs_help {f : Bytes → Option FlagKind} (hg : GoodNames (kinds f)) (args) :
    parseArgs f args = .help ↔ AsksHelp (kinds f) args := by
  constructor
  · exact asksHelp_of_parse args.length args le_rfl
  · intro h
    induction h with
    | @help dash name v args hd hn hk hv =>
      have hf : f name = none := by
        unfold kinds at hk
        simpa using hk
      have hgood : GoodName name := by
        rcases hn with rfl | rfl <;> exact ⟨by decide, by decide, by decide⟩
      have hc : ∃ value, classify (dash ++ name ++ v) = .flag name value := by
        rcases hv with rfl | ⟨w, rfl⟩
        · exact ⟨none, (classify_flag _ _ _).2 ⟨dash, hd, hgood, rfl⟩⟩
        · exact ⟨some w, (classify_flag _ _ _).2 ⟨dash, hd, hgood, rfl⟩⟩
      obtain ⟨value, hc⟩ := hc
      rw [parseArgs_flag_none hc hf, if_pos hn]
    | @equals dash name v k x args hd hk hr _ ih =>
      obtain ⟨k', hf, rfl⟩ := kinds_some hk
      have hc : classify (dash ++ name ++ str "=" ++ v) = .flag name (some v) :=
        (classify_flag _ _ _).2 ⟨dash, hd, hg _ _ hk, by rw [valueText_some]⟩
      rw [← valueOf_to x, ← setValue_iff] at hr
      rw [parseArgs_equals hc hf, hr, ih]
      rfl
    | @switch dash name args hd hk _ ih =>
      have hc : classify (dash ++ name) = .flag name none :=
        (classify_flag _ _ _).2 ⟨dash, hd, hg _ _ hk, by rw [valueText_none]⟩
      rw [parseArgs_switch hc (kinds_bool hk), ih]
      rfl
    | @next dash name v k x args hd hk hk' hr _ ih =>
      obtain ⟨k', hf, rfl⟩ := kinds_some hk
      have hc : classify (dash ++ name) = .flag name none :=
        (classify_flag _ _ _).2 ⟨dash, hd, hg _ _ hk, by rw [valueText_none]⟩
      rw [← valueOf_to x, ← setValue_iff] at hr
      rw [parseArgs_next hc hf (by rwa [ne_eq, ← kindOf_bool])]
      dsimp only
      rw [hr, ih]
      rfl

theorem goodNames_of {l : List (Bytes × FlagKind)}
    (h : ∀ p ∈ l, p.1 ≠ [] ∧ p.1.head? ≠ some 0x2D ∧ 0x3D ∉ p.1) : GoodNames (kinds (l.lookup ·)) := by
  intro name k hk
  obtain ⟨k', hf, _⟩ := kinds_some hk
  have : (name, k') ∈ l := by
    clear h hk
    induction l with
    | nil => cases hf
    | cons p l ih =>
      rw [List.lookup_cons] at hf
      split at hf
      · rename_i h
        have h := eq_of_beq h
        cases hf
        rw [h]
        exact List.mem_cons_self
      · exact List.mem_cons_of_mem _ (ih hf)
  exact h _ this

theorem goodNames (cmd : Cmd) : GoodNames (kinds (formal cmd)) :=
  goodNames_of (l := flagsOf cmd) (by cases cmd <;> decide)

end Verif.Proofs
