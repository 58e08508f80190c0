import Verif.Model.Cli.Format
import Verif.Spec.Calendar
import Mathlib.Tactic.IntervalCases
import Mathlib.Tactic.Ring

/-! # Lemmas on dates -/

namespace Verif.Proofs

open Verif.Model Verif.Model.Cli Verif.Spec

/-! ## Digits -/

theorem digits_zero : ∀ n, digits n 0 = List.replicate n 0x30
  | 0 => rfl
  | n + 1 => by
    rw [digits, Nat.zero_div, digits_zero n, List.replicate_succ']
    rfl

theorem decimalLoop_length : ∀ (n w u : Nat), u < 10 ^ w → 0 < w → (decimalLoop n u).length ≤ w
  | 0, w, u, _, _ => by simp [decimalLoop]
  | n + 1, w, u, h, h0 => by
    unfold decimalLoop
    split
    · rename_i h10
      obtain ⟨w, rfl⟩ : ∃ w', w = w' + 1 := ⟨w - 1, by omega⟩
      rw [Nat.pow_succ] at h
      have hw : 0 < w := by
        rcases Nat.eq_zero_or_pos w with rfl | h
        · simp at h; omega
        · exact h
      have := decimalLoop_length n w (u / 10) (by omega) hw
      simpa using this
    · simp; omega

theorem pad_digits : ∀ (n w u : Nat), u < 10 ^ w → w ≤ n → 0 < w →
    List.replicate (w - (decimalLoop n u).length) 0x30 ++ decimalLoop n u = digits w u
  | 0, w, u, _, hn, h0 => by omega
  | n + 1, w, u, h, hn, h0 => by
    obtain ⟨w, rfl⟩ : ∃ w', w = w' + 1 := ⟨w - 1, by omega⟩
    have e : u - u / 10 * 10 = u % 10 := by omega
    rw [Nat.pow_succ] at h
    unfold decimalLoop
    split
    · rename_i h10
      have hw : 0 < w := by
        rcases Nat.eq_zero_or_pos w with rfl | h
        · simp at h; omega
        · exact h
      have ih := pad_digits n w (u / 10) (by omega) (by omega) hw
      rw [digits, ← ih, e]
      simp
    · rename_i h10
      have h1 : u / 10 = 0 := by omega
      have h2 : u % 10 = u := by omega
      rw [digits, h1, h2, digits_zero]
      simp

theorem appendInt_eq {x : Nat} {w : Nat} (h : x < 10 ^ w) (h0 : 0 < w) (hw : w ≤ 20) : appendInt (x : Int) w = digits w x := by
  unfold appendInt
  dsimp only
  rw [if_neg (by omega), List.nil_append, Int.natAbs_natCast]
  exact pad_digits 20 w x h hw h0

/-! ## Years -/

theorem months_sum (year : Nat) : (months year).sum = if Leap year then 366 else 365 := by
  unfold months
  split <;> rfl

theorem leap_iff (year : Nat) : Leap year ↔ year % 4 = 0 ∧ (year % 100 = 0 → year % 400 = 0) := by
  unfold Leap
  simp only [Nat.dvd_iff_mod_eq_zero]

/-- A quotient grows by one where the remainder becomes zero -/
theorem succ_div (y k : Nat) : (y + 1) / k = y / k + if (y + 1) % k = 0 then 1 else 0 := by
  rw [Nat.succ_div]
  simp only [Nat.dvd_iff_mod_eq_zero]

theorem daysBeforeYear_succ : ∀ y : Nat, daysBeforeYear (y + 1) + y / 100 = 366 + 365 * y + y / 4 + y / 400
  | 0 => by decide
  | y + 1 => by
    have ih := daysBeforeYear_succ y
    have hl := leap_iff (y + 1)
    have h1 : (y + 1) % 400 = 0 → (y + 1) % 100 = 0 := by omega
    have h2 : (y + 1) % 100 = 0 → (y + 1) % 4 = 0 := by omega
    rw [daysBeforeYear, months_sum, succ_div y 4, succ_div y 100, succ_div y 400]
    generalize daysBeforeYear (y + 1) = a at *
    generalize y / 4 = b4 at *
    generalize y / 100 = b100 at *
    generalize y / 400 = b400 at *
    by_cases c4 : (y + 1) % 4 = 0 <;> by_cases c100 : (y + 1) % 100 = 0 <;> by_cases c400 : (y + 1) % 400 = 0 <;>
      simp_all <;> omega

theorem isLeap_iff (year : Nat) : isLeap (year : Int) = decide (Leap year) := by
  rw [Bool.eq_iff_iff, decide_eq_true_iff, leap_iff]
  unfold isLeap
  simp only [Bool.and_eq_true, Bool.or_eq_true, decide_eq_true_eq]
  omega

/-! ## Days of a year -/

/-- What month and day of the year must be -/
def okDay (leap : Bool) (d : Nat) (month day : Int) : Bool :=
  let lengths := [31, if leap then 29 else 28, 31, 30, 31, 30, 31, 31, 30, 31, 30, 31]
  (1 ≤ month) && (month ≤ 12) && (1 ≤ day) && (day.toNat ≤ lengths.getD (month.toNat - 1) 0) &&
    ((lengths.take (month.toNat - 1)).sum + (day.toNat - 1) = d)

/-- Every day of a year, leap or not -/
theorem monthDay_table : ∀ leap : Bool, ∀ d < (if leap then 366 else 365),
    okDay leap d (monthDay leap ((d : Nat) : Int)).1 (monthDay leap ((d : Nat) : Int)).2 = true := by
  decide +kernel

theorem monthDay_eq (year d : Nat) (h : d < (months year).sum) : ∃ month day : Nat,
    monthDay (decide (Leap year)) (d : Int) = ((month : Int), (day : Int)) ∧ 1 ≤ month ∧ month ≤ 12 ∧ 1 ≤ day ∧
    day ≤ (months year).getD (month - 1) 0 ∧ ((months year).take (month - 1)).sum + (day - 1) = d := by
  have := monthDay_table (decide (Leap year)) d (by
    rw [months_sum] at h
    simpa using h)
  generalize monthDay (decide (Leap year)) (d : Int) = md at this ⊢
  obtain ⟨month, day⟩ := md
  simp only [okDay, Bool.and_eq_true, decide_eq_true_eq] at this
  obtain ⟨⟨⟨⟨h1, h2⟩, h3⟩, h4⟩, h5⟩ := this
  obtain ⟨m, rfl⟩ := Int.eq_ofNat_of_zero_le (show 0 ≤ month by omega)
  obtain ⟨n, rfl⟩ := Int.eq_ofNat_of_zero_le (show 0 ≤ day by omega)
  exact ⟨m, n, rfl, by omega, by omega, by omega, by simpa [months] using h4, by simpa [months] using h5⟩

/-! ## Dates -/

/-- The cycles of 400, 100, 4 and 1 years, for a day counted from the first of the year 1 -/
theorem cycles (d : Nat) : ∃ a b c e r : Nat, b ≤ 3 ∧ c ≤ 24 ∧ e ≤ 3 ∧
    a = d / 146097 ∧ b = (d - 146097 * a) / 36524 - (d - 146097 * a) / 36524 / 4 ∧
    c = (d - 146097 * a - 36524 * b) / 1461 ∧
    e = (d - 146097 * a - 36524 * b - 1461 * c) / 365 - (d - 146097 * a - 36524 * b - 1461 * c) / 365 / 4 ∧
    d = 146097 * a + 36524 * b + 1461 * c + 365 * e + r ∧
    (r < 365 ∨ r = 365 ∧ e = 3 ∧ (c = 24 → b = 3)) := by
  obtain ⟨a, ha⟩ : ∃ a, a = d / 146097 := ⟨_, rfl⟩
  obtain ⟨r1, h1⟩ : ∃ r1, r1 = d - 146097 * a := ⟨_, rfl⟩
  have b1 : r1 < 146097 := by omega
  have e1 : d = 146097 * a + r1 := by omega
  obtain ⟨b, hb⟩ : ∃ b, b = r1 / 36524 - r1 / 36524 / 4 := ⟨_, rfl⟩
  obtain ⟨r2, h2⟩ : ∃ r2, r2 = r1 - 36524 * b := ⟨_, rfl⟩
  have b2 : b ≤ 3 ∧ (r2 < 36524 ∨ r2 = 36524 ∧ b = 3) ∧ r1 = 36524 * b + r2 := by omega
  obtain ⟨c, hc⟩ : ∃ c, c = r2 / 1461 := ⟨_, rfl⟩
  obtain ⟨r3, h3⟩ : ∃ r3, r3 = r2 - 1461 * c := ⟨_, rfl⟩
  have b3 : c ≤ 24 ∧ r3 < 1461 ∧ r2 = 1461 * c + r3 := by omega
  obtain ⟨e, he⟩ : ∃ e, e = r3 / 365 - r3 / 365 / 4 := ⟨_, rfl⟩
  obtain ⟨r, h4⟩ : ∃ r, r = r3 - 365 * e := ⟨_, rfl⟩
  have b4 : e ≤ 3 ∧ (r < 365 ∨ r = 365 ∧ e = 3) ∧ r3 = 365 * e + r := by omega
  refine ⟨a, b, c, e, r, b2.1, b3.1, b4.1, ha, ?_, ?_, ?_, ?_, ?_⟩
  · rw [← h1]; exact hb
  · rw [← h1, ← h2]; exact hc
  · rw [← h1, ← h2, ← h3]; exact he
  · clear ha h1 hb h2 hc h3 he h4
    omega
  · clear ha h1 hb h2 hc h3 he h4
    omega

/-- The days before a year, by cycles -/
theorem daysBeforeYear_cycles (a b c e : Nat) (hb : b ≤ 3) (hc : c ≤ 24) (he : e ≤ 3) :
    daysBeforeYear (400 * a + 100 * b + 4 * c + e + 1) = 366 + 146097 * a + 36524 * b + 1461 * c + 365 * e := by
  have h := daysBeforeYear_succ (400 * a + 100 * b + 4 * c + e)
  have h4 : (400 * a + 100 * b + 4 * c + e) / 4 = 100 * a + 25 * b + c := by omega
  have h100 : (400 * a + 100 * b + 4 * c + e) / 100 = 4 * a + b := by omega
  have h400 : (400 * a + 100 * b + 4 * c + e) / 400 = a := by omega
  rw [h4, h100, h400] at h
  omega

theorem absDate_eq (d sec : Nat) (hs : sec < 86400) : ∃ year month day : Nat,
    absDate (((d * 86400 + sec : Nat) : Int) + 9223371966579724800) = ((year : Int), (month : Int), (day : Int)) ∧
    1 ≤ month ∧ month ≤ 12 ∧ 1 ≤ day ∧ day ≤ (months year).getD (month - 1) 0 ∧
    daysBeforeDay year month day = d + 366 := by
  obtain ⟨a, b, c, e, r, hb, hc, he, ea, eb, ec, ee, ed, hr⟩ := cycles d
  obtain ⟨year, hy⟩ : ∃ year, year = 400 * a + 100 * b + 4 * c + e + 1 := ⟨_, rfl⟩
  have hdays := daysBeforeYear_cycles a b c e hb hc he
  rw [← hy] at hdays
  have hlt : r < (months year).sum := by
    rw [months_sum]
    rcases hr with hr | ⟨hr, h3, h24⟩
    · split <;> omega
    · rw [if_pos ((leap_iff year).2 ⟨by clear ea eb ec ee ed hdays; omega, fun h => ?_⟩)]
      · omega
      · clear ea eb ec ee ed hdays
        have h' : (4 * c + e + 1) % 100 = 0 := by omega
        have := h24 (by omega)
        subst this
        omega
  obtain ⟨month, day, hm, h1, h2, h3, h4, h5⟩ := monthDay_eq year r hlt
  refine ⟨year, month, day, ?_, h1, h2, h3, h4, ?_⟩
  · have e0 : (((d * 86400 + sec : Nat) : Int) + 9223371966579724800) / 86400 = 106751990353932 + d := by omega
    unfold absDate
    dsimp only
    rw [e0]
    have hr3 : d - 146097 * a - 36524 * b - 1461 * c = 365 * e + r := by
      clear ea eb ec ee
      omega
    have i1 : ((106751990353932 : Int) + d) / 146097 = 730692556 + a := by omega
    rw [i1]
    have i2 : (106751990353932 : Int) + d - 146097 * (730692556 + a) = ((d - 146097 * a : Nat) : Int) := by omega
    rw [i2]
    generalize d - 146097 * a = r1 at *
    have i3 : ((r1 : Int) / 36524 - (r1 : Int) / 36524 / 4) = (b : Int) := by omega
    rw [i3]
    have i4 : (r1 : Int) - 36524 * b = ((r1 - 36524 * b : Nat) : Int) := by omega
    rw [i4]
    generalize r1 - 36524 * b = r2 at *
    have i5 : (r2 : Int) / 1461 = (c : Int) := by omega
    rw [i5]
    have i6 : (r2 : Int) - 1461 * c = ((r2 - 1461 * c : Nat) : Int) := by omega
    rw [i6]
    generalize r2 - 1461 * c = r3 at *
    have i7 : ((r3 : Int) / 365 - (r3 : Int) / 365 / 4) = (e : Int) := by omega
    rw [i7]
    have i8 : (r3 : Int) - 365 * e = (r : Int) := by omega
    have i9 : (400 * (730692556 + a) + 100 * b + 4 * c + e + absoluteZeroYear : Int) = (year : Int) := by
      unfold absoluteZeroYear
      omega
    rw [i8, i9, isLeap_iff, hm]
  · rw [daysBeforeDay, hdays]
    omega

/-! ## Texts -/

theorem absClock_eq (d sec : Nat) (hs : sec < 86400) : ∃ hour minute second : Nat,
    absClock (((d * 86400 + sec : Nat) : Int) + 9223371966579724800) = ((hour : Int), (minute : Int), (second : Int)) ∧
    hour < 24 ∧ minute < 60 ∧ second < 60 ∧ hour * 3600 + minute * 60 + second = sec := by
  have e0 : (((d * 86400 + sec : Nat) : Int) + 9223371966579724800) % 86400 = sec := by omega
  refine ⟨sec / 3600, sec % 3600 / 60, sec % 60, ?_, by omega, by omega, by omega, by omega⟩
  unfold absClock
  dsimp only
  rw [e0, Prod.mk.injEq, Prod.mk.injEq]
  exact ⟨by omega, by omega, by omega⟩

theorem daysBeforeYear_mono {y z : Nat} (h : y ≤ z) : daysBeforeYear y ≤ daysBeforeYear z := by
  induction h with
  | refl => exact Nat.le_refl _
  | step _ ih => exact Nat.le_trans ih (Nat.le_add_right _ _)

attribute [local irreducible] daysBeforeYear

theorem days1970 : daysBeforeDay 1970 1 1 = 719528 := by
  have h : daysBeforeYear 1970 + 19 = 366 + 365 * 1969 + 492 + 4 := daysBeforeYear_succ 1969
  have h' : daysBeforeDay 1970 1 1 = daysBeforeYear 1970 := by
    unfold daysBeforeDay
    simp
  rw [h']
  generalize daysBeforeYear 1970 = x at *
  omega

theorem days10000 : daysBeforeYear 10000 = 3652425 := by
  have h : daysBeforeYear 10000 + 99 = 366 + 365 * 9999 + 2499 + 24 := daysBeforeYear_succ 9999
  omega

theorem since_year1 (x : Nat) : ∃ q r : Nat, r < 86400 ∧ q * 86400 + r = x + 62135596800 :=
  ⟨(x + 62135596800) / 86400, (x + 62135596800) % 86400, Nat.mod_lt _ (by decide), Nat.div_add_mod' _ _⟩

theorem month_length_lt {year month day : Nat} (h : day ≤ (months year).getD month 0) : day < 100 := by
  refine Nat.lt_of_le_of_lt h ?_
  rcases Nat.lt_or_ge month 12 with hk | hk
  · unfold months
    split <;> (interval_cases month <;> decide)
  · rw [List.getD_eq_default _ _ (by unfold months; exact hk)]
    decide

theorem rfc3339_eq {t abs year month day hour minute second : Int} (h : unix t + 62135596800 + 9223371966579724800 = abs)
    (hd : absDate abs = (year, month, day)) (hc : absClock abs = (hour, minute, second)) :
    rfc3339 t = appendInt year 4 ++ str "-" ++ appendInt month 2 ++ str "-" ++ appendInt day 2 ++ str "T" ++
      appendInt hour 2 ++ str ":" ++ appendInt minute 2 ++ str ":" ++ appendInt second 2 ++ str "Z" := by
  unfold rfc3339
  rw [h]
  dsimp only
  rw [hd, hc]

theorem rfc3339_denotes (second : Nat) (h : second < 253402300800) (nano : Nat) (hn : nano < 1000000000) :
    Denotes (rfc3339 ((second : Int) * 1000000000 + nano)) second := by
  have hu : unix ((second : Int) * 1000000000 + nano) = second := by
    unfold unix
    rw [show Model.second = 1000000000 from rfl]
    omega
  obtain ⟨q, r, hr, hq⟩ := since_year1 second
  have e : (second : Int) + 62135596800 = ((q * 86400 + r : Nat) : Int) := by omega
  obtain ⟨year, month, day, hd, m1, m2, d1, d2, hdays⟩ := absDate_eq q r hr
  obtain ⟨hour, minute, sec, hc, hh, hm, hsec, hsum⟩ := absClock_eq q r hr
  rw [rfc3339_eq (by rw [hu, e]) hd hc]
  have hyear : year < 10000 := by
    refine Nat.lt_of_not_le fun hle => ?_
    have := daysBeforeYear_mono hle
    rw [days10000] at this
    unfold daysBeforeDay at hdays
    omega
  have hday := month_length_lt d2
  rw [appendInt_eq (w := 4) (by omega) (by decide) (by decide), appendInt_eq (x := month) (w := 2) (by omega) (by decide) (by decide),
    appendInt_eq (x := day) (w := 2) (by omega) (by decide) (by decide), appendInt_eq (x := hour) (w := 2) (by omega) (by decide) (by decide),
    appendInt_eq (x := minute) (w := 2) (by omega) (by decide) (by decide), appendInt_eq (x := sec) (w := 2) (by omega) (by decide) (by decide)]
  refine .intro hyear m1 m2 d1 d2 hh hm hsec ?_
  rw [hdays, days1970]
  calc (q + 366) * 86400 + hour * 3600 + minute * 60 + sec
      = q * 86400 + (hour * 3600 + minute * 60 + sec) + 31622400 := by ring
    _ = second + 62135596800 + 31622400 := by rw [hsum, hq]
    _ = 719528 * 86400 + second := by ring

/-! ## A text denotes one second, and a second has one text -/

theorem digits_length : ∀ n x, (digits n x).length = n
  | 0, _ => rfl
  | n + 1, x => by rw [digits, List.length_append, digits_length n, List.length_singleton]

theorem digits_inj : ∀ {n x y : Nat}, x < 10 ^ n → y < 10 ^ n → digits n x = digits n y → x = y
  | 0, x, y, hx, hy, _ => by simp at hx hy; omega
  | n + 1, x, y, hx, hy, h => by
    rw [Nat.pow_succ] at hx hy
    rw [digits, digits] at h
    obtain ⟨h1, h2⟩ := List.append_inj h (by rw [digits_length, digits_length])
    have e := digits_inj (n := n) (by omega) (by omega) h1
    have hd : ∀ a < 10, ∀ b < 10, (0x30 + UInt8.ofNat a) = (0x30 + UInt8.ofNat b) → a = b := by decide +kernel
    have := hd _ (Nat.mod_lt x (by decide)) _ (Nat.mod_lt y (by decide)) (List.singleton_inj.1 h2)
    omega

theorem take_sum_lt {l : List Nat} {k d : Nat} (h1 : 1 ≤ d) (h : d ≤ l.getD k 0) :
    (l.take k).sum + (d - 1) < (l.take (k + 1)).sum := by
  have hk : k < l.length := by
    refine Nat.lt_of_not_le fun hle => ?_
    rw [List.getD_eq_default _ _ hle] at h
    omega
  rw [List.take_add_one, List.sum_append, List.getElem?_eq_getElem hk]
  rw [List.getD_eq_getElem _ _ hk] at h
  simp
  omega

theorem take_sum_mono (l : List Nat) {j k : Nat} (h : j ≤ k) : (l.take j).sum ≤ (l.take k).sum := by
  obtain ⟨i, rfl⟩ := Nat.exists_eq_add_of_le h
  rw [List.take_add, List.sum_append]
  omega

theorem day_lt_year {year month day : Nat} (h1 : 1 ≤ day) (h : day ≤ (months year).getD (month - 1) 0) :
    daysBeforeDay year month day < daysBeforeYear (year + 1) := by
  have a := take_sum_lt h1 h
  have b : ((months year).take (month - 1 + 1)).sum ≤ (months year).sum := by
    conv => rhs; rw [← List.take_append_drop (month - 1 + 1) (months year)]
    rw [List.sum_append]
    omega
  have c : daysBeforeYear (year + 1) = daysBeforeYear year + (months year).sum := by rw [daysBeforeYear]
  unfold daysBeforeDay
  omega

theorem day_unique {y m d y' m' d' : Nat} (hm : 1 ≤ m) (hm' : 1 ≤ m') (hd : 1 ≤ d) (hd' : 1 ≤ d')
    (h : d ≤ (months y).getD (m - 1) 0) (h' : d' ≤ (months y').getD (m' - 1) 0)
    (e : daysBeforeDay y m d = daysBeforeDay y' m' d') : y = y' ∧ m = m' ∧ d = d' := by
  have lt : ∀ {y m d y' m' d' : Nat}, 1 ≤ d → d ≤ (months y).getD (m - 1) 0 → y < y' →
      daysBeforeDay y m d < daysBeforeDay y' m' d' := fun h1 h hy => by
    refine Nat.lt_of_lt_of_le (day_lt_year h1 h) (Nat.le_trans (daysBeforeYear_mono hy) ?_)
    unfold daysBeforeDay
    omega
  rcases Nat.lt_trichotomy y y' with hy | rfl | hy
  · have := lt (m' := m') (d' := d') hd h hy
    omega
  · have lt' : ∀ {m d m' d' : Nat}, 1 ≤ m → 1 ≤ d → d ≤ (months y).getD (m - 1) 0 → m < m' →
        daysBeforeDay y m d < daysBeforeDay y m' d' := fun {m d m' d'} hm h1 h hlt => by
      have a := take_sum_lt h1 h
      have b := take_sum_mono (months y) (show m - 1 + 1 ≤ m' - 1 by omega)
      unfold daysBeforeDay
      omega
    rcases Nat.lt_trichotomy m m' with hmm | rfl | hmm
    · have := lt' (d' := d') hm hd h hmm
      omega
    · unfold daysBeforeDay at e
      exact ⟨rfl, rfl, by omega⟩
    · have := lt' (d' := d) hm' hd' h' hmm
      omega
  · have := lt (m' := m) (d' := d) hd' h' hy
    omega

theorem denotes_text {t u : Bytes} {a : Nat} (h : Denotes t a) (h' : Denotes u a) : t = u := by
  obtain @⟨y, m, d, h, mi, s, _, hy, m1, m2, d1, d2, hh, hmi, hs, e⟩ := h
  obtain @⟨y', m', d', h', mi', s', _, hy', m1', m2', d1', d2', hh', hmi', hs', e'⟩ := h'
  rw [← e'] at e
  have ed : daysBeforeDay y m d = daysBeforeDay y' m' d' := by
    generalize daysBeforeDay y m d = p at e
    generalize daysBeforeDay y' m' d' = q at e
    omega
  obtain ⟨rfl, rfl, rfl⟩ := day_unique m1 m1' d1 d1' d2 d2' ed
  have eh : h = h' := by omega
  have em : mi = mi' := by omega
  have es : s = s' := by omega
  rw [eh, em, es]

theorem denotes_second {t : Bytes} {a b : Nat} (h : Denotes t a) (h' : Denotes t b) : a = b := by
  obtain @⟨y, m, d, h, mi, s, _, hy, m1, m2, d1, d2, hh, hmi, hs, e⟩ := h
  generalize ht : digits 4 y ++ str "-" ++ digits 2 m ++ str "-" ++ digits 2 d ++ str "T" ++
      digits 2 h ++ str ":" ++ digits 2 mi ++ str ":" ++ digits 2 s ++ str "Z" = t at h'
  obtain @⟨y', m', d', h', mi', s', _, hy', m1', m2', d1', d2', hh', hmi', hs', e'⟩ := h'
  have len : ∀ n x x', (digits n x).length = (digits n x').length := fun n x x' => by rw [digits_length, digits_length]
  simp only [List.append_assoc] at ht
  obtain ⟨p1, ht⟩ := List.append_inj ht (len _ _ _)
  obtain ⟨p2, ht⟩ := List.append_inj (List.append_cancel_left ht) (len _ _ _)
  obtain ⟨p3, ht⟩ := List.append_inj (List.append_cancel_left ht) (len _ _ _)
  obtain ⟨p4, ht⟩ := List.append_inj (List.append_cancel_left ht) (len _ _ _)
  obtain ⟨p5, ht⟩ := List.append_inj (List.append_cancel_left ht) (len _ _ _)
  obtain ⟨p6, ht⟩ := List.append_inj (List.append_cancel_left ht) (len _ _ _)
  have := month_length_lt d2
  have := month_length_lt d2'
  have e1 := digits_inj (by omega) (by omega) p1
  have e2 := digits_inj (by omega) (by omega) p2
  have e3 := digits_inj (by omega) (by omega) p3
  have e4 := digits_inj (by omega) (by omega) p4
  have e5 := digits_inj (by omega) (by omega) p5
  have e6 := digits_inj (by omega) (by omega) p6
  subst e1 e2 e3 e4 e5 e6
  exact Nat.add_left_cancel (e.symm.trans e')

end Verif.Proofs
