import Verif.Basic

/-!
# Dates of the Gregorian calendar

Independent of the model.
-/

namespace Verif.Spec

/-- Leap years -/
def Leap (year : Nat) : Prop := 4 ∣ year ∧ (100 ∣ year → 400 ∣ year)

instance (year : Nat) : Decidable (Leap year) := inferInstanceAs (Decidable (_ ∧ _))

/-- The lengths of the months of a year -/
def months (year : Nat) : List Nat :=
  [31, if Leap year then 29 else 28, 31, 30, 31, 30, 31, 31, 30, 31, 30, 31]

/-- The number of days before a year, from the year 0 -/
def daysBeforeYear : Nat → Nat
  | 0 => 0
  | year + 1 => daysBeforeYear year + (months year).sum

/-- The number of days before a day, from the year 0 -/
def daysBeforeDay (year month day : Nat) : Nat :=
  daysBeforeYear year + ((months year).take (month - 1)).sum + (day - 1)

/-- The decimal digits of a number, the last `n` of them -/
def digits : Nat → Nat → Bytes
  | 0, _ => []
  | n + 1, x => digits n (x / 10) ++ [0x30 + UInt8.ofNat (x % 10)]

/-- A text that is a date and time in UTC, as in RFC 3339, and the second since 1970 that it denotes -/
inductive Denotes : Bytes → Nat → Prop where
  | intro {year month day hour minute second : Nat} {unix : Nat} : year < 10000 → 1 ≤ month → month ≤ 12 → 1 ≤ day →
    day ≤ (months year).getD (month - 1) 0 → hour < 24 → minute < 60 → second < 60 →
    daysBeforeDay year month day * 86400 + hour * 3600 + minute * 60 + second =
      daysBeforeDay 1970 1 1 * 86400 + unix →
    Denotes (digits 4 year ++ str "-" ++ digits 2 month ++ str "-" ++ digits 2 day ++ str "T" ++
      digits 2 hour ++ str ":" ++ digits 2 minute ++ str ":" ++ digits 2 second ++ str "Z") unix

end Verif.Spec
