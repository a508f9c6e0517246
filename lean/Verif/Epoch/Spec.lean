/-!
# Specification side for epochs: the proleptic Gregorian calendar by counting days

Nothing here refers to the model.
-/

namespace Kep3.EpochSpec

/-- Gregorian leap years. -/
def isLeap (y : Int) : Bool := decide (y % 4 = 0 ∧ (y % 100 ≠ 0 ∨ y % 400 = 0))

/-- Number of days of month `m` (1..12) of year `y`; 0 for other `m`. -/
def daysInMonth (y m : Int) : Int :=
  if m = 2 then (if isLeap y then 29 else 28)
  else if m = 4 ∨ m = 6 ∨ m = 9 ∨ m = 11 then 30
  else if 1 ≤ m ∧ m ≤ 12 then 31
  else 0

/-- The day `y-m-d` exists. -/
def existsDate (y m d : Int) : Prop := 1 ≤ m ∧ m ≤ 12 ∧ 1 ≤ d ∧ d ≤ daysInMonth y m
instance (y m d : Int) : Decidable (existsDate y m d) := by unfold existsDate; infer_instance

def yearDays (y : Int) : Int := if isLeap y then 366 else 365

/-- Days in the `n` years `1970, 1971, …`. -/
def daysUp : Nat → Int
  | 0 => 0
  | n + 1 => daysUp n + yearDays (1970 + n)

/-- Days in the `n` years `1969, 1968, …`. -/
def daysDown : Nat → Int
  | 0 => 0
  | n + 1 => daysDown n + yearDays (1969 - n)

/-- Days from 1970-01-01 to 1 January of year `y` (negative before 1970). -/
def daysToYear (y : Int) : Int :=
  if 1970 ≤ y then daysUp (y - 1970).toNat else - daysDown (1970 - y).toNat

/-- Days in the first `k` months of year `y`. -/
def daysInMonths (y : Int) : Nat → Int
  | 0 => 0
  | k + 1 => daysInMonths y k + daysInMonth y (k + 1)

/-- Day number of an existing date: count all days since 1970-01-01. -/
def dayNumber (y m d : Int) : Int := daysToYear y + daysInMonths y (m - 1).toNat + (d - 1)

end Kep3.EpochSpec

namespace Kep3.EpochSpec

/-- Lexicographic order of civil dates. -/
def dateLt (y m d y' m' d' : Int) : Prop :=
  y < y' ∨ (y = y' ∧ (m < m' ∨ (m = m' ∧ d < d')))

/-- Microseconds from 1970-01-01T00:00:00 to the civil time `y-m-d h:mi:s` plus `us` microseconds. -/
def civilMicros (y m d h mi s us : Int) : Int :=
  (((dayNumber y m d * 24 + h) * 60 + mi) * 60 + s) * 1000000 + us

/-- Decimal digit `n` (0..9) as a character. -/
def dig (n : Nat) : Char :=
  ['0', '1', '2', '3', '4', '5', '6', '7', '8', '9'].getD n '?'

/-- Two-digit field. -/
def two (n : Nat) : List Char := [dig (n / 10), dig (n % 10)]
/-- Four-digit field. -/
def four (n : Nat) : List Char := two (n / 100) ++ two (n % 100)

/-- `YYYY-MM` -/
def isoMonth (y mo : Nat) : List Char := four y ++ '-' :: two mo
/-- `YYYY-MM-DD` -/
def isoDay (y mo d : Nat) : List Char := isoMonth y mo ++ '-' :: two d
/-- `YYYY-MM-DDTHH` -/
def isoHour (y mo d h : Nat) : List Char := isoDay y mo d ++ 'T' :: two h
/-- `YYYY-MM-DDTHH:MM` -/
def isoMinute (y mo d h mi : Nat) : List Char := isoHour y mo d h ++ ':' :: two mi
/-- `YYYY-MM-DDTHH:MM:SS` -/
def isoSecond (y mo d h mi s : Nat) : List Char := isoMinute y mo d h mi ++ ':' :: two s
/-- `YYYY-MM-DDTHH:MM:SS.f…` with the decimals `f` (each 0..9). -/
def isoFrac (y mo d h mi s : Nat) (f : List (Fin 10)) : List Char :=
  isoSecond y mo d h mi s ++ '.' :: f.map (fun k => dig k.val)

/-- Value of the decimals `f` in microseconds, digit by digit: the first decimal is worth 100000 µs,
the next 10000 µs, … -/
def fracMicros : List (Fin 10) → Nat → Nat
  | [], _ => 0
  | k :: f, w => k.val * w + fracMicros f (w / 10)

end Kep3.EpochSpec
