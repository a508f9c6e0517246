import Verif.Epoch.Model
import Verif.Epoch.Spec

/-!
# Calendar lemmas: the closed formula counts days
-/

namespace Kep3.Epoch
open Kep3.EpochSpec

theorem daysFromCivil_closed (y m d : Int) :
    daysFromCivil y m d =
      (let y' := if m ≤ 2 then y - 1 else y
       365 * y' + y' / 4 - y' / 100 + y' / 400 + (153 * (if m ≤ 2 then m + 9 else m - 3) + 2) / 5
        + (d - 1) - 719468) := by
  unfold daysFromCivil
  simp only []
  generalize (if m ≤ 2 then y - 1 else y) = y'
  generalize (153 * (if m ≤ 2 then m + 9 else m - 3) + 2) / 5 = q
  omega

theorem isLeap_iff (y : Int) :
    isLeap y = true ↔ y % 4 = 0 ∧ (y % 100 ≠ 0 ∨ y % 400 = 0) := by
  unfold isLeap; exact decide_eq_true_iff

theorem yearDays_eq (y : Int) :
    yearDays y = 365 + (y / 4 - (y - 1) / 4) - (y / 100 - (y - 1) / 100)
      + (y / 400 - (y - 1) / 400) := by
  unfold yearDays
  by_cases h : isLeap y = true
  · rw [if_pos h]; rw [isLeap_iff] at h; omega
  · rw [if_neg h]; rw [isLeap_iff] at h; omega

theorem jan1_succ (y : Int) : daysFromCivil (y + 1) 1 1 = daysFromCivil y 1 1 + yearDays y := by
  rw [daysFromCivil_closed, daysFromCivil_closed, yearDays_eq]
  simp
  omega

theorem daysUp_eq (n : Nat) : daysUp n = daysFromCivil (1970 + n) 1 1 := by
  induction n with
  | zero => decide
  | succ n ih =>
    show daysUp n + yearDays (1970 + n) = _
    rw [ih, ← jan1_succ]
    congr 1

theorem daysDown_eq (n : Nat) : - daysDown n = daysFromCivil (1970 - n) 1 1 := by
  induction n with
  | zero => decide
  | succ n ih =>
    show - (daysDown n + yearDays (1969 - n)) = _
    have h := jan1_succ (1969 - n)
    have e : (1969 - (n : Int) + 1) = 1970 - n := by omega
    rw [e] at h
    have e2 : (1970 - ((n + 1 : Nat) : Int)) = 1969 - n := by omega
    rw [e2]
    omega

theorem daysToYear_eq (y : Int) : daysToYear y = daysFromCivil y 1 1 := by
  unfold daysToYear
  split
  · rw [daysUp_eq]; congr 1; omega
  · rw [daysDown_eq]; congr 1; omega

theorem daysInMonths_eq (y : Int) (k : Nat) (hk : k < 12) :
    daysInMonths y k = daysFromCivil y (k + 1) 1 - daysFromCivil y 1 1 := by
  induction k with
  | zero => simp [daysInMonths]
  | succ k ih =>
    show daysInMonths y k + daysInMonth y (k + 1) = _
    rw [ih (by omega)]
    have hy := yearDays_eq y
    rw [daysFromCivil_closed, daysFromCivil_closed, daysFromCivil_closed]
    unfold daysInMonth
    unfold yearDays at hy
    have : k = 0 ∨ k = 1 ∨ k = 2 ∨ k = 3 ∨ k = 4 ∨ k = 5 ∨ k = 6 ∨ k = 7 ∨ k = 8 ∨ k = 9 ∨ k = 10 := by
      omega
    by_cases hl : isLeap y = true
    · rw [if_pos hl] at hy
      rcases this with rfl | rfl | rfl | rfl | rfl | rfl | rfl | rfl | rfl | rfl | rfl <;>
        simp [hl] <;> omega
    · rw [if_neg hl] at hy
      rcases this with rfl | rfl | rfl | rfl | rfl | rfl | rfl | rfl | rfl | rfl | rfl <;>
        simp [hl] <;> omega

/-- The closed formula is the day count of the specification. -/
theorem daysFromCivil_eq_dayNumber (y m d : Int) (h1 : 1 ≤ m) (h2 : m ≤ 12) :
    daysFromCivil y m d = dayNumber y m d := by
  unfold dayNumber
  rw [daysToYear_eq, daysInMonths_eq y _ (by omega)]
  have e : (((m - 1).toNat : Nat) : Int) + 1 = m := by omega
  rw [e]
  rw [daysFromCivil_closed y m d, daysFromCivil_closed y m 1]
  simp only []
  omega

/-- A day count is affine in the day. -/
theorem daysFromCivil_day (y m d : Int) : daysFromCivil y m d = daysFromCivil y m 1 + (d - 1) := by
  rw [daysFromCivil_closed y m d, daysFromCivil_closed y m 1]
  simp only []
  omega

/-- The split of a day count into a civil date is an existing date with that day count. -/
theorem civilFromDays_spec (n : Int) :
    let c := civilFromDays n
    existsDate c.1 c.2.1 c.2.2 ∧ daysFromCivil c.1 c.2.1 c.2.2 = n := by
  unfold civilFromDays
  simp only []
  obtain ⟨era, hera⟩ : ∃ e, e = (n + 719468) / 146097 := ⟨_, rfl⟩
  obtain ⟨doe, hdoe⟩ : ∃ e, e = n + 719468 - era * 146097 := ⟨_, rfl⟩
  have hd0 : 0 ≤ doe ∧ doe < 146097 := by omega
  rw [← hera, ← hdoe]
  obtain ⟨c, hc⟩ : ∃ e, e = min (doe / 36524) 3 := ⟨_, rfl⟩
  rw [← hc]
  obtain ⟨doc, hdoc⟩ : ∃ e, e = doe - 36524 * c := ⟨_, rfl⟩
  rw [← hdoc]
  have hc0 : 0 ≤ c ∧ c ≤ 3 ∧ 0 ≤ doc ∧ doc ≤ 36524 ∧ (doc = 36524 → c = 3) := by omega
  obtain ⟨q, hq⟩ : ∃ e, e = doc / 1461 := ⟨_, rfl⟩
  rw [← hq]
  obtain ⟨doq, hdoq⟩ : ∃ e, e = doc - 1461 * q := ⟨_, rfl⟩
  rw [← hdoq]
  have hq0 : 0 ≤ q ∧ q ≤ 24 ∧ 0 ≤ doq ∧ doq ≤ 1460 := by omega
  have hq1 : doq = 1460 → q = 24 → c = 3 := by omega
  obtain ⟨a, ha⟩ : ∃ e, e = min (doq / 365) 3 := ⟨_, rfl⟩
  rw [← ha]
  have ha0 : 0 ≤ a ∧ a ≤ 3 := by omega
  obtain ⟨doy, hdoy⟩ : ∃ e, e = doq - 365 * a := ⟨_, rfl⟩
  rw [← hdoy]
  have hdoy0 : 0 ≤ doy ∧ doy ≤ 365 ∧ (doy = 365 → a = 3 ∧ doq = 1460) := by omega
  obtain ⟨yoe, hyoe⟩ : ∃ e, e = 100 * c + 4 * q + a := ⟨_, rfl⟩
  rw [← hyoe]
  have hy4 : (yoe + era * 400) / 4 = 100 * era + 25 * c + q := by omega
  have hy100 : (yoe + era * 400) / 100 = 4 * era + c := by omega
  have hy400 : (yoe + era * 400) / 400 = era := by omega
  obtain ⟨y, hy⟩ : ∃ e, e = yoe + era * 400 := ⟨_, rfl⟩
  rw [← hy] at hy4 hy100 hy400 ⊢
  have hleap : doy = 365 → (y + 1) % 4 = 0 ∧ ((y + 1) % 100 ≠ 0 ∨ (y + 1) % 400 = 0) := by
    intro h
    obtain ⟨h3, hdq⟩ := hdoy0.2.2 h
    refine ⟨by omega, ?_⟩
    by_cases h24 : q = 24
    · right
      have := hq1 hdq h24
      omega
    · left; omega
  obtain ⟨mp, hmp⟩ : ∃ e, e = (5 * doy + 2) / 153 := ⟨_, rfl⟩
  rw [← hmp]
  have hmp0 : 0 ≤ mp ∧ mp ≤ 11 := by omega
  have hn : n = 365 * y + y / 4 - y / 100 + y / 400 + doy - 719468 := by
    rw [hy4, hy100, hy400]; omega
  have hcase : mp = 0 ∨ mp = 1 ∨ mp = 2 ∨ mp = 3 ∨ mp = 4 ∨ mp = 5 ∨ mp = 6 ∨ mp = 7 ∨ mp = 8
      ∨ mp = 9 ∨ mp = 10 ∨ mp = 11 := by omega
  rw [daysFromCivil_closed]
  unfold existsDate daysInMonth
  clear hy hy4 hy100 hy400 hyoe hdoy ha hdoq hq hdoc hc hera hdoe hq1 hd0 hc0 hq0 ha0
  rcases hcase with h | h | h | h | h | h | h | h | h | h | h | h <;> subst h <;>
    (by_cases hl : isLeap (y + 1) = true <;> simp [hl] <;> rw [isLeap_iff] at hl <;> omega)

theorem daysInMonth_le (y m : Int) : daysInMonth y m ≤ 31 := by
  unfold daysInMonth; repeat' split <;> omega

end Kep3.Epoch
