import Verif.Epoch.Calendar
import Mathlib.Tactic.Ring
import Mathlib.Tactic.Linarith

/-!
# Helper lemmas for epochs: monotonicity, evaluation of `makeTp`, digits
-/

namespace Kep3.Epoch
open Kep3.EpochSpec

theorem jan1_mono {y y' : Int} (h : y < y') : daysFromCivil (y + 1) 1 1 ≤ daysFromCivil y' 1 1 := by
  rw [daysFromCivil_closed, daysFromCivil_closed]
  simp
  omega

theorem daysInMonth_nonneg (y m : Int) : 0 ≤ daysInMonth y m := by
  unfold daysInMonth
  by_cases h : isLeap y = true <;> simp [h] <;> repeat' split <;> omega

theorem daysInMonths_mono (y : Int) {k l : Nat} (h : k ≤ l) :
    daysInMonths y k ≤ daysInMonths y l := by
  induction h with
  | refl => exact Int.le_refl _
  | step _ ih =>
    show _ ≤ daysInMonths y _ + daysInMonth y _
    have := daysInMonth_nonneg y
    exact Int.le_trans ih (by have := this (↑‹Nat› + 1); omega)

theorem daysInMonths_12 (y : Int) : daysInMonths y 12 = yearDays y := by
  unfold yearDays
  by_cases h : isLeap y = true <;> simp [daysInMonths, daysInMonth, h]

theorem dayNumber_nonempty {y m d : Int} (h : existsDate y m d) :
    daysToYear y + daysInMonths y (m - 1).toNat ≤ dayNumber y m d ∧
    dayNumber y m d < daysToYear y + daysInMonths y m.toNat := by
  obtain ⟨h1, h2, h3, h4⟩ := h
  unfold dayNumber
  have e : m.toNat = (m - 1).toNat + 1 := by omega
  rw [e]
  show _ ∧ _ < daysToYear y + (daysInMonths y _ + daysInMonth y _)
  have e2 : (((m - 1).toNat : Nat) : Int) + 1 = m := by omega
  rw [e2]
  omega

theorem dayNumber_lt {y m d y' m' d' : Int} (h : existsDate y m d) (h' : existsDate y' m' d')
    (hlt : dateLt y m d y' m' d') : dayNumber y m d < dayNumber y' m' d' := by
  have a := dayNumber_nonempty h
  have a' := dayNumber_nonempty h'
  rcases hlt with hy | ⟨rfl, hm | ⟨rfl, hd⟩⟩
  · have h12 : daysInMonths y m.toNat ≤ daysInMonths y 12 :=
      daysInMonths_mono y (by have := h.2.1; omega)
    rw [daysInMonths_12] at h12
    have h0 : 0 ≤ daysInMonths y' (m' - 1).toNat := by
      have := daysInMonths_mono y' (Nat.zero_le (m' - 1).toNat)
      simpa [daysInMonths] using this
    have := jan1_mono hy
    rw [jan1_succ, ← daysToYear_eq, ← daysToYear_eq] at this
    omega
  · have : daysInMonths y m.toNat ≤ daysInMonths y (m' - 1).toNat :=
      daysInMonths_mono y (by omega)
    omega
  · unfold dayNumber; omega

theorem dayNumber_inj {y m d y' m' d' : Int} (h : existsDate y m d) (h' : existsDate y' m' d')
    (he : dayNumber y m d = dayNumber y' m' d') : y = y' ∧ m = m' ∧ d = d' := by
  by_contra hne
  have : dateLt y m d y' m' d' ∨ dateLt y' m' d' y m d := by unfold dateLt; omega
  rcases this with hl | hl
  · have := dayNumber_lt h h' hl; omega
  · have := dayNumber_lt h' h hl; omega

theorem chk64_ok {n : Int} (h : -9223372036854775808 ≤ n ∧ n ≤ 9223372036854775807) :
    chk64 n = .ok n := if_pos h

/-- `int32` range. -/
def fits32 (n : Int) : Prop := -2147483648 ≤ n ∧ n ≤ 2147483647

theorem daysFromCivil_bound (y m : Int) (hy : -32767 ≤ y ∧ y ≤ 32767) (hm : 1 ≤ m ∧ m ≤ 12) :
    -12800000 ≤ daysFromCivil y m 1 ∧ daysFromCivil y m 1 ≤ 11500000 := by
  rw [daysFromCivil_closed]
  simp only []
  split <;> omega

theorem narrowYear_id {y : Int} (h : -32768 ≤ y ∧ y ≤ 32767) : narrowYear y = y := by
  unfold narrowYear; omega

/-- Evaluation of `make_tp` on in-range fields: the value, and no overflow. -/
theorem makeTp_ok (y : Int) (mon d : Nat) (h mi s ms us : Int)
    (hy : -32767 ≤ y ∧ y ≤ 32767) (hm : 1 ≤ mon ∧ mon ≤ 12) (hd : 1 ≤ d ∧ d ≤ 31)
    (hh : fits32 h) (hmi : fits32 mi) (hs : fits32 s) (hms : fits32 ms) (hus : fits32 us) :
    makeTp y mon d h mi s ms us = .ok
      ((daysFromCivil y mon 1 + ((d : Int) - 1)) * 86400000000 + h * 3600000000 + mi * 60000000
        + s * 1000000 + ms * 1000 + us) := by
  have hb := daysFromCivil_bound y mon hy (by omega)
  have e1 := narrowYear_id (y := y) (by omega)
  have e2 : narrowByte mon = mon := Nat.mod_eq_of_lt (by omega)
  have e3 : narrowByte d = d := Nat.mod_eq_of_lt (by omega)
  unfold fits32 at *
  unfold makeTp
  simp only [e1, e2, e3]
  rw [if_neg (by omega), if_neg (by omega), if_neg (by omega)]
  rw [chk64_ok (by omega), Res.ok_bind, chk64_ok (by omega), Res.ok_bind, chk64_ok (by omega),
    Res.ok_bind, chk64_ok (by omega), Res.ok_bind, chk64_ok (by omega), Res.ok_bind,
    chk64_ok (by omega), Res.ok_bind, chk64_ok (by omega), Res.ok_bind, chk64_ok (by omega),
    Res.ok_bind, chk64_ok (by omega), Res.ok_bind, chk64_ok (by omega)]

theorem makeTp_spec (y : Int) (mon d : Nat) (h mi s ms us : Int)
    (hy : -32767 ≤ y ∧ y ≤ 32767) (hex : existsDate y mon d)
    (hh : fits32 h) (hmi : fits32 mi) (hs : fits32 s) (hms : fits32 ms) (hus : fits32 us) :
    makeTp y mon d h mi s ms us = .ok (civilMicros y mon d h mi s (ms * 1000 + us)) := by
  have hl := daysInMonth_le y mon
  obtain ⟨a1, a2, a3, a4⟩ := hex
  rw [makeTp_ok y mon d h mi s ms us hy (by omega) (by omega) hh hmi hs hms hus]
  unfold civilMicros
  rw [← daysFromCivil_eq_dayNumber y mon d a1 a2, daysFromCivil_day y mon d]
  congr 1
  ring

/-! ## Digits -/

theorem digitChar_toNat {n : Nat} (h : n < 10) : (digitChar n).toNat = 48 + n := by
  have : n = 0 ∨ n = 1 ∨ n = 2 ∨ n = 3 ∨ n = 4 ∨ n = 5 ∨ n = 6 ∨ n = 7 ∨ n = 8 ∨ n = 9 := by omega
  rcases this with rfl | rfl | rfl | rfl | rfl | rfl | rfl | rfl | rfl | rfl <;> decide

theorem dig_eq {n : Nat} (h : n < 10) : dig n = digitChar n := by
  have : n = 0 ∨ n = 1 ∨ n = 2 ∨ n = 3 ∨ n = 4 ∨ n = 5 ∨ n = 6 ∨ n = 7 ∨ n = 8 ∨ n = 9 := by omega
  rcases this with rfl | rfl | rfl | rfl | rfl | rfl | rfl | rfl | rfl | rfl <;> decide

theorem isDigit_digitChar {n : Nat} (h : n < 10) : isDigit (digitChar n) = true := by
  unfold isDigit; rw [digitChar_toNat h]; simp; omega

theorem digitVal_digitChar {n : Nat} (h : n < 10) : digitVal (digitChar n) = n := by
  unfold digitVal; rw [digitChar_toNat h]; omega

theorem digitChar_not_special {n : Nat} (h : n < 10) :
    isSpace (digitChar n) = false ∧ digitChar n ≠ '-' ∧ digitChar n ≠ '+' := by
  have : n = 0 ∨ n = 1 ∨ n = 2 ∨ n = 3 ∨ n = 4 ∨ n = 5 ∨ n = 6 ∨ n = 7 ∨ n = 8 ∨ n = 9 := by omega
  rcases this with rfl | rfl | rfl | rfl | rfl | rfl | rfl | rfl | rfl | rfl <;> decide

/-- Value of a list of digits below ten, most significant first. -/
def valOf (ns : List Nat) : Nat := ns.foldl (fun acc n => acc * 10 + n) 0

theorem natOfDigits_map (ns : List Nat) (h : ∀ n ∈ ns, n < 10) (acc : Nat) :
    (ns.map digitChar).foldl (fun acc c => acc * 10 + digitVal c) acc =
      ns.foldl (fun acc n => acc * 10 + n) acc := by
  induction ns generalizing acc with
  | nil => rfl
  | cons a l ih =>
    simp only [List.map_cons, List.foldl_cons]
    rw [digitVal_digitChar (h a (by simp)), ih (fun n hn => h n (by simp [hn]))]

theorem valOf_lt (ns : List Nat) (h : ∀ n ∈ ns, n < 10) : valOf ns < 10 ^ ns.length := by
  have key : ∀ (ns : List Nat) (acc : Nat), (∀ n ∈ ns, n < 10) →
      ns.foldl (fun acc n => acc * 10 + n) acc < (acc + 1) * 10 ^ ns.length := by
    intro ns
    induction ns with
    | nil => intro acc _; simp
    | cons a l ih =>
      intro acc h
      simp only [List.foldl_cons, List.length_cons]
      have h1 := ih (acc * 10 + a) (fun n hn => h n (by simp [hn]))
      have h2 : a < 10 := h a (by simp)
      calc _ < (acc * 10 + a + 1) * 10 ^ l.length := h1
        _ ≤ ((acc + 1) * 10) * 10 ^ l.length := Nat.mul_le_mul_right _ (by omega)
        _ = (acc + 1) * 10 ^ (l.length + 1) := by ring
  have := key ns 0 h
  simpa [valOf] using this

theorem takeWhile_all {α : Type} (p : α → Bool) (l : List α) (h : ∀ x ∈ l, p x = true) :
    l.takeWhile p = l := by
  induction l with
  | nil => rfl
  | cons a l ih =>
    rw [List.takeWhile_cons, h a (by simp), ih (fun x hx => h x (by simp [hx]))]
    rfl

/-- `stoi` on a short non-empty run of digits. -/
theorem stoi_digits (ns : List Nat) (h : ∀ n ∈ ns, n < 10) (hne : ns ≠ []) (hlen : ns.length ≤ 9) :
    stoi (ns.map digitChar) = .ok (valOf ns : Int) := by
  obtain ⟨a, l, rfl⟩ := List.exists_cons_of_ne_nil hne
  have ha : a < 10 := h a (by simp)
  obtain ⟨hs, hm, hp⟩ := digitChar_not_special ha
  have hall : ∀ c ∈ (a :: l).map digitChar, isDigit c = true := by
    intro c hc
    obtain ⟨n, hn, rfl⟩ := List.mem_map.1 hc
    exact isDigit_digitChar (h n hn)
  have hval : natOfDigits ((a :: l).map digitChar) = valOf (a :: l) := natOfDigits_map _ h 0
  have hlt := valOf_lt (a :: l) h
  have hb : (10 : Nat) ^ (a :: l).length ≤ 10 ^ 9 := Nat.pow_le_pow_right (by omega) hlen
  unfold stoi
  have hdw : ((a :: l).map digitChar).dropWhile isSpace = (a :: l).map digitChar := by
    simp [hs]
  have htw : ((a :: l).map digitChar).takeWhile isDigit = (a :: l).map digitChar :=
    takeWhile_all _ _ hall
  simp only [hdw]
  have hh1 : (((a :: l).map digitChar).head? == some '-') = false := by simp [hm]
  have hh2 : (((a :: l).map digitChar).head? == some '+') = false := by simp [hp]
  simp only [skipSign, hh1, hh2, Bool.or_self, Bool.false_eq_true, if_false, htw, hval]
  rw [if_neg (by simp), if_pos (by omega)]

theorem pad_two (n : Nat) : pad 2 n = [n / 10 % 10, n % 10].map digitChar := by
  simp [pad]

theorem pad_four (n : Nat) :
    pad 4 n = [n / 10 / 10 / 10 % 10, n / 10 / 10 % 10, n / 10 % 10, n % 10].map digitChar := by
  simp [pad]

theorem pad_six (n : Nat) :
    pad 6 n = [n / 10 / 10 / 10 / 10 / 10 % 10, n / 10 / 10 / 10 / 10 % 10, n / 10 / 10 / 10 % 10,
      n / 10 / 10 % 10, n / 10 % 10, n % 10].map digitChar := by
  simp [pad]

theorem stoi_two {a b : Nat} (ha : a < 10) (hb : b < 10) :
    stoi [digitChar a, digitChar b] = .ok ((a * 10 + b : Nat) : Int) := by
  have := stoi_digits [a, b] (by simp; omega) (by simp) (by simp)
  simpa [valOf] using this

theorem stoi_four {a b c d : Nat} (ha : a < 10) (hb : b < 10) (hc : c < 10) (hd : d < 10) :
    stoi [digitChar a, digitChar b, digitChar c, digitChar d]
      = .ok ((((a * 10 + b) * 10 + c) * 10 + d : Nat) : Int) := by
  have := stoi_digits [a, b, c, d] (by simp; omega) (by simp) (by simp)
  simpa [valOf] using this

theorem toUnsigned_nat (n : Nat) : toUnsigned (n : Int) = .ok n := by
  unfold toUnsigned; rw [if_neg (by omega)]; simp

end Kep3.Epoch
