import Mathlib.Analysis.SpecialFunctions.Trigonometric.Inverse
import Mathlib.Analysis.SpecialFunctions.Trigonometric.Arctan
import Mathlib.Analysis.SpecialFunctions.Complex.Arg
import Mathlib.Analysis.SpecialFunctions.Artanh
import Mathlib.Analysis.SpecialFunctions.Sqrt

/-!
# Partial real functions

The library functions outside their domain give `none`, which stands for a NaN or an infinity (floating
point distinguishes the two; both are "no number" here). Inside their domain they are exact.
-/

namespace Kep3

open Real

/-- Division. -/
noncomputable def div? (a b : ℝ) : Option ℝ := if b = 0 then none else some (a / b)
/-- `std::sqrt`. -/
noncomputable def sqrt? (a : ℝ) : Option ℝ := if a < 0 then none else some √a
/-- `std::tan`. -/
noncomputable def tan? (a : ℝ) : Option ℝ := if cos a = 0 then none else some (tan a)
/-- `std::atanh`. -/
noncomputable def atanh? (a : ℝ) : Option ℝ := if -1 < a ∧ a < 1 then some (artanh a) else none
/-- `std::acos`. -/
noncomputable def acos? (a : ℝ) : Option ℝ := if -1 ≤ a ∧ a ≤ 1 then some (arccos a) else none
/-- `std::asin`. -/
noncomputable def asin? (a : ℝ) : Option ℝ := if -1 ≤ a ∧ a ≤ 1 then some (arcsin a) else none
/-- `std::atan2(y, x)` (value 0 at the origin). -/
noncomputable def atan2 (y x : ℝ) : ℝ := Complex.arg ⟨x, y⟩

theorem div?_ok {a b : ℝ} (h : b ≠ 0) : div? a b = some (a / b) := if_neg h
theorem sqrt?_ok {a : ℝ} (h : 0 ≤ a) : sqrt? a = some √a := if_neg h.not_gt
theorem tan?_ok {a : ℝ} (h : cos a ≠ 0) : tan? a = some (tan a) := if_neg h
theorem atanh?_ok {a : ℝ} (h : -1 < a ∧ a < 1) : atanh? a = some (artanh a) := if_pos h
theorem acos?_ok {a : ℝ} (h : -1 ≤ a ∧ a ≤ 1) : acos? a = some (arccos a) := if_pos h
theorem asin?_ok {a : ℝ} (h : -1 ≤ a ∧ a ≤ 1) : asin? a = some (arcsin a) := if_pos h

/-- `atan2` recovers the polar angle. -/
theorem atan2_polar {r θ : ℝ} (hr : 0 < r) (h1 : -π < θ) (h2 : θ ≤ π) : atan2 (r * sin θ) (r * cos θ) = θ := by
  unfold atan2
  have : (⟨r * cos θ, r * sin θ⟩ : ℂ) = (r : ℂ) * (Complex.cos θ + Complex.sin θ * Complex.I) := by
    apply Complex.ext <;> simp [← Complex.ofReal_cos, ← Complex.ofReal_sin]
  rw [this]
  exact Complex.arg_mul_cos_add_sin_mul_I hr ⟨h1, h2⟩

theorem atan2_mem (y x : ℝ) : -π < atan2 y x ∧ atan2 y x ≤ π :=
  ⟨Complex.neg_pi_lt_arg _, Complex.arg_le_pi _⟩

theorem atan2_cos {y x : ℝ} (h : 0 < x ^ 2 + y ^ 2) : √(x ^ 2 + y ^ 2) * cos (atan2 y x) = x := by
  have e : ‖(⟨x, y⟩ : ℂ)‖ = √(x ^ 2 + y ^ 2) := by
    rw [Complex.norm_def, Complex.normSq_mk]; congr 1; ring
  have := Complex.norm_mul_cos_arg ⟨x, y⟩
  rwa [e] at this

theorem atan2_sin {y x : ℝ} (h : 0 < x ^ 2 + y ^ 2) : √(x ^ 2 + y ^ 2) * sin (atan2 y x) = y := by
  have e : ‖(⟨x, y⟩ : ℂ)‖ = √(x ^ 2 + y ^ 2) := by
    rw [Complex.norm_def, Complex.normSq_mk]; congr 1; ring
  have := Complex.norm_mul_sin_arg ⟨x, y⟩
  rwa [e] at this

/-- Cropping an angle with `atan2(sin, cos)` changes it by whole turns. -/
theorem atan2_crop (M : ℝ) : ∃ k : ℤ, atan2 (sin M) (cos M) = M + 2 * π * k ∧
    sin (atan2 (sin M) (cos M)) = sin M ∧ cos (atan2 (sin M) (cos M)) = cos M := by
  have h : 0 < cos M ^ 2 + sin M ^ 2 := by rw [cos_sq_add_sin_sq]; norm_num
  have hc := atan2_cos h
  have hs := atan2_sin h
  rw [cos_sq_add_sin_sq, sqrt_one, one_mul] at hc hs
  have : (atan2 (sin M) (cos M) : Real.Angle) = (M : Real.Angle) := by
    apply Real.Angle.cos_sin_inj <;> simpa using by assumption
  obtain ⟨k, hk⟩ := Real.Angle.angle_eq_iff_two_pi_dvd_sub.1 this
  exact ⟨k, by linarith, hs, hc⟩

end Kep3
