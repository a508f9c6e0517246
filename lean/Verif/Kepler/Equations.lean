import Verif.Constants
import Mathlib.Analysis.SpecialFunctions.Trigonometric.Deriv
import Mathlib.Analysis.SpecialFunctions.Trigonometric.DerivHyp
import Mathlib.Analysis.SpecialFunctions.Sqrt
import Mathlib.Analysis.SpecialFunctions.Pow.Real
import Mathlib.Tactic.FieldSimp
import Mathlib.Tactic.LinearCombination

/-!
# `include/kep3/core_astro/kepler_equations.hpp` and `special_functions.hpp`

Exact real arithmetic.
-/

namespace Kep3

open Real

/-- `stumpff_s`, include/kep3/core_astro/special_functions.hpp:18-27. -/
noncomputable def stumpffS (x : ℝ) : ℝ :=
  if 0 < x then (√x - sin √x) / √x ^ 3
  else if x < 0 then (sinh √(-x) - √(-x)) / (-x) ^ (3 / 2 : ℝ)
  else 1 / 6

/-- `stumpff_c`, include/kep3/core_astro/special_functions.hpp:29-38. -/
noncomputable def stumpffC (x : ℝ) : ℝ :=
  if 0 < x then (1 - cos √x) / x
  else if x < 0 then (cosh √(-x) - 1) / (-x)
  else 1 / 2

/-- `kepE`, include/kep3/core_astro/kepler_equations.hpp:21-24. -/
noncomputable def kepE (E M ecc : ℝ) : ℝ := E - ecc * sin E - M
/-- `d_kepE`, include/kep3/core_astro/kepler_equations.hpp:26-29. -/
noncomputable def d_kepE (E ecc : ℝ) : ℝ := 1 - ecc * cos E
/-- `dd_kepE`, include/kep3/core_astro/kepler_equations.hpp:31-34. -/
noncomputable def dd_kepE (E ecc : ℝ) : ℝ := ecc * sin E

/-- `kepH`, include/kep3/core_astro/kepler_equations.hpp:39-42. -/
noncomputable def kepH (H M ecc : ℝ) : ℝ := ecc * sinh H - H - M
/-- `d_kepH`, include/kep3/core_astro/kepler_equations.hpp:44-47. -/
noncomputable def d_kepH (H ecc : ℝ) : ℝ := ecc * cosh H - 1
/-- `dd_kepH`, include/kep3/core_astro/kepler_equations.hpp:49-52. -/
noncomputable def dd_kepH (H ecc : ℝ) : ℝ := ecc * sinh H

/-- `kepDE`, include/kep3/core_astro/kepler_equations.hpp:57-60. -/
noncomputable def kepDE (DE DM sigma0 sqrta a R : ℝ) : ℝ :=
  -DM + DE + sigma0 / sqrta * (1 - cos DE) - (1 - R / a) * sin DE
/-- `d_kepDE`, include/kep3/core_astro/kepler_equations.hpp:62-65. -/
noncomputable def d_kepDE (DE sigma0 sqrta a R : ℝ) : ℝ :=
  1 + sigma0 / sqrta * sin DE - (1 - R / a) * cos DE
/-- `dd_kepDE`, include/kep3/core_astro/kepler_equations.hpp:67-70. -/
noncomputable def dd_kepDE (DE sigma0 sqrta a R : ℝ) : ℝ :=
  sigma0 / sqrta * cos DE + (1 - R / a) * sin DE

/-- `kepDH`, include/kep3/core_astro/kepler_equations.hpp:74-77. -/
noncomputable def kepDH (DH DN sigma0 sqrta a R : ℝ) : ℝ :=
  -DN - DH + sigma0 / sqrta * (cosh DH - 1) + (1 - R / a) * sinh DH
/-- `d_kepDH`, include/kep3/core_astro/kepler_equations.hpp:79-82. -/
noncomputable def d_kepDH (DH sigma0 sqrta a R : ℝ) : ℝ :=
  -1 + sigma0 / sqrta * sinh DH + (1 - R / a) * cosh DH
/-- `dd_kepDH`, include/kep3/core_astro/kepler_equations.hpp:84-87. -/
noncomputable def dd_kepDH (DH sigma0 sqrta a R : ℝ) : ℝ :=
  sigma0 / sqrta * cosh DH + (1 - R / a) * sinh DH

/-- `kepDS`, include/kep3/core_astro/kepler_equations.hpp:91-99. -/
noncomputable def kepDS (DS DT r0 vr0 alpha mu : ℝ) : ℝ :=
  -√mu * DT + r0 * vr0 * DS * DS * stumpffC (alpha * DS * DS) / √mu
    + (1 - alpha * r0) * DS * DS * DS * stumpffS (alpha * DS * DS) + r0 * DS
/-- `d_kepDS`, include/kep3/core_astro/kepler_equations.hpp:101-107. -/
noncomputable def d_kepDS (DS r0 vr0 alpha mu : ℝ) : ℝ :=
  r0 * vr0 / √mu * DS * (1 - alpha * DS * DS * stumpffS (alpha * DS * DS))
    + (1 - alpha * r0) * DS * DS * stumpffC (alpha * DS * DS) + r0
/-- `dd_kepDS`, include/kep3/core_astro/kepler_equations.hpp:109-116. -/
noncomputable def dd_kepDS (DS r0 vr0 alpha mu : ℝ) : ℝ :=
  r0 * vr0 / √mu * (1 - alpha * DS * DS * stumpffC (alpha * DS * DS))
    + (1 - alpha * r0) * (1 - DS * DS * stumpffS (alpha * DS * DS))

/-! ## The functions `x ↦ x² C(α x²)` and `x ↦ x³ S(α x²)` -/

/-- `x² C(α x²)`. -/
noncomputable def U2 (α x : ℝ) : ℝ := x * x * stumpffC (α * x * x)
/-- `x³ S(α x²)`. -/
noncomputable def U3 (α x : ℝ) : ℝ := x * x * x * stumpffS (α * x * x)

theorem U2_pos {b : ℝ} (hb : 0 < b) (x : ℝ) : U2 (b ^ 2) x = (1 - cos (b * x)) / b ^ 2 := by
  unfold U2 stumpffC
  by_cases hx : x = 0
  · simp [hx]
  · have h : 0 < b ^ 2 * x * x := by have := mul_self_pos.2 hx; nlinarith [pow_pos hb 2]
    rw [if_pos h]
    have : √(b ^ 2 * x * x) = |b * x| := by rw [← Real.sqrt_sq_eq_abs]; congr 1; ring
    rw [this, cos_abs]
    field_simp

theorem U2_neg {b : ℝ} (hb : 0 < b) (x : ℝ) : U2 (-b ^ 2) x = (cosh (b * x) - 1) / b ^ 2 := by
  unfold U2 stumpffC
  by_cases hx : x = 0
  · simp [hx]
  · have h : -b ^ 2 * x * x < 0 := by have := mul_self_pos.2 hx; nlinarith [pow_pos hb 2]
    rw [if_neg h.not_gt, if_pos h]
    have : √(-(-b ^ 2 * x * x)) = |b * x| := by rw [← Real.sqrt_sq_eq_abs]; congr 1; ring
    rw [this, cosh_abs]
    field_simp

theorem U2_zero (x : ℝ) : U2 0 x = x ^ 2 / 2 := by
  unfold U2 stumpffC; simp; ring

theorem U3_pos {b : ℝ} (hb : 0 < b) (x : ℝ) : U3 (b ^ 2) x = (b * x - sin (b * x)) / b ^ 3 := by
  unfold U3 stumpffS
  by_cases hx : x = 0
  · simp [hx]
  · have h : 0 < b ^ 2 * x * x := by have := mul_self_pos.2 hx; nlinarith [pow_pos hb 2]
    rw [if_pos h]
    have : √(b ^ 2 * x * x) = |b * x| := by rw [← Real.sqrt_sq_eq_abs]; congr 1; ring
    rw [this]
    rcases abs_cases (b * x) with ⟨e, -⟩ | ⟨e, -⟩
    · rw [e]; field_simp
    · rw [e, sin_neg]; field_simp; ring

theorem U3_neg {b : ℝ} (hb : 0 < b) (x : ℝ) : U3 (-b ^ 2) x = (sinh (b * x) - b * x) / b ^ 3 := by
  unfold U3 stumpffS
  by_cases hx : x = 0
  · simp [hx]
  · have h : -b ^ 2 * x * x < 0 := by have := mul_self_pos.2 hx; nlinarith [pow_pos hb 2]
    rw [if_neg h.not_gt, if_pos h]
    have h2 : √(-(-b ^ 2 * x * x)) = |b * x| := by rw [← Real.sqrt_sq_eq_abs]; congr 1; ring
    have h3 : (-(-b ^ 2 * x * x)) ^ (3 / 2 : ℝ) = |b * x| ^ 3 := by
      have : -(-b ^ 2 * x * x) = |b * x| ^ (2 : ℕ) := by rw [sq_abs]; ring
      rw [this, ← Real.rpow_natCast_mul (abs_nonneg _), show ((2 : ℕ) : ℝ) * (3 / 2) = (3 : ℕ) by norm_num,
        Real.rpow_natCast]
    rw [h2, h3]
    rcases abs_cases (b * x) with ⟨e, -⟩ | ⟨e, -⟩
    · rw [e]; field_simp
    · rw [e, sinh_neg]; field_simp; ring

theorem U3_zero (x : ℝ) : U3 0 x = x ^ 3 / 6 := by
  unfold U3 stumpffS; simp; ring

/-- Case split on the sign of `α`. -/
theorem alpha_cases (α : ℝ) : (∃ b, 0 < b ∧ α = b ^ 2) ∨ α = 0 ∨ ∃ b, 0 < b ∧ α = -b ^ 2 := by
  rcases lt_trichotomy α 0 with h | h | h
  · exact Or.inr (Or.inr ⟨√(-α), Real.sqrt_pos.2 (by linarith), by rw [Real.sq_sqrt (by linarith)]; ring⟩)
  · exact Or.inr (Or.inl h)
  · exact Or.inl ⟨√α, Real.sqrt_pos.2 h, by rw [Real.sq_sqrt h.le]⟩

theorem hasDerivAt_U3 (α x : ℝ) : HasDerivAt (U3 α) (U2 α x) x := by
  rcases alpha_cases α with ⟨b, hb, rfl⟩ | rfl | ⟨b, hb, rfl⟩
  · have e : U3 (b ^ 2) = fun x => (b * x - sin (b * x)) / b ^ 3 := funext (U3_pos hb)
    rw [e, U2_pos hb]
    have h1 : HasDerivAt (fun y : ℝ => b * y) b x := by simpa using (hasDerivAt_id x).const_mul b
    refine ((h1.sub h1.sin).div_const _).congr_deriv ?_
    field_simp
  · have e : U3 0 = fun x => x ^ 3 / 6 := funext U3_zero
    rw [e, U2_zero]
    refine ((hasDerivAt_pow 3 x).div_const 6).congr_deriv ?_
    push_cast; ring
  · have e : U3 (-b ^ 2) = fun x => (sinh (b * x) - b * x) / b ^ 3 := funext (U3_neg hb)
    rw [e, U2_neg hb]
    have h1 : HasDerivAt (fun y : ℝ => b * y) b x := by simpa using (hasDerivAt_id x).const_mul b
    refine ((h1.sinh.sub h1).div_const _).congr_deriv ?_
    field_simp

theorem hasDerivAt_U2 (α x : ℝ) : HasDerivAt (U2 α) (x - α * U3 α x) x := by
  rcases alpha_cases α with ⟨b, hb, rfl⟩ | rfl | ⟨b, hb, rfl⟩
  · have e : U2 (b ^ 2) = fun x => (1 - cos (b * x)) / b ^ 2 := funext (U2_pos hb)
    rw [e, U3_pos hb]
    have h1 : HasDerivAt (fun y : ℝ => b * y) b x := by simpa using (hasDerivAt_id x).const_mul b
    refine ((h1.cos.const_sub 1).div_const _).congr_deriv ?_
    field_simp; ring
  · have e : U2 0 = fun x => x ^ 2 / 2 := funext U2_zero
    rw [e]
    refine ((hasDerivAt_pow 2 x).div_const 2).congr_deriv ?_
    push_cast; ring
  · have e : U2 (-b ^ 2) = fun x => (cosh (b * x) - 1) / b ^ 2 := funext (U2_neg hb)
    rw [e, U3_neg hb]
    have h1 : HasDerivAt (fun y : ℝ => b * y) b x := by simpa using (hasDerivAt_id x).const_mul b
    refine ((h1.cosh.sub_const 1).div_const _).congr_deriv ?_
    field_simp; ring

theorem kepDS_eq (DT r0 vr0 alpha mu x : ℝ) : kepDS x DT r0 vr0 alpha mu =
    -√mu * DT + r0 * vr0 / √mu * U2 alpha x + (1 - alpha * r0) * U3 alpha x + r0 * x := by
  unfold kepDS U2 U3; ring

theorem d_kepDS_eq (r0 vr0 alpha mu x : ℝ) : d_kepDS x r0 vr0 alpha mu =
    r0 * vr0 / √mu * (x - alpha * U3 alpha x) + (1 - alpha * r0) * U2 alpha x + r0 := by
  unfold d_kepDS U2 U3; ring

/-! ## C15 -/

/-- **C15** for `kepE`. -/
theorem C15_kepE (E M ecc : ℝ) :
    HasDerivAt (fun x => kepE x M ecc) (d_kepE E ecc) E ∧ HasDerivAt (fun x => d_kepE x ecc) (dd_kepE E ecc) E := by
  unfold kepE d_kepE dd_kepE
  constructor
  · exact (((hasDerivAt_id E).sub ((hasDerivAt_sin E).const_mul ecc)).sub_const M)
  · exact (((hasDerivAt_cos E).const_mul ecc).const_sub 1).congr_deriv (by ring)

/-- **C15** for `kepH`. -/
theorem C15_kepH (H M ecc : ℝ) :
    HasDerivAt (fun x => kepH x M ecc) (d_kepH H ecc) H ∧ HasDerivAt (fun x => d_kepH x ecc) (dd_kepH H ecc) H := by
  unfold kepH d_kepH dd_kepH
  constructor
  · exact ((((Real.hasDerivAt_sinh H).const_mul ecc).sub (hasDerivAt_id H)).sub_const M)
  · exact (((Real.hasDerivAt_cosh H).const_mul ecc).sub_const 1)

/-- **C15** for `kepDE`. -/
theorem C15_kepDE (DE DM sigma0 sqrta a R : ℝ) :
    HasDerivAt (fun x => kepDE x DM sigma0 sqrta a R) (d_kepDE DE sigma0 sqrta a R) DE ∧
      HasDerivAt (fun x => d_kepDE x sigma0 sqrta a R) (dd_kepDE DE sigma0 sqrta a R) DE := by
  unfold kepDE d_kepDE dd_kepDE
  constructor
  · exact ((((hasDerivAt_id DE).const_add (-DM)).add (((hasDerivAt_cos DE).const_sub 1).const_mul _)).sub
      ((hasDerivAt_sin DE).const_mul _)).congr_deriv (by ring)
  · exact ((((hasDerivAt_sin DE).const_mul _).const_add 1).sub ((hasDerivAt_cos DE).const_mul _)).congr_deriv (by ring)

/-- **C15** for `kepDH`. -/
theorem C15_kepDH (DH DN sigma0 sqrta a R : ℝ) :
    HasDerivAt (fun x => kepDH x DN sigma0 sqrta a R) (d_kepDH DH sigma0 sqrta a R) DH ∧
      HasDerivAt (fun x => d_kepDH x sigma0 sqrta a R) (dd_kepDH DH sigma0 sqrta a R) DH := by
  unfold kepDH d_kepDH dd_kepDH
  constructor
  · exact ((((hasDerivAt_id DH).const_sub (-DN)).add (((Real.hasDerivAt_cosh DH).sub_const 1).const_mul _)).add
      ((Real.hasDerivAt_sinh DH).const_mul _)).congr_deriv (by ring)
  · exact ((((Real.hasDerivAt_sinh DH).const_mul _).const_add (-1)).add ((Real.hasDerivAt_cosh DH).const_mul _))

/-- **C15** for the first derivative of `kepDS`, for ellipses, parabolas and hyperbolas, `DS = 0` included. -/
theorem C15_kepDS_partial (DS DT r0 vr0 alpha mu : ℝ) :
    HasDerivAt (fun x => kepDS x DT r0 vr0 alpha mu) (d_kepDS DS r0 vr0 alpha mu) DS := by
  have e : (fun x => kepDS x DT r0 vr0 alpha mu) = fun x =>
      -√mu * DT + r0 * vr0 / √mu * U2 alpha x + (1 - alpha * r0) * U3 alpha x + r0 * x :=
    funext (kepDS_eq DT r0 vr0 alpha mu)
  rw [e, d_kepDS_eq]
  exact (((((hasDerivAt_U2 alpha DS).const_mul _).const_add _).add ((hasDerivAt_U3 alpha DS).const_mul _)).add
    ((hasDerivAt_id DS).const_mul r0)).congr_deriv (by simp)

/-- The second derivative of `kepDS`. -/
theorem hasDerivAt_d_kepDS (DS r0 vr0 alpha mu : ℝ) :
    HasDerivAt (fun x => d_kepDS x r0 vr0 alpha mu)
      (r0 * vr0 / √mu * (1 - alpha * U2 alpha DS) + (1 - alpha * r0) * (DS - alpha * U3 alpha DS)) DS := by
  have e : (fun x => d_kepDS x r0 vr0 alpha mu) = fun x =>
      r0 * vr0 / √mu * (x - alpha * U3 alpha x) + (1 - alpha * r0) * U2 alpha x + r0 :=
    funext (d_kepDS_eq r0 vr0 alpha mu)
  rw [e]
  exact ((((hasDerivAt_id DS).sub ((hasDerivAt_U3 alpha DS).const_mul alpha)).const_mul _).add
    ((hasDerivAt_U2 alpha DS).const_mul _)).add_const r0

/-- **C15, negation**: `dd_kepDS` is not the second derivative of `kepDS`. Whenever the semi-major axis is not
the radius (`alpha r0 ≠ 1`), already at `DS = 0` it is off by `1 - alpha r0`. -/
theorem C15_dd_kepDS_wrong (r0 vr0 alpha mu : ℝ) (h : alpha * r0 ≠ 1) :
    ¬ HasDerivAt (fun x => d_kepDS x r0 vr0 alpha mu) (dd_kepDS 0 r0 vr0 alpha mu) 0 := by
  intro h0
  have := (hasDerivAt_d_kepDS 0 r0 vr0 alpha mu).unique h0
  unfold dd_kepDS U2 U3 at this
  simp only [mul_zero, zero_mul, sub_zero, mul_one, add_zero] at this
  apply h
  linarith

/-- E.g. at the pericentre (radius 1) of an ellipse with semi-major axis 2. -/
example : ¬ HasDerivAt (fun x => d_kepDS x 1 0 (1 / 2) 1) (dd_kepDS 0 1 0 (1 / 2) 1) 0 :=
  C15_dd_kepDS_wrong 1 0 (1 / 2) 1 (by norm_num)

end Kep3
