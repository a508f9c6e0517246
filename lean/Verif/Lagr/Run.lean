import Verif.Lagr.Universal
import Verif.Lagr.Bracket
import Verif.Kepler.Props14
import Mathlib.Analysis.Complex.ExponentialBounds

/-!
# What the Lagrange propagator computes
-/

namespace Kep3
open Real V3

section
variable {x : RV ℝ} {mu : ℝ} (hmu : 0 < mu) (hh : angMom x ≠ 0)
include hmu hh

theorem lagr_ellipse_eq (sv : Solver) (tof : ℝ) {b : ℝ} (hb : 0 < b) (hα : alphaOf x mu = b ^ 2) :
    lagr sv x tof mu = lagrE sv tof mu (norm x.r) (energy x mu) (sigmaOf x mu) (1 / b ^ 2) := by
  have hR := (norm_pos (r_ne_of_h hh)).ne'
  have he : energy x mu = -(mu / 2) * b ^ 2 := by rw [energy_alpha hmu hh, hα]
  have hb2 : 0 < b ^ 2 := by positivity
  have he0 : energy x mu ≠ 0 := by
    rw [he]
    have : 0 < mu / 2 * b ^ 2 := by positivity
    intro h; linarith
  have ha : -mu / 2 / energy x mu = 1 / b ^ 2 := by rw [he]; field_simp
  show (if mu ≤ 0 ∨ norm x.r = 0 then _ else if energy x mu = 0 then _
    else if 0 < -mu / 2 / energy x mu then lagrE sv tof mu (norm x.r) (energy x mu) (sigmaOf x mu) (-mu / 2 / energy x mu)
      else _) = _
  rw [if_neg (by simp [hmu, hR]), if_neg he0, ha, if_pos (by positivity)]

theorem lagr_hyperbola_eq (sv : Solver) (tof : ℝ) {b : ℝ} (hb : 0 < b) (hα : alphaOf x mu = -b ^ 2) :
    lagr sv x tof mu = lagrH sv tof mu (norm x.r) (energy x mu) (sigmaOf x mu) (-(1 / b ^ 2)) := by
  have hR := (norm_pos (r_ne_of_h hh)).ne'
  have he : energy x mu = mu / 2 * b ^ 2 := by rw [energy_alpha hmu hh, hα]; ring
  have hb2 : 0 < b ^ 2 := by positivity
  have he0 : energy x mu ≠ 0 := by
    rw [he]
    have : 0 < mu / 2 * b ^ 2 := by positivity
    exact this.ne'
  have ha : -mu / 2 / energy x mu = -(1 / b ^ 2) := by rw [he]; field_simp
  show (if mu ≤ 0 ∨ norm x.r = 0 then _ else if energy x mu = 0 then _
    else if 0 < -mu / 2 / energy x mu then _
      else lagrH sv tof mu (norm x.r) (energy x mu) (sigmaOf x mu) (-mu / 2 / energy x mu)) = _
  have hp : 0 < 1 / b ^ 2 := by positivity
  rw [if_neg (by simp [hmu, hR]), if_neg he0, ha, if_neg (by linarith)]

theorem lagr_parabola_eq (sv : Solver) (tof : ℝ) (hα : alphaOf x mu = 0) : lagr sv x tof mu = .ok none := by
  have hR := (norm_pos (r_ne_of_h hh)).ne'
  have he : energy x mu = 0 := by rw [energy_alpha hmu hh, hα]; ring
  show (if mu ≤ 0 ∨ norm x.r = 0 then _ else if energy x mu = 0 then _ else _) = _
  rw [if_neg (by simp [hmu, hR]), if_pos he]

omit hh in
theorem sqrt_mean {b : ℝ} (hb : 0 < b) : √(mu / (1 / b ^ 2) ^ 3) = √mu * b ^ 3 := by
  have : mu / (1 / b ^ 2) ^ 3 = mu * (b ^ 3) ^ 2 := by field_simp
  rw [this, sqrt_mul hmu.le, sqrt_sq (by positivity)]

omit hh hmu in
theorem sqrt_a {b : ℝ} (hb : 0 < b) : √(1 / b ^ 2) = 1 / b := by
  rw [show 1 / b ^ 2 = (1 / b) ^ 2 by ring, sqrt_sq (by positivity)]

/-- Kepler's equation for the eccentric anomaly difference is the time equation at the universal anomaly `E / b`. -/
theorem kepDE_time {b : ℝ} (hb : 0 < b) (hα : alphaOf x mu = b ^ 2) (E M : ℝ) :
    kepDE E M (sigmaOf x mu) (1 / b) (1 / b ^ 2) (norm x.r) = b ^ 3 * √mu * timeU x mu (E / b) - M := by
  have hk := (sqrt_pos.2 hmu).ne'
  unfold kepDE timeU
  rw [hα, U1_pos hb, U2_pos hb, U3_pos hb, mul_div_cancel₀ E hb.ne']
  field_simp
  ring

theorem ecc_le {b : ℝ} (hb : 0 < b) (hα : alphaOf x mu = b ^ 2) :
    (sigmaOf x mu / (1 / b)) ^ 2 + (1 - norm x.r / (1 / b ^ 2)) ^ 2 ≤ 1 := by
  have h := hsq_pos hmu hh
  rw [hα] at h
  have : (sigmaOf x mu / (1 / b)) ^ 2 + (1 - norm x.r / (1 / b ^ 2)) ^ 2
      = 1 - b ^ 2 * (2 * norm x.r - b ^ 2 * norm x.r ^ 2 - sigmaOf x mu ^ 2) := by
    field_simp; ring
  rw [this]
  have := mul_pos (pow_pos hb 2) h
  linarith

/-- The local variables after an elliptic step to the universal anomaly `E / b`. -/
theorem coeffE_run {b : ℝ} (hb : 0 < b) (hα : alphaOf x mu = b ^ 2) (en s0 c0 E : ℝ) :
    coeffE mu (norm x.r) en (sigmaOf x mu) (1 / b ^ 2) (1 / b) s0 c0 E =
      some { R0 := norm x.r, Rf := radU x mu (E / b), energy := en, sigma0 := sigmaOf x mu, a := 1 / b ^ 2, s0 := s0,
             c0 := c0, DX := E, F := FU x mu (E / b), G := GU x mu (E / b), Ft := FtU x mu (E / b),
             Gt := GtU x mu (E / b) } := by
  have hR := (norm_pos (r_ne_of_h hh)).ne'
  have hk := (sqrt_pos.2 hmu).ne'
  have hr := radU_ne hmu hh (E / b)
  have hbE : b * (E / b) = E := mul_div_cancel₀ E hb.ne'
  have hRf : 1 / b ^ 2 + (norm x.r - 1 / b ^ 2) * cos E + sigmaOf x mu * (1 / b) * sin E = radU x mu (E / b) := by
    unfold radU; rw [hα, U0_pos hb, U1_pos hb, U2_pos hb, hbE]; field_simp; ring
  have h3 : √(1 / b ^ 2 / mu) = 1 / (b * √mu) := by
    rw [show 1 / b ^ 2 / mu = (1 / b ^ 2) / mu by ring, sqrt_div (by positivity), sqrt_a hb]; field_simp
  have h4 : √(mu * (1 / b ^ 2)) = √mu / b := by
    rw [sqrt_mul hmu.le, sqrt_a hb]; field_simp
  unfold coeffE
  simp only [hRf, div?_ok hR, div?_ok hk, div?_ok hmu.ne', div?_ok hr, div?_ok (mul_ne_zero hr hR),
    sqrt?_ok (show 0 ≤ 1 / b ^ 2 / mu by positivity), sqrt?_ok (show 0 ≤ mu * (1 / b ^ 2) by positivity),
    Option.bind_eq_bind, Option.bind_some, h3, h4]
  refine congrArg some ?_
  refine Lagr.mk.injEq .. |>.mpr ⟨rfl, rfl, rfl, rfl, rfl, rfl, rfl, rfl, ?_, ?_, ?_, ?_⟩
  · unfold FU; rw [hα, U2_pos hb, hbE]; field_simp
  · unfold GU; rw [hα, U1_pos hb, U2_pos hb, hbE]; field_simp; ring
  · unfold FtU; rw [hα, U1_pos hb, hbE]; field_simp
  · unfold GtU; rw [hα, U2_pos hb, hbE]; field_simp

theorem kepDH_time {b : ℝ} (hb : 0 < b) (hα : alphaOf x mu = -b ^ 2) (H N : ℝ) :
    kepDH H N (sigmaOf x mu) (1 / b) (-(1 / b ^ 2)) (norm x.r) = b ^ 3 * √mu * timeU x mu (H / b) - N := by
  have hk := (sqrt_pos.2 hmu).ne'
  unfold kepDH timeU
  rw [hα, U1_neg hb, U2_neg hb, U3_neg hb, mul_div_cancel₀ H hb.ne']
  field_simp
  ring

theorem coeffH_run {b : ℝ} (hb : 0 < b) (hα : alphaOf x mu = -b ^ 2) (en s0 c0 H : ℝ) :
    coeffH mu (norm x.r) en (sigmaOf x mu) (-(1 / b ^ 2)) (1 / b) s0 c0 H =
      some { R0 := norm x.r, Rf := radU x mu (H / b), energy := en, sigma0 := sigmaOf x mu, a := -(1 / b ^ 2), s0 := s0,
             c0 := c0, DX := H, F := FU x mu (H / b), G := GU x mu (H / b), Ft := FtU x mu (H / b),
             Gt := GtU x mu (H / b) } := by
  have hR := (norm_pos (r_ne_of_h hh)).ne'
  have hk := (sqrt_pos.2 hmu).ne'
  have hr := radU_ne hmu hh (H / b)
  have hbE : b * (H / b) = H := mul_div_cancel₀ H hb.ne'
  have hRf : -(1 / b ^ 2) + (norm x.r - -(1 / b ^ 2)) * cosh H + sigmaOf x mu * (1 / b) * sinh H
      = radU x mu (H / b) := by
    unfold radU; rw [hα, U0_neg hb, U1_neg hb, U2_neg hb, hbE]; field_simp; ring
  have h3 : √(1 / b ^ 2 / mu) = 1 / (b * √mu) := by
    rw [show 1 / b ^ 2 / mu = (1 / b ^ 2) / mu by ring, sqrt_div (by positivity), sqrt_a hb]; field_simp
  have h4 : √(mu * (1 / b ^ 2)) = √mu / b := by
    rw [sqrt_mul hmu.le, sqrt_a hb]; field_simp
  unfold coeffH
  simp only [neg_neg, neg_mul_neg]
  simp only [hRf, div?_ok hR, div?_ok hk, div?_ok hmu.ne', div?_ok hr, div?_ok (mul_ne_zero hr hR),
    sqrt?_ok (show 0 ≤ 1 / b ^ 2 / mu by positivity), sqrt?_ok (show 0 ≤ mu * (1 / b ^ 2) by positivity),
    Option.bind_eq_bind, Option.bind_some, h3, h4]
  refine congrArg some ?_
  refine Lagr.mk.injEq .. |>.mpr ⟨rfl, rfl, rfl, rfl, rfl, rfl, rfl, rfl, ?_, ?_, ?_, ?_⟩
  · unfold FU; rw [hα, U2_neg hb, hbE]; field_simp; try ring
  · unfold GU; rw [hα, U1_neg hb, U2_neg hb, hbE]; field_simp; ring
  · unfold FtU; rw [hα, U1_neg hb, hbE]; field_simp
  · unfold GtU; rw [hα, U2_neg hb, hbE]; field_simp; try ring

/-- After any whole number of revolutions the state is the same. -/
theorem timeU_period_int {b : ℝ} (hb : 0 < b) (hα : alphaOf x mu = b ^ 2) (s : ℝ) (k : ℤ) :
    timeU x mu (s + 2 * π * k / b) = timeU x mu s + 2 * π * k / (b ^ 3 * √mu) ∧
      stateU x mu (s + 2 * π * k / b) = stateU x mu s := by
  have e : b * (s + 2 * π * k / b) = b * s + k * (2 * π) := by field_simp
  have e1 : U1 (b ^ 2) (s + 2 * π * k / b) = U1 (b ^ 2) s := by
    rw [U1_pos hb, U1_pos hb, e, sin_add_int_mul_two_pi]
  have e2 : U2 (b ^ 2) (s + 2 * π * k / b) = U2 (b ^ 2) s := by
    rw [U2_pos hb, U2_pos hb, e, cos_add_int_mul_two_pi]
  have e3 : U3 (b ^ 2) (s + 2 * π * k / b) = U3 (b ^ 2) s + 2 * π * k / b ^ 3 := by
    rw [U3_pos hb, U3_pos hb, e, sin_add_int_mul_two_pi]; ring
  have e0 : U0 (b ^ 2) (s + 2 * π * k / b) = U0 (b ^ 2) s := by unfold U0; rw [e2]
  have hk := (sqrt_pos.2 hmu).ne'
  constructor
  · unfold timeU; rw [hα, e1, e2, e3]; field_simp; ring
  · unfold stateU FU GU FtU GtU radU
    rw [hα, e0, e1, e2]

/-- The elliptic branch: either the root finder used up its iterations, or the local variables are those at a universal
anomaly reached after the given time plus a whole number of periods. -/
theorem lagr_ellipse (sv : Solver) (hsv : sv.Sound) (tof : ℝ) {b : ℝ} (hb : 0 < b) (hα : alphaOf x mu = b ^ 2) :
    (lagr sv x tof mu = .err .domainError ∧ ¬ sv.Quick) ∨
      ∃ (E : ℝ) (k : ℤ), timeU x mu (E / b) = tof + 2 * π * k / (b ^ 3 * √mu) ∧
        lagr sv x tof mu = .ok (some
          { R0 := norm x.r, Rf := radU x mu (E / b), energy := energy x mu, sigma0 := sigmaOf x mu, a := 1 / b ^ 2,
            s0 := sigmaOf x mu * b, c0 := 1 - norm x.r * b ^ 2, DX := E, F := FU x mu (E / b), G := GU x mu (E / b),
            Ft := FtU x mu (E / b), Gt := GtU x mu (E / b) }) := by
  rw [lagr_ellipse_eq hmu hh sv tof hb hα]
  have hk := (sqrt_pos.2 hmu).ne'
  unfold lagrE
  simp only [sqrt_mean hmu hb, sqrt_a hb]
  obtain ⟨k, hk2, h3⟩ : ∃ k : ℤ, wrapNeg (atan2 (sin (√mu * b ^ 3 * tof)) (cos (√mu * b ^ 3 * tof)))
      = √mu * b ^ 3 * tof + 2 * π * k ∧ True := by
    obtain ⟨k, h, -⟩ := atan2_crop (√mu * b ^ 3 * tof)
    unfold wrapNeg
    split
    · refine ⟨k + 1, ?_, trivial⟩; rw [h]; push_cast; ring
    · exact ⟨k, h, trivial⟩
  have hs : sin (√mu * b ^ 3 * tof) = sin (√mu * b ^ 3 * tof + 2 * π * k) := by
    rw [show √mu * b ^ 3 * tof + 2 * π * k = √mu * b ^ 3 * tof + k * (2 * π) by ring, sin_add_int_mul_two_pi]
  have hc : cos (√mu * b ^ 3 * tof) = cos (√mu * b ^ 3 * tof + 2 * π * k) := by
    rw [show √mu * b ^ 3 * tof + 2 * π * k = √mu * b ^ 3 * tof + k * (2 * π) by ring, cos_add_int_mul_two_pi]
  rw [hk2, hs, hc]
  generalize hM : √mu * b ^ 3 * tof + 2 * π * k = M
  obtain ⟨E, hE1, hE2, hE⟩ := kepDE_bracket (DMc := M) (sigma0 := sigmaOf x mu) (sqrta := 1 / b) (a := 1 / b ^ 2)
    (R0 := norm x.r) (by field_simp) (by positivity) (ecc_le hmu hh hb hα)
  split
  · next h => exact .inl ⟨rfl, fun hq => hq _ _ _ _ h⟩
  · next h =>
    right
    have hpi := pi_pos
    obtain ⟨-, -, r1⟩ := hsv _ _ _ _ (by linarith) (by linarith) ⟨E, hE1, hE2, hE⟩ h
    generalize (sv _ _ _ _).1 = E at *
    have r1 : kepDE E M (sigmaOf x mu) (1 / b) (1 / b ^ 2) (norm x.r) = 0 := r1
    rw [kepDE_time hmu hh hb hα] at r1
    rw [coeffE_run hmu hh hb hα]
    refine ⟨E, k, ?_, ?_⟩
    · have hb3 : b ^ 3 * √mu ≠ 0 := by positivity
      refine mul_left_cancel₀ hb3 ?_
      rw [← hM] at r1
      have : b ^ 3 * √mu * (tof + 2 * π * k / (b ^ 3 * √mu)) = √mu * b ^ 3 * tof + 2 * π * k := by
        field_simp
      rw [this]
      linear_combination r1
    · rw [show sigmaOf x mu / (1 / b) = sigmaOf x mu * b by field_simp,
        show 1 - norm x.r / (1 / b ^ 2) = 1 - norm x.r * b ^ 2 by field_simp]

/-- Product form of the hyperbolic equation. -/
theorem kepDH_lower {s c D : ℝ} (hc : 0 < c) (h : 1 ≤ c ^ 2 - s ^ 2) (hD : 0 ≤ D) :
    2 * sinh (D / 2) ≤ s * (cosh D - 1) + c * sinh D ∧
      s * (cosh (-D) - 1) + c * sinh (-D) ≤ -(2 * sinh (D / 2)) := by
  have e1 : cosh D = 1 + 2 * sinh (D / 2) ^ 2 := by
    rw [show D = 2 * (D / 2) by ring, cosh_two_mul, cosh_sq, show 2 * (D / 2) / 2 = D / 2 by ring]; ring
  have e2 : sinh D = 2 * sinh (D / 2) * cosh (D / 2) := by
    rw [show D = 2 * (D / 2) by ring, sinh_two_mul, show 2 * (D / 2) / 2 = D / 2 by ring]
  have h0 : 0 ≤ sinh (D / 2) := sinh_nonneg_iff.2 (by linarith)
  have hch := cosh_sq (D / 2)
  have h1 := one_le_cosh (D / 2)
  rw [cosh_neg, sinh_neg, e1, e2]
  generalize sinh (D / 2) = S at *
  generalize cosh (D / 2) = C at *
  have key : ∀ s, 1 ≤ c ^ 2 - s ^ 2 → 1 ≤ s * S + c * C := by
    intro s h
    have hs : |s| < c := by rw [← sq_lt_sq₀ (abs_nonneg s) hc.le, sq_abs]; linarith
    have hsc : S < C := by nlinarith
    have hs1 := (abs_lt.1 hs).1
    have hp : 0 < s * S + c * C := by nlinarith [mul_nonneg h0 (by linarith : 0 ≤ s + c), mul_pos hc (by linarith : 0 < C - S)]
    have hi : (s * S + c * C) ^ 2 = (c ^ 2 - s ^ 2) + (c * S + s * C) ^ 2 := by
      linear_combination (c ^ 2 - s ^ 2) * hch
    by_contra hlt
    have hlt := not_le.1 hlt
    nlinarith [sq_nonneg (c * S + s * C)]
  have k1 := key s h
  have k2 := key (-s) (by linarith [neg_sq s])
  constructor
  · nlinarith [mul_nonneg h0 (by linarith : 0 ≤ s * S + c * C - 1)]
  · nlinarith [mul_nonneg h0 (by linarith : 0 ≤ -s * S + c * C - 1)]

theorem exp24 : (10 : ℝ) ^ 10 + 50 ≤ 2 * sinh (49 / 2) := by
  have h1 : (27 / 10 : ℝ) ^ 24 ≤ rexp 24 := by
    have : rexp 24 = rexp 1 ^ 24 := by rw [← exp_nat_mul]; norm_num
    rw [this]
    exact pow_le_pow_left₀ (by norm_num) (by linarith [exp_one_gt_d9]) 24
  have h2 : rexp 24 ≤ rexp (49 / 2) := exp_le_exp.2 (by norm_num)
  have h3 : rexp (-(49 / 2)) ≤ 1 := exp_le_one_iff.2 (by norm_num)
  rw [sinh_eq]
  have : (10 : ℝ) ^ 10 + 51 ≤ (27 / 10 : ℝ) ^ 24 := by norm_num
  linarith

/-- For a mean anomaly difference up to `10^10` in size the bracket of the hyperbolic branch contains the solution. -/
theorem kepDH_bracket {b tof : ℝ} (hb : 0 < b) (hα : alphaOf x mu = -b ^ 2)
    (ht : |√mu * b ^ 3 * tof| ≤ 10 ^ 10) :
    ∃ H, (if 0 < tof then 1 else -1) - 50 ≤ H ∧ H ≤ (if 0 < tof then 1 else -1) + 50 ∧
      kepDH H (√mu * b ^ 3 * tof) (sigmaOf x mu) (1 / b) (-(1 / b ^ 2)) (norm x.r) = 0 := by
  have hR := norm_pos (r_ne_of_h hh)
  have hk := sqrt_pos.2 hmu
  have hc0 : 0 < 1 - norm x.r / (-(1 / b ^ 2)) := by
    have : norm x.r / (-(1 / b ^ 2)) = -(norm x.r * b ^ 2) := by field_simp
    rw [this]
    have : 0 < norm x.r * b ^ 2 := by positivity
    linarith
  have hcs : 1 ≤ (1 - norm x.r / (-(1 / b ^ 2))) ^ 2 - (sigmaOf x mu / (1 / b)) ^ 2 := by
    have h := hsq_pos hmu hh
    rw [hα] at h
    have : (1 - norm x.r / (-(1 / b ^ 2))) ^ 2 - (sigmaOf x mu / (1 / b)) ^ 2
        = 1 + b ^ 2 * (2 * norm x.r - -b ^ 2 * norm x.r ^ 2 - sigmaOf x mu ^ 2) := by
      field_simp; ring
    rw [this]
    have := mul_pos (pow_pos hb 2) h
    linarith
  obtain ⟨h1, h2⟩ := kepDH_lower hmu hh hc0 hcs (show (0 : ℝ) ≤ 49 by norm_num)
  have h24 := exp24 hmu hh
  have hN := abs_le.1 ht
  have hcont : Continuous fun H => kepDH H (√mu * b ^ 3 * tof) (sigmaOf x mu) (1 / b) (-(1 / b ^ 2)) (norm x.r) := by
    unfold kepDH
    exact ((continuous_const.sub continuous_id).add (continuous_const.mul (continuous_cosh.sub continuous_const))).add
      (continuous_const.mul continuous_sinh)
  have hz : kepDH 0 (√mu * b ^ 3 * tof) (sigmaOf x mu) (1 / b) (-(1 / b ^ 2)) (norm x.r) = -(√mu * b ^ 3 * tof) := by
    unfold kepDH; simp
  have hb3 : 0 < √mu * b ^ 3 := by positivity
  by_cases htof : 0 < tof
  · rw [if_pos htof]
    have hp : 0 < √mu * b ^ 3 * tof := mul_pos hb3 htof
    obtain ⟨H, hH, h0⟩ := intermediate_value_Icc (by norm_num : (0 : ℝ) ≤ 49) hcont.continuousOn
      (show (0 : ℝ) ∈ Set.Icc _ _ from ⟨by rw [hz]; linarith, by unfold kepDH; linarith⟩)
    exact ⟨H, by linarith [hH.1], by linarith [hH.2], h0⟩
  · rw [if_neg htof]
    have hp : √mu * b ^ 3 * tof ≤ 0 := mul_nonpos_of_nonneg_of_nonpos hb3.le (not_lt.1 htof)
    obtain ⟨H, hH, h0⟩ := intermediate_value_Icc (by norm_num : (-49 : ℝ) ≤ 0) hcont.continuousOn
      (show (0 : ℝ) ∈ Set.Icc _ _ from ⟨by unfold kepDH; linarith, by rw [hz]; linarith⟩)
    exact ⟨H, by linarith [hH.1], by linarith [hH.2], h0⟩

omit hh in
theorem sqrt_mean_neg {b : ℝ} (hb : 0 < b) :
    √(-mu / (-(1 / b ^ 2)) / (-(1 / b ^ 2)) / (-(1 / b ^ 2))) = √mu * b ^ 3 := by
  have : -mu / (-(1 / b ^ 2)) / (-(1 / b ^ 2)) / (-(1 / b ^ 2)) = mu * (b ^ 3) ^ 2 := by field_simp
  rw [this, sqrt_mul hmu.le, sqrt_sq (by positivity)]

/-- The hyperbolic branch, for a mean anomaly difference up to `10^10` in size. -/
theorem lagr_hyperbola (sv : Solver) (hsv : sv.Sound) (tof : ℝ) {b : ℝ} (hb : 0 < b) (hα : alphaOf x mu = -b ^ 2)
    (ht : |√mu * b ^ 3 * tof| ≤ 10 ^ 10) :
    (lagr sv x tof mu = .err .domainError ∧ ¬ sv.Quick) ∨
      ∃ H : ℝ, timeU x mu (H / b) = tof ∧
        lagr sv x tof mu = .ok (some
          { R0 := norm x.r, Rf := radU x mu (H / b), energy := energy x mu, sigma0 := sigmaOf x mu, a := -(1 / b ^ 2),
            s0 := sigmaOf x mu * b, c0 := 1 + norm x.r * b ^ 2, DX := H, F := FU x mu (H / b), G := GU x mu (H / b),
            Ft := FtU x mu (H / b), Gt := GtU x mu (H / b) }) := by
  rw [lagr_hyperbola_eq hmu hh sv tof hb hα]
  have hk := (sqrt_pos.2 hmu).ne'
  obtain ⟨H, hH1, hH2, hH⟩ := kepDH_bracket hmu hh hb hα ht
  unfold lagrH
  simp only [sqrt_mean_neg hmu hb, neg_neg, sqrt_a hb]
  generalize (if 0 < tof then (1 : ℝ) else -1) = IG at *
  split
  · next h => exact .inl ⟨rfl, fun hq => hq _ _ _ _ h⟩
  · next h =>
    right
    obtain ⟨-, -, r1⟩ := hsv _ _ _ _ (by linarith) (by linarith) ⟨H, hH1, hH2, hH⟩ h
    generalize (sv _ _ _ _).1 = H at *
    have r1 : kepDH H (√mu * b ^ 3 * tof) (sigmaOf x mu) (1 / b) (-(1 / b ^ 2)) (norm x.r) = 0 := r1
    rw [kepDH_time hmu hh hb hα] at r1
    rw [coeffH_run hmu hh hb hα]
    refine ⟨H, ?_, ?_⟩
    · have hb3 : b ^ 3 * √mu ≠ 0 := by positivity
      have : b ^ 3 * √mu * timeU x mu (H / b) = b ^ 3 * √mu * tof := by linear_combination r1
      exact mul_left_cancel₀ hb3 this
    · rw [show sigmaOf x mu / (1 / b) = sigmaOf x mu * b by field_simp,
        show 1 - norm x.r / (-(1 / b ^ 2)) = 1 + norm x.r * b ^ 2 by field_simp; ring]

/-- The size of the hyperbolic mean anomaly difference that the bracket of the hyperbolic branch covers for sure. -/
def HypRange (x : RV ℝ) (mu tof : ℝ) : Prop := 0 < energy x mu → √mu * |tof| * √(-alphaOf x mu) ^ 3 ≤ 10 ^ 10

theorem lagrState {q : Lagr} {s : ℝ} (h1 : q.F = FU x mu s) (h2 : q.G = GU x mu s) (h3 : q.Ft = FtU x mu s)
    (h4 : q.Gt = GtU x mu s) : q.state x = stateU x mu s := by
  unfold Lagr.state stateU
  rw [h1, h2, h3, h4]; rfl

/-- The propagator returns the exact two-body motion. -/
theorem propagateLagrangian_run (sv : Solver) (hsv : sv.Sound) (tof : ℝ) (hE : energy x mu ≠ 0)
    (hr : HypRange x mu tof) :
    (propagateLagrangian sv x tof mu = .err .domainError ∧ ¬ sv.Quick) ∨
      propagateLagrangian sv x tof mu = .ok (some (kepFlow x mu tof)) := by
  have hk := (sqrt_pos.2 hmu).ne'
  unfold propagateLagrangian
  rcases alpha_cases (alphaOf x mu) with ⟨b, hb, hα⟩ | hα | ⟨b, hb, hα⟩
  · rcases lagr_ellipse hmu hh sv hsv tof hb hα with ⟨h, hq⟩ | ⟨E, k, ht, h⟩
    · left; rw [h]; exact ⟨rfl, hq⟩
    · right; rw [h]
      obtain ⟨h1, h2⟩ := timeU_period_int hmu hh hb hα (E / b) (-k)
      have : kepFlow x mu tof = stateU x mu (E / b) := by
        rw [← h2]
        refine kepFlow_of_time hmu hh ?_
        rw [h1, ht]; push_cast; ring
      rw [this]
      exact congrArg (fun y => Res.ok (some y)) (lagrState hmu hh rfl rfl rfl rfl)
  · exact absurd (by rw [energy_alpha hmu hh, hα]; ring) hE
  · have hen : 0 < energy x mu := by
      rw [energy_alpha hmu hh, hα]
      have : 0 < mu / 2 * b ^ 2 := by positivity
      linarith
    have hr := hr hen
    rw [hα, neg_neg, sqrt_sq hb.le] at hr
    have habs : |√mu * b ^ 3 * tof| ≤ 10 ^ 10 := by
      rw [abs_mul, abs_of_pos (by positivity : 0 < √mu * b ^ 3)]; linarith
    rcases lagr_hyperbola hmu hh sv hsv tof hb hα habs with ⟨h, hq⟩ | ⟨H, ht, h⟩
    · left; rw [h]; exact ⟨rfl, hq⟩
    · right; rw [h, kepFlow_of_time hmu hh ht]
      exact congrArg (fun y => Res.ok (some y)) (lagrState hmu hh rfl rfl rfl rfl)

end

end Kep3
