import Verif.Kepler.Equations
import Verif.Elements.Frame
import Mathlib.Analysis.Calculus.MeanValue
import Mathlib.Analysis.Calculus.Deriv.Inverse
import Mathlib.Topology.Order.IntermediateValue

/-!
# The two-body problem in universal variables

Independent of the propagators: the exact motion, built from the functions `U0 … U3`, is shown to solve the equations
of motion, and the propagators are compared with it in the files that follow.
-/

namespace Kep3
open Real V3

/-! ## The functions `U0`, `U1` -/

noncomputable def U0 (α x : ℝ) : ℝ := 1 - α * U2 α x
noncomputable def U1 (α x : ℝ) : ℝ := x - α * U3 α x

theorem U0_pos {b : ℝ} (hb : 0 < b) (x : ℝ) : U0 (b ^ 2) x = cos (b * x) := by
  unfold U0; rw [U2_pos hb]; field_simp; ring
theorem U1_pos {b : ℝ} (hb : 0 < b) (x : ℝ) : U1 (b ^ 2) x = sin (b * x) / b := by
  unfold U1; rw [U3_pos hb]; field_simp; ring
theorem U0_neg {b : ℝ} (hb : 0 < b) (x : ℝ) : U0 (-b ^ 2) x = cosh (b * x) := by
  unfold U0; rw [U2_neg hb]; field_simp; ring
theorem U1_neg {b : ℝ} (hb : 0 < b) (x : ℝ) : U1 (-b ^ 2) x = sinh (b * x) / b := by
  unfold U1; rw [U3_neg hb]; field_simp; ring
theorem U0_zero (x : ℝ) : U0 0 x = 1 := by unfold U0; ring
theorem U1_zero (x : ℝ) : U1 0 x = x := by unfold U1; ring

theorem U_sq (α x : ℝ) : U1 α x ^ 2 = 2 * U2 α x - α * U2 α x ^ 2 := by
  rcases alpha_cases α with ⟨b, hb, rfl⟩ | rfl | ⟨b, hb, rfl⟩
  · rw [U1_pos hb, U2_pos hb, div_pow]
    field_simp
    linear_combination sin_sq_add_cos_sq (b * x)
  · rw [U1_zero, U2_zero]; ring
  · rw [U1_neg hb, U2_neg hb, div_pow]
    field_simp
    linear_combination -cosh_sq_sub_sinh_sq (b * x)

theorem U0_add (α x y : ℝ) : U0 α (x + y) = U0 α x * U0 α y - α * (U1 α x * U1 α y) := by
  rcases alpha_cases α with ⟨b, hb, rfl⟩ | rfl | ⟨b, hb, rfl⟩
  · simp only [U0_pos hb, U1_pos hb, mul_add, cos_add]; field_simp
  · simp only [U0_zero, U1_zero]; ring
  · simp only [U0_neg hb, U1_neg hb, mul_add, cosh_add]; field_simp; ring

theorem U1_add (α x y : ℝ) : U1 α (x + y) = U1 α x * U0 α y + U0 α x * U1 α y := by
  rcases alpha_cases α with ⟨b, hb, rfl⟩ | rfl | ⟨b, hb, rfl⟩
  · simp only [U0_pos hb, U1_pos hb, mul_add, sin_add]; field_simp
  · simp only [U0_zero, U1_zero]; ring
  · simp only [U0_neg hb, U1_neg hb, mul_add, sinh_add]; field_simp

theorem U2_add (α x y : ℝ) : U2 α (x + y) = U2 α x + U1 α x * U1 α y + U0 α x * U2 α y := by
  rcases alpha_cases α with ⟨b, hb, rfl⟩ | rfl | ⟨b, hb, rfl⟩
  · simp only [U0_pos hb, U1_pos hb, U2_pos hb, mul_add, cos_add]; field_simp; ring
  · simp only [U0_zero, U1_zero, U2_zero]; ring
  · simp only [U0_neg hb, U1_neg hb, U2_neg hb, mul_add, cosh_add]; field_simp; ring

theorem U3_add (α x y : ℝ) : U3 α (x + y) = U3 α x + U3 α y + U1 α x * U2 α y + U2 α x * U1 α y := by
  rcases alpha_cases α with ⟨b, hb, rfl⟩ | rfl | ⟨b, hb, rfl⟩
  · simp only [U1_pos hb, U2_pos hb, U3_pos hb, mul_add, sin_add]; field_simp; ring
  · simp only [U1_zero, U2_zero, U3_zero]; ring
  · simp only [U1_neg hb, U2_neg hb, U3_neg hb, mul_add, sinh_add]; field_simp; ring

@[simp] theorem U2_at_zero (α : ℝ) : U2 α 0 = 0 := by simp [U2]
@[simp] theorem U3_at_zero (α : ℝ) : U3 α 0 = 0 := by simp [U3]
@[simp] theorem U0_at_zero (α : ℝ) : U0 α 0 = 1 := by simp [U0]
@[simp] theorem U1_at_zero (α : ℝ) : U1 α 0 = 0 := by simp [U1]

theorem hasDerivAt_U2' (α x : ℝ) : HasDerivAt (U2 α) (U1 α x) x := hasDerivAt_U2 α x
theorem hasDerivAt_U1 (α x : ℝ) : HasDerivAt (U1 α) (U0 α x) x :=
  (hasDerivAt_id x).sub ((hasDerivAt_U3 α x).const_mul α)
theorem hasDerivAt_U0 (α x : ℝ) : HasDerivAt (U0 α) (-(α * U1 α x)) x :=
  ((hasDerivAt_U2' α x).const_mul α).const_sub 1

/-! ## The motion -/

/-- Reciprocal of the semi-major axis. -/
noncomputable def alphaOf (x : RV ℝ) (mu : ℝ) : ℝ := 2 / norm x.r - dot x.v x.v / mu
/-- `r . v / sqrt mu`. -/
noncomputable def sigmaOf (x : RV ℝ) (mu : ℝ) : ℝ := dot x.r x.v / √mu

section
variable (x : RV ℝ) (mu : ℝ)

/-- Time since the initial state, as a function of the universal anomaly. -/
noncomputable def timeU (s : ℝ) : ℝ := (norm x.r * U1 (alphaOf x mu) s + sigmaOf x mu * U2 (alphaOf x mu) s
  + U3 (alphaOf x mu) s) / √mu
/-- Distance. -/
noncomputable def radU (s : ℝ) : ℝ := norm x.r * U0 (alphaOf x mu) s + sigmaOf x mu * U1 (alphaOf x mu) s
  + U2 (alphaOf x mu) s
/-- `r . v / sqrt mu`. -/
noncomputable def sigU (s : ℝ) : ℝ := -(alphaOf x mu * norm x.r * U1 (alphaOf x mu) s)
  + sigmaOf x mu * U0 (alphaOf x mu) s + U1 (alphaOf x mu) s
noncomputable def FU (s : ℝ) : ℝ := 1 - U2 (alphaOf x mu) s / norm x.r
noncomputable def GU (s : ℝ) : ℝ := (norm x.r * U1 (alphaOf x mu) s + sigmaOf x mu * U2 (alphaOf x mu) s) / √mu
noncomputable def FtU (s : ℝ) : ℝ := -(√mu * U1 (alphaOf x mu) s) / (radU x mu s * norm x.r)
noncomputable def GtU (s : ℝ) : ℝ := 1 - U2 (alphaOf x mu) s / radU x mu s
/-- The state at universal anomaly `s`. -/
noncomputable def stateU (s : ℝ) : RV ℝ :=
  ⟨FU x mu s • x.r + GU x mu s • x.v, FtU x mu s • x.r + GtU x mu s • x.v⟩
end

section
variable {x : RV ℝ} {mu : ℝ} (hmu : 0 < mu) (hh : angMom x ≠ 0)
include hmu hh

theorem vsq_eq : dot x.v x.v = √mu ^ 2 * (2 / norm x.r - alphaOf x mu) := by
  rw [sq_sqrt hmu.le]; unfold alphaOf; field_simp; try ring

theorem rv_eq : dot x.r x.v = √mu * sigmaOf x mu := by
  have : √mu ≠ 0 := (sqrt_pos.2 hmu).ne'
  unfold sigmaOf; field_simp

theorem hsq_eq : dot (angMom x) (angMom x)
    = √mu ^ 2 * (2 * norm x.r - alphaOf x mu * norm x.r ^ 2 - sigmaOf x mu ^ 2) := by
  have hR := (norm_pos (r_ne_of_h hh)).ne'
  unfold angMom
  rw [lagrange, ← norm_mul_self, vsq_eq hmu hh, rv_eq hmu hh]
  field_simp

theorem hsq_pos : 0 < 2 * norm x.r - alphaOf x mu * norm x.r ^ 2 - sigmaOf x mu ^ 2 := by
  have h1 : 0 < dot (angMom x) (angMom x) := by rw [← norm_sq]; exact pow_pos (norm_pos hh) 2
  rw [hsq_eq hmu hh] at h1
  have : 0 < √mu ^ 2 := pow_pos (sqrt_pos.2 hmu) 2
  by_contra h
  have := mul_nonpos_of_nonneg_of_nonpos this.le (not_lt.1 h)
  linarith

/-- `|r(s)|^2 = radU^2`. -/
theorem pos_sq (s : ℝ) : dot (stateU x mu s).r (stateU x mu s).r = radU x mu s ^ 2 := by
  have hR := (norm_pos (r_ne_of_h hh)).ne'
  have hk := (sqrt_pos.2 hmu).ne'
  have e : dot (stateU x mu s).r (stateU x mu s).r = FU x mu s ^ 2 * dot x.r x.r
      + 2 * FU x mu s * GU x mu s * dot x.r x.v + GU x mu s ^ 2 * dot x.v x.v := by
    simp only [stateU, add_dot, dot_add, smul_dot, dot_smul, V3.dot_comm x.v x.r]; ring
  have hU := U_sq (alphaOf x mu) s
  rw [e, vsq_eq hmu hh, rv_eq hmu hh, ← norm_mul_self]
  unfold FU GU radU
  simp only [show U0 (alphaOf x mu) s = 1 - alphaOf x mu * U2 (alphaOf x mu) s from rfl]
  generalize U2 (alphaOf x mu) s = u2 at *
  generalize U1 (alphaOf x mu) s = u1 at *
  generalize alphaOf x mu = α at *
  generalize sigmaOf x mu = σ at *
  generalize norm x.r = R at *
  field_simp
  linear_combination (2 * R - α * R ^ 2 - σ ^ 2) * R * hU

theorem radU_ne (s : ℝ) : radU x mu s ≠ 0 := by
  intro h0
  have hR := (norm_pos (r_ne_of_h hh)).ne'
  have hU := U_sq (alphaOf x mu) s
  have hp := hsq_pos hmu hh
  unfold radU at h0
  simp only [show U0 (alphaOf x mu) s = 1 - alphaOf x mu * U2 (alphaOf x mu) s from rfl] at h0
  generalize U2 (alphaOf x mu) s = u2 at *
  generalize U1 (alphaOf x mu) s = u1 at *
  generalize alphaOf x mu = α at *
  generalize sigmaOf x mu = σ at *
  generalize norm x.r = R at *
  -- `|r|^2 = 0` and the discriminant
  have e1 : (u2 - R) ^ 2 + (2 * R - α * R ^ 2 - σ ^ 2) * 0 + 0 = (u2 - R) ^ 2 := by ring
  have key : (R * u1 + σ * u2) ^ 2 * (2 * R - α * R ^ 2 - σ ^ 2)
      + (R * (R - u2) + (R * u1 + σ * u2) * σ) ^ 2 = 0 := by
    have : (R * u1 + σ * u2) ^ 2 * (2 * R - α * R ^ 2 - σ ^ 2)
      + (R * (R - u2) + (R * u1 + σ * u2) * σ) ^ 2 = R ^ 2 * (R * (1 - α * u2) + σ * u1 + u2) ^ 2 := by
      linear_combination (2 * R - α * R ^ 2 - σ ^ 2) * R ^ 2 * hU
    rw [this, h0]; ring
  have k1 : (R * u1 + σ * u2) ^ 2 * (2 * R - α * R ^ 2 - σ ^ 2) = 0 := by
    have := mul_nonneg (sq_nonneg (R * u1 + σ * u2)) hp.le
    nlinarith [sq_nonneg (R * (R - u2) + (R * u1 + σ * u2) * σ)]
  have k2 : R * u1 + σ * u2 = 0 := by
    rcases mul_eq_zero.1 k1 with h | h
    · exact pow_eq_zero_iff (two_ne_zero) |>.1 h
    · exact absurd h hp.ne'
  have k3 : R * (R - u2) = 0 := by
    rw [k2] at key
    have : (R * (R - u2)) ^ 2 = 0 := by linarith
    exact pow_eq_zero_iff (two_ne_zero) |>.1 this
  have k4 : u2 = R := by
    rcases mul_eq_zero.1 k3 with h | h
    · exact absurd h hR
    · linarith
  rw [k4] at k2 hU
  have k5 : u1 = -σ := by
    have : R * (u1 + σ) = 0 := by linarith
    rcases mul_eq_zero.1 this with h | h
    · exact absurd h hR
    · linarith
  rw [k5] at hU
  nlinarith

theorem hasDerivAt_radU (s : ℝ) : HasDerivAt (radU x mu) (sigU x mu s) s := by
  unfold radU sigU
  refine ((((hasDerivAt_U0 (alphaOf x mu) s).const_mul _).add ((hasDerivAt_U1 (alphaOf x mu) s).const_mul _)).add
    (hasDerivAt_U2' (alphaOf x mu) s)).congr_deriv ?_
  ring

theorem radU_zero : radU x mu 0 = norm x.r := by unfold radU; simp

theorem radU_pos (s : ℝ) : 0 < radU x mu s := by
  have hc : Continuous (radU x mu) := continuous_iff_continuousAt.2 fun t => (hasDerivAt_radU hmu hh t).continuousAt
  have h0 : 0 < radU x mu 0 := by rw [radU_zero hmu hh]; exact norm_pos (r_ne_of_h hh)
  by_contra hs
  have hs := not_lt.1 hs
  obtain ⟨t, ht⟩ := mem_range_of_exists_le_of_exists_ge hc ⟨s, hs⟩ ⟨0, h0.le⟩
  exact radU_ne hmu hh t ht

theorem norm_stateU (s : ℝ) : norm (stateU x mu s).r = radU x mu s := by
  unfold V3.norm; rw [pos_sq hmu hh, sqrt_sq (radU_pos hmu hh s).le]

theorem hasDerivAt_timeU (s : ℝ) : HasDerivAt (timeU x mu) (radU x mu s / √mu) s := by
  unfold timeU radU
  exact ((((hasDerivAt_U1 (alphaOf x mu) s).const_mul _).add ((hasDerivAt_U2' (alphaOf x mu) s).const_mul _)).add
    (hasDerivAt_U3 (alphaOf x mu) s)).div_const _

/-- `F Gt - Ft G = 1`. -/
theorem wronskian (s : ℝ) : FU x mu s * GtU x mu s - FtU x mu s * GU x mu s = 1 := by
  have hR := (norm_pos (r_ne_of_h hh)).ne'
  have hk := (sqrt_pos.2 hmu).ne'
  have hr := radU_ne hmu hh s
  have hU := U_sq (alphaOf x mu) s
  have hrd : radU x mu s = norm x.r * (1 - alphaOf x mu * U2 (alphaOf x mu) s) + sigmaOf x mu * U1 (alphaOf x mu) s
    + U2 (alphaOf x mu) s := rfl
  unfold FU GtU FtU GU
  generalize radU x mu s = r at *
  generalize U2 (alphaOf x mu) s = u2 at *
  generalize U1 (alphaOf x mu) s = u1 at *
  generalize alphaOf x mu = α at *
  generalize sigmaOf x mu = σ at *
  generalize norm x.r = R at *
  field_simp
  linear_combination R * hU - u2 * hrd

theorem angMom_stateU (s : ℝ) : angMom (stateU x mu s) = angMom x := by
  have e : angMom (stateU x mu s) = (FU x mu s * GtU x mu s - FtU x mu s * GU x mu s) • angMom x := by
    unfold angMom stateU; ext <;> simp <;> ring
  rw [e, wronskian hmu hh]; ext <;> simp

theorem rv_stateU (s : ℝ) : dot (stateU x mu s).r (stateU x mu s).v = √mu * sigU x mu s := by
  have hR := (norm_pos (r_ne_of_h hh)).ne'
  have hk := (sqrt_pos.2 hmu).ne'
  have hr := radU_ne hmu hh s
  have hU := U_sq (alphaOf x mu) s
  have hrd : radU x mu s = norm x.r * (1 - alphaOf x mu * U2 (alphaOf x mu) s) + sigmaOf x mu * U1 (alphaOf x mu) s
    + U2 (alphaOf x mu) s := rfl
  have e : dot (stateU x mu s).r (stateU x mu s).v = FU x mu s * FtU x mu s * dot x.r x.r
      + (FU x mu s * GtU x mu s + GU x mu s * FtU x mu s) * dot x.r x.v + GU x mu s * GtU x mu s * dot x.v x.v := by
    simp only [stateU, add_dot, dot_add, smul_dot, dot_smul, V3.dot_comm x.v x.r]; ring
  rw [e, vsq_eq hmu hh, rv_eq hmu hh, ← norm_mul_self]
  unfold FU GtU FtU GU sigU
  simp only [show U0 (alphaOf x mu) s = 1 - alphaOf x mu * U2 (alphaOf x mu) s from rfl]
  generalize radU x mu s = r at *
  generalize U2 (alphaOf x mu) s = u2 at *
  generalize U1 (alphaOf x mu) s = u1 at *
  generalize alphaOf x mu = α at *
  generalize sigmaOf x mu = σ at *
  generalize norm x.r = R at *
  field_simp
  rw [hrd]
  ring

theorem vsq_stateU (s : ℝ) : dot (stateU x mu s).v (stateU x mu s).v
    = √mu ^ 2 * (2 / radU x mu s - alphaOf x mu) := by
  have hR := (norm_pos (r_ne_of_h hh)).ne'
  have hk := (sqrt_pos.2 hmu).ne'
  have hr := radU_ne hmu hh s
  have hU := U_sq (alphaOf x mu) s
  have hrd : radU x mu s = norm x.r * (1 - alphaOf x mu * U2 (alphaOf x mu) s) + sigmaOf x mu * U1 (alphaOf x mu) s
    + U2 (alphaOf x mu) s := rfl
  have e : dot (stateU x mu s).v (stateU x mu s).v = FtU x mu s ^ 2 * dot x.r x.r
      + 2 * FtU x mu s * GtU x mu s * dot x.r x.v + GtU x mu s ^ 2 * dot x.v x.v := by
    simp only [stateU, add_dot, dot_add, smul_dot, dot_smul, V3.dot_comm x.v x.r]; ring
  rw [e, vsq_eq hmu hh, rv_eq hmu hh, ← norm_mul_self]
  unfold GtU FtU
  generalize radU x mu s = r at *
  generalize U2 (alphaOf x mu) s = u2 at *
  generalize U1 (alphaOf x mu) s = u1 at *
  generalize alphaOf x mu = α at *
  generalize sigmaOf x mu = σ at *
  generalize norm x.r = R at *
  generalize √mu = k at *
  field_simp
  rw [hrd]
  linear_combination R * hU

theorem alphaOf_stateU (s : ℝ) : alphaOf (stateU x mu s) mu = alphaOf x mu := by
  have h1 := vsq_stateU hmu hh s
  have h2 := norm_stateU hmu hh s
  rw [show alphaOf (stateU x mu s) mu = 2 / norm (stateU x mu s).r
    - dot (stateU x mu s).v (stateU x mu s).v / mu from rfl, h1, h2, sq_sqrt hmu.le]
  field_simp
  ring

theorem sigmaOf_stateU (s : ℝ) : sigmaOf (stateU x mu s) mu = sigU x mu s := by
  have hk := (sqrt_pos.2 hmu).ne'
  rw [show sigmaOf (stateU x mu s) mu = dot (stateU x mu s).r (stateU x mu s).v / √mu from rfl, rv_stateU hmu hh s]
  field_simp

theorem energy_alpha : energy x mu = -(mu / 2) * alphaOf x mu := by
  unfold energy alphaOf; field_simp; ring

theorem energy_stateU (s : ℝ) : energy (stateU x mu s) mu = energy x mu := by
  rw [energy_alpha hmu (by rw [angMom_stateU hmu hh]; exact hh), alphaOf_stateU hmu hh, energy_alpha hmu hh]

theorem eccVec_eq (hr : x.r ≠ 0) : eccVec x mu = (1 / norm x.r - alphaOf x mu) • x.r - (sigmaOf x mu / √mu) • x.v := by
  have h1 : cross x.v (cross x.r x.v) = dot x.v x.v • x.r - dot x.r x.v • x.v := by ext <;> simp [dot] <;> ring
  have hk := (sqrt_pos.2 hmu).ne'
  have hk2 := sq_sqrt hmu.le
  have hR := (norm_pos hr).ne'
  have e1 : 1 / mu * dot x.v x.v - 1 / norm x.r = 1 / norm x.r - alphaOf x mu := by
    unfold alphaOf; field_simp; ring
  have e2 : 1 / mu * dot x.r x.v = sigmaOf x mu / √mu := by
    unfold sigmaOf; rw [div_div, ← pow_two, hk2]; ring
  unfold eccVec
  rw [h1, ← e1, ← e2]
  ext <;> simp <;> ring

theorem eccVec_stateU (s : ℝ) : eccVec (stateU x mu s) mu = eccVec x mu := by
  have hr0 := r_ne_of_h hh
  have hh' : angMom (stateU x mu s) ≠ 0 := by rw [angMom_stateU hmu hh]; exact hh
  rw [eccVec_eq hmu hh' (r_ne_of_h hh'), eccVec_eq hmu hh hr0, alphaOf_stateU hmu hh, sigmaOf_stateU hmu hh,
    norm_stateU hmu hh]
  have hR := (norm_pos (r_ne_of_h hh)).ne'
  have hk := (sqrt_pos.2 hmu).ne'
  have hr := radU_ne hmu hh s
  have hU := U_sq (alphaOf x mu) s
  have hrd : radU x mu s = norm x.r * (1 - alphaOf x mu * U2 (alphaOf x mu) s) + sigmaOf x mu * U1 (alphaOf x mu) s
    + U2 (alphaOf x mu) s := rfl
  have e : (1 / radU x mu s - alphaOf x mu) • (stateU x mu s).r - (sigU x mu s / √mu) • (stateU x mu s).v
      = ((1 / radU x mu s - alphaOf x mu) * FU x mu s - sigU x mu s / √mu * FtU x mu s) • x.r
        + ((1 / radU x mu s - alphaOf x mu) * GU x mu s - sigU x mu s / √mu * GtU x mu s) • x.v := by
    unfold stateU; ext <;> simp <;> ring
  have c1 : (1 / radU x mu s - alphaOf x mu) * FU x mu s - sigU x mu s / √mu * FtU x mu s
      = 1 / norm x.r - alphaOf x mu := by
    unfold FU FtU sigU
    simp only [show U0 (alphaOf x mu) s = 1 - alphaOf x mu * U2 (alphaOf x mu) s from rfl]
    generalize radU x mu s = r at *
    generalize U2 (alphaOf x mu) s = u2 at *
    generalize U1 (alphaOf x mu) s = u1 at *
    generalize alphaOf x mu = α at *
    generalize sigmaOf x mu = σ at *
    generalize norm x.r = R at *
    generalize √mu = k at *
    field_simp
    rw [hrd]
    linear_combination (1 - α * R) * hU
  have c2 : (1 / radU x mu s - alphaOf x mu) * GU x mu s - sigU x mu s / √mu * GtU x mu s
      = -(sigmaOf x mu / √mu) := by
    unfold GU GtU sigU
    simp only [show U0 (alphaOf x mu) s = 1 - alphaOf x mu * U2 (alphaOf x mu) s from rfl]
    generalize radU x mu s = r at *
    generalize U2 (alphaOf x mu) s = u2 at *
    generalize U1 (alphaOf x mu) s = u1 at *
    generalize alphaOf x mu = α at *
    generalize sigmaOf x mu = σ at *
    generalize norm x.r = R at *
    generalize √mu = k at *
    field_simp
    rw [hrd]
    linear_combination (-σ) * hU
  rw [e, c1, c2]
  ext <;> simp <;> ring

/-! ## Derivatives of the Lagrange coefficients -/

theorem hasDerivAt_FU (s : ℝ) : HasDerivAt (FU x mu) (radU x mu s / √mu * FtU x mu s) s := by
  have hR := (norm_pos (r_ne_of_h hh)).ne'
  have hk := (sqrt_pos.2 hmu).ne'
  have hr := radU_ne hmu hh s
  have hU := U_sq (alphaOf x mu) s
  have hrd : radU x mu s = norm x.r * (1 - alphaOf x mu * U2 (alphaOf x mu) s) + sigmaOf x mu * U1 (alphaOf x mu) s
    + U2 (alphaOf x mu) s := rfl
  refine (((hasDerivAt_U2' (alphaOf x mu) s).div_const _).const_sub 1).congr_deriv ?_
  unfold FtU
  field_simp

theorem hasDerivAt_GU (s : ℝ) : HasDerivAt (GU x mu) (radU x mu s / √mu * GtU x mu s) s := by
  have hR := (norm_pos (r_ne_of_h hh)).ne'
  have hk := (sqrt_pos.2 hmu).ne'
  have hr := radU_ne hmu hh s
  have hU := U_sq (alphaOf x mu) s
  have hrd : radU x mu s = norm x.r * (1 - alphaOf x mu * U2 (alphaOf x mu) s) + sigmaOf x mu * U1 (alphaOf x mu) s
    + U2 (alphaOf x mu) s := rfl
  refine ((((hasDerivAt_U1 (alphaOf x mu) s).const_mul _).add
    ((hasDerivAt_U2' (alphaOf x mu) s).const_mul _)).div_const _).congr_deriv ?_
  unfold GtU
  simp only [show U0 (alphaOf x mu) s = 1 - alphaOf x mu * U2 (alphaOf x mu) s from rfl]
  field_simp
  rw [hrd]; ring

theorem hasDerivAt_FtU (s : ℝ) :
    HasDerivAt (FtU x mu) (radU x mu s / √mu * (-(mu / radU x mu s ^ 3) * FU x mu s)) s := by
  have hR := (norm_pos (r_ne_of_h hh)).ne'
  have hk := (sqrt_pos.2 hmu).ne'
  have hr := radU_ne hmu hh s
  have hU := U_sq (alphaOf x mu) s
  have hrd : radU x mu s = norm x.r * (1 - alphaOf x mu * U2 (alphaOf x mu) s) + sigmaOf x mu * U1 (alphaOf x mu) s
    + U2 (alphaOf x mu) s := rfl
  have hmu' : mu = √mu ^ 2 := (sq_sqrt hmu.le).symm
  have h1 : HasDerivAt (fun y => -(√mu * U1 (alphaOf x mu) y)) (-(√mu * U0 (alphaOf x mu) s)) s :=
    ((hasDerivAt_U1 (alphaOf x mu) s).const_mul (√mu)).neg
  refine (h1.div
    ((hasDerivAt_radU hmu hh s).mul_const (norm x.r)) (mul_ne_zero hr hR)).congr_deriv ?_
  rw [show radU x mu s / √mu * (-(mu / radU x mu s ^ 3) * FU x mu s)
    = radU x mu s / √mu * (-(√mu ^ 2 / radU x mu s ^ 3) * FU x mu s) by rw [← hmu']]
  unfold FU sigU
  simp only [show U0 (alphaOf x mu) s = 1 - alphaOf x mu * U2 (alphaOf x mu) s from rfl]
  clear hmu'
  generalize radU x mu s = r at *
  generalize U2 (alphaOf x mu) s = u2 at *
  generalize U1 (alphaOf x mu) s = u1 at *
  generalize alphaOf x mu = α at *
  generalize sigmaOf x mu = σ at *
  generalize norm x.r = R at *
  generalize √mu = k at *
  field_simp
  rw [hrd]
  linear_combination (1 - α * R) * hU

theorem hasDerivAt_GtU (s : ℝ) :
    HasDerivAt (GtU x mu) (radU x mu s / √mu * (-(mu / radU x mu s ^ 3) * GU x mu s)) s := by
  have hR := (norm_pos (r_ne_of_h hh)).ne'
  have hk := (sqrt_pos.2 hmu).ne'
  have hr := radU_ne hmu hh s
  have hU := U_sq (alphaOf x mu) s
  have hrd : radU x mu s = norm x.r * (1 - alphaOf x mu * U2 (alphaOf x mu) s) + sigmaOf x mu * U1 (alphaOf x mu) s
    + U2 (alphaOf x mu) s := rfl
  have hmu' : mu = √mu ^ 2 := (sq_sqrt hmu.le).symm
  refine (((hasDerivAt_U2' (alphaOf x mu) s).div (hasDerivAt_radU hmu hh s) hr).const_sub 1).congr_deriv ?_
  rw [show radU x mu s / √mu * (-(mu / radU x mu s ^ 3) * GU x mu s)
    = radU x mu s / √mu * (-(√mu ^ 2 / radU x mu s ^ 3) * GU x mu s) by rw [← hmu']]
  unfold GU sigU
  simp only [show U0 (alphaOf x mu) s = 1 - alphaOf x mu * U2 (alphaOf x mu) s from rfl]
  clear hmu'
  generalize radU x mu s = r at *
  generalize U2 (alphaOf x mu) s = u2 at *
  generalize U1 (alphaOf x mu) s = u1 at *
  generalize alphaOf x mu = α at *
  generalize sigmaOf x mu = σ at *
  generalize norm x.r = R at *
  generalize √mu = k at *
  field_simp
  rw [hrd]
  linear_combination (-σ) * hU

/-! ## Composition -/

theorem radU_comp (s t : ℝ) : radU (stateU x mu s) mu t = radU x mu (s + t) := by
  unfold radU
  rw [alphaOf_stateU hmu hh, sigmaOf_stateU hmu hh, norm_stateU hmu hh, U0_add, U1_add, U2_add]
  unfold radU sigU
  simp only [show U0 (alphaOf x mu) s = 1 - alphaOf x mu * U2 (alphaOf x mu) s from rfl,
    show U0 (alphaOf x mu) t = 1 - alphaOf x mu * U2 (alphaOf x mu) t from rfl]
  ring

theorem timeU_comp (s t : ℝ) : timeU x mu s + timeU (stateU x mu s) mu t = timeU x mu (s + t) := by
  unfold timeU
  rw [alphaOf_stateU hmu hh, sigmaOf_stateU hmu hh, norm_stateU hmu hh, U1_add, U2_add, U3_add, ← add_div]
  unfold radU sigU
  simp only [show U0 (alphaOf x mu) s = 1 - alphaOf x mu * U2 (alphaOf x mu) s from rfl,
    show U0 (alphaOf x mu) t = 1 - alphaOf x mu * U2 (alphaOf x mu) t from rfl]
  congr 1
  ring

theorem FU_comp (s t : ℝ) :
    FU (stateU x mu s) mu t * FU x mu s + GU (stateU x mu s) mu t * FtU x mu s = FU x mu (s + t) := by
  have hR := (norm_pos (r_ne_of_h hh)).ne'
  have hk := (sqrt_pos.2 hmu).ne'
  have hr := radU_ne hmu hh s
  have hU := U_sq (alphaOf x mu) s
  have hrd : radU x mu s = norm x.r * (1 - alphaOf x mu * U2 (alphaOf x mu) s) + sigmaOf x mu * U1 (alphaOf x mu) s
    + U2 (alphaOf x mu) s := rfl
  have hrt := radU_ne hmu hh (s + t)
  have hrc := radU_comp hmu hh s t
  have hα := alphaOf_stateU hmu hh s
  have hσ := sigmaOf_stateU hmu hh s
  have hn := norm_stateU hmu hh s
  have hrdt : radU x mu (s + t) = radU x mu s * (1 - alphaOf x mu * U2 (alphaOf x mu) t)
      + sigU x mu s * U1 (alphaOf x mu) t + U2 (alphaOf x mu) t := by
    rw [← hrc]; unfold radU; rw [hα, hσ, hn]; rfl
  have hUt := U_sq (alphaOf x mu) t
  have hsig : sigU x mu s = -(alphaOf x mu * norm x.r * U1 (alphaOf x mu) s)
    + sigmaOf x mu * (1 - alphaOf x mu * U2 (alphaOf x mu) s) + U1 (alphaOf x mu) s := rfl
  unfold FU GU FtU
  rw [hα, hσ, hn, U2_add]
  simp only [show U0 (alphaOf x mu) s = 1 - alphaOf x mu * U2 (alphaOf x mu) s from rfl]
  clear hrt hrc hrdt hα hσ hn
  generalize sigU x mu s = σ1 at *
  generalize radU x mu s = r at *
  generalize U2 (alphaOf x mu) s = u2 at *
  generalize U1 (alphaOf x mu) s = u1 at *
  generalize U2 (alphaOf x mu) t = w2 at *
  generalize U1 (alphaOf x mu) t = w1 at *
  generalize alphaOf x mu = α at *
  generalize sigmaOf x mu = σ at *
  generalize norm x.r = R at *
  generalize √mu = k at *
  field_simp
  rw [hsig, hrd]
  linear_combination (-w2 * (1 - α * R)) * hU

theorem GU_comp (s t : ℝ) :
    FU (stateU x mu s) mu t * GU x mu s + GU (stateU x mu s) mu t * GtU x mu s = GU x mu (s + t) := by
  have hR := (norm_pos (r_ne_of_h hh)).ne'
  have hk := (sqrt_pos.2 hmu).ne'
  have hr := radU_ne hmu hh s
  have hU := U_sq (alphaOf x mu) s
  have hrd : radU x mu s = norm x.r * (1 - alphaOf x mu * U2 (alphaOf x mu) s) + sigmaOf x mu * U1 (alphaOf x mu) s
    + U2 (alphaOf x mu) s := rfl
  have hrt := radU_ne hmu hh (s + t)
  have hrc := radU_comp hmu hh s t
  have hα := alphaOf_stateU hmu hh s
  have hσ := sigmaOf_stateU hmu hh s
  have hn := norm_stateU hmu hh s
  have hrdt : radU x mu (s + t) = radU x mu s * (1 - alphaOf x mu * U2 (alphaOf x mu) t)
      + sigU x mu s * U1 (alphaOf x mu) t + U2 (alphaOf x mu) t := by
    rw [← hrc]; unfold radU; rw [hα, hσ, hn]; rfl
  have hUt := U_sq (alphaOf x mu) t
  have hsig : sigU x mu s = -(alphaOf x mu * norm x.r * U1 (alphaOf x mu) s)
    + sigmaOf x mu * (1 - alphaOf x mu * U2 (alphaOf x mu) s) + U1 (alphaOf x mu) s := rfl
  unfold FU GU GtU
  rw [hα, hσ, hn, U2_add, U1_add]
  simp only [show U0 (alphaOf x mu) s = 1 - alphaOf x mu * U2 (alphaOf x mu) s from rfl,
    show U0 (alphaOf x mu) t = 1 - alphaOf x mu * U2 (alphaOf x mu) t from rfl]
  clear hrt hrc hrdt hα hσ hn
  generalize sigU x mu s = σ1 at *
  generalize radU x mu s = r at *
  generalize U2 (alphaOf x mu) s = u2 at *
  generalize U1 (alphaOf x mu) s = u1 at *
  generalize U2 (alphaOf x mu) t = w2 at *
  generalize U1 (alphaOf x mu) t = w1 at *
  generalize alphaOf x mu = α at *
  generalize sigmaOf x mu = σ at *
  generalize norm x.r = R at *
  generalize √mu = k at *
  field_simp
  rw [hsig, hrd]
  linear_combination (w2 * σ) * hU

theorem FtU_comp (s t : ℝ) :
    FtU (stateU x mu s) mu t * FU x mu s + GtU (stateU x mu s) mu t * FtU x mu s = FtU x mu (s + t) := by
  have hk := (sqrt_pos.2 hmu).ne'
  have hh' : angMom (stateU x mu s) ≠ 0 := by rw [angMom_stateU hmu hh]; exact hh
  have h1 := ((hasDerivAt_FU hmu hh' t).mul_const (FU x mu s)).add ((hasDerivAt_GU hmu hh' t).mul_const (FtU x mu s))
  have h2 : HasDerivAt (fun t => FU x mu (s + t)) (radU x mu (s + t) / √mu * FtU x mu (s + t)) t :=
    (hasDerivAt_FU hmu hh (s + t)).comp_const_add s t
  have h3 := h1.unique (h2.congr_of_eventuallyEq (Filter.Eventually.of_forall fun t => FU_comp hmu hh s t))
  rw [radU_comp hmu hh] at h3
  have hr := radU_ne hmu hh (s + t)
  have hc : radU x mu (s + t) / √mu ≠ 0 := div_ne_zero hr hk
  apply mul_left_cancel₀ hc
  linear_combination h3

theorem GtU_comp (s t : ℝ) :
    FtU (stateU x mu s) mu t * GU x mu s + GtU (stateU x mu s) mu t * GtU x mu s = GtU x mu (s + t) := by
  have hk := (sqrt_pos.2 hmu).ne'
  have hh' : angMom (stateU x mu s) ≠ 0 := by rw [angMom_stateU hmu hh]; exact hh
  have h1 := ((hasDerivAt_FU hmu hh' t).mul_const (GU x mu s)).add ((hasDerivAt_GU hmu hh' t).mul_const (GtU x mu s))
  have h2 : HasDerivAt (fun t => GU x mu (s + t)) (radU x mu (s + t) / √mu * GtU x mu (s + t)) t :=
    (hasDerivAt_GU hmu hh (s + t)).comp_const_add s t
  have h3 := h1.unique (h2.congr_of_eventuallyEq (Filter.Eventually.of_forall fun t => GU_comp hmu hh s t))
  rw [radU_comp hmu hh] at h3
  have hr := radU_ne hmu hh (s + t)
  have hc : radU x mu (s + t) / √mu ≠ 0 := div_ne_zero hr hk
  apply mul_left_cancel₀ hc
  linear_combination h3

theorem stateU_comp (s t : ℝ) : stateU (stateU x mu s) mu t = stateU x mu (s + t) := by
  have cF := FU_comp hmu hh s t
  have cG := GU_comp hmu hh s t
  have cFt := FtU_comp hmu hh s t
  have cGt := GtU_comp hmu hh s t
  apply RV.ext
  · show FU (stateU x mu s) mu t • (FU x mu s • x.r + GU x mu s • x.v)
      + GU (stateU x mu s) mu t • (FtU x mu s • x.r + GtU x mu s • x.v) = FU x mu (s + t) • x.r + GU x mu (s + t) • x.v
    rw [← cF, ← cG]; ext <;> simp <;> ring
  · show FtU (stateU x mu s) mu t • (FU x mu s • x.r + GU x mu s • x.v)
      + GtU (stateU x mu s) mu t • (FtU x mu s • x.r + GtU x mu s • x.v)
      = FtU x mu (s + t) • x.r + GtU x mu (s + t) • x.v
    rw [← cFt, ← cGt]; ext <;> simp <;> ring

theorem stateU_zero : stateU x mu 0 = x := by
  apply RV.ext
  · unfold stateU FU GU; ext <;> simp
  · unfold stateU FtU GtU; ext <;> simp

theorem timeU_zero : timeU x mu 0 = 0 := by unfold timeU; simp

/-! ## The universal anomaly as a function of time -/

theorem timeU_strictMono : StrictMono (timeU x mu) := by
  refine strictMono_of_hasDerivAt_pos (fun s => hasDerivAt_timeU hmu hh s) fun s => ?_
  exact div_pos (radU_pos hmu hh s) (sqrt_pos.2 hmu)

/-- The distance stays above the pericentre. -/
theorem radU_ge (s : ℝ) : dot (angMom x) (angMom x) / mu / (1 + norm (eccVec x mu)) ≤ radU x mu s := by
  have hh' : angMom (stateU x mu s) ≠ 0 := by rw [angMom_stateU hmu hh]; exact hh
  have h := eccVec_r (mu := mu) (r_ne_of_h hh')
  rw [eccVec_stateU hmu hh, angMom_stateU hmu hh, norm_stateU hmu hh] at h
  have hcs : dot (eccVec x mu) (stateU x mu s).r ≤ norm (eccVec x mu) * radU x mu s := by
    rw [← norm_stateU hmu hh]
    have hl := lagrange (eccVec x mu) (stateU x mu s).r
    have h0 := dot_self_nonneg (cross (eccVec x mu) (stateU x mu s).r)
    rw [hl, ← norm_mul_self, ← norm_mul_self] at h0
    refine abs_le_of_sq_le_sq' ?_ (mul_nonneg (norm_nonneg _) (norm_nonneg _)) |>.2
    nlinarith
  have hn := norm_nonneg (eccVec x mu)
  rw [div_le_iff₀ (by linarith)]
  linarith

theorem timeU_surjective : Function.Surjective (timeU x mu) := by
  have hc : Continuous (timeU x mu) := continuous_iff_continuousAt.2 fun t => (hasDerivAt_timeU hmu hh t).continuousAt
  set c := dot (angMom x) (angMom x) / mu / (1 + norm (eccVec x mu)) / √mu with hcd
  have hk := sqrt_pos.2 hmu
  have hc0 : 0 < c := by
    have : 0 < dot (angMom x) (angMom x) := by rw [← norm_sq]; exact pow_pos (norm_pos hh) 2
    have := norm_nonneg (eccVec x mu)
    positivity
  have hd : ∀ s, c ≤ deriv (timeU x mu) s := fun s => by
    rw [(hasDerivAt_timeU hmu hh s).deriv, hcd]
    gcongr
    exact radU_ge hmu hh s
  have hdiff : Differentiable ℝ (timeU x mu) := fun s => (hasDerivAt_timeU hmu hh s).differentiableAt
  have key : ∀ a b, a ≤ b → c * (b - a) ≤ timeU x mu b - timeU x mu a := fun a b hab =>
    mul_sub_le_image_sub_of_le_deriv hdiff hd hab
  intro t
  rcases le_total 0 t with ht | ht
  · refine mem_range_of_exists_le_of_exists_ge hc ⟨0, by rw [timeU_zero hmu hh]; exact ht⟩ ⟨t / c, ?_⟩
    have := key 0 (t / c) (by positivity)
    rw [timeU_zero hmu hh, sub_zero, sub_zero, mul_div_cancel₀ _ hc0.ne'] at this
    exact this
  · refine mem_range_of_exists_le_of_exists_ge hc ⟨t / c, ?_⟩ ⟨0, by rw [timeU_zero hmu hh]; exact ht⟩
    have := key (t / c) 0 (div_nonpos_of_nonpos_of_nonneg ht hc0.le)
    rw [timeU_zero hmu hh, zero_sub, zero_sub, mul_neg, mul_div_cancel₀ _ hc0.ne'] at this
    linarith

end

open Classical in
/-- The universal anomaly at time `t` (0 when there is none). -/
noncomputable def anomU (x : RV ℝ) (mu t : ℝ) : ℝ := if h : ∃ s, timeU x mu s = t then h.choose else 0

/-- The exact two-body motion. -/
noncomputable def kepFlow (x : RV ℝ) (mu t : ℝ) : RV ℝ := stateU x mu (anomU x mu t)

/-- `γ` solves the equations of motion `r' = v`, `v' = - mu r / |r|^3`. -/
structure TwoBody (mu : ℝ) (γ : ℝ → RV ℝ) : Prop where
  rx : ∀ t, HasDerivAt (fun t => (γ t).r.x) (γ t).v.x t
  ry : ∀ t, HasDerivAt (fun t => (γ t).r.y) (γ t).v.y t
  rz : ∀ t, HasDerivAt (fun t => (γ t).r.z) (γ t).v.z t
  vx : ∀ t, HasDerivAt (fun t => (γ t).v.x) (-(mu / norm (γ t).r ^ 3) * (γ t).r.x) t
  vy : ∀ t, HasDerivAt (fun t => (γ t).v.y) (-(mu / norm (γ t).r ^ 3) * (γ t).r.y) t
  vz : ∀ t, HasDerivAt (fun t => (γ t).v.z) (-(mu / norm (γ t).r ^ 3) * (γ t).r.z) t

section
variable {x : RV ℝ} {mu : ℝ} (hmu : 0 < mu) (hh : angMom x ≠ 0)
include hmu hh

theorem timeU_anomU (t : ℝ) : timeU x mu (anomU x mu t) = t := by
  unfold anomU
  have h := timeU_surjective hmu hh t
  rw [dif_pos h]
  exact h.choose_spec

theorem anomU_eq {s t : ℝ} (h : timeU x mu s = t) : anomU x mu t = s :=
  (timeU_strictMono hmu hh).injective (by rw [timeU_anomU hmu hh, h])

theorem kepFlow_of_time {s t : ℝ} (h : timeU x mu s = t) : kepFlow x mu t = stateU x mu s := by
  unfold kepFlow; rw [anomU_eq hmu hh h]

theorem kepFlow_zero : kepFlow x mu 0 = x := by
  rw [kepFlow_of_time hmu hh (timeU_zero hmu hh), stateU_zero hmu hh]

theorem kepFlow_comp (t1 t2 : ℝ) : kepFlow (kepFlow x mu t1) mu t2 = kepFlow x mu (t1 + t2) := by
  have hh' : angMom (kepFlow x mu t1) ≠ 0 := by unfold kepFlow; rw [angMom_stateU hmu hh]; exact hh
  have h1 := timeU_anomU hmu hh t1
  have h2 := timeU_anomU hmu hh' t2
  rw [kepFlow_of_time hmu hh' h2]
  have h3 := timeU_comp hmu hh (anomU x mu t1) (anomU (kepFlow x mu t1) mu t2)
  have h4 : timeU (stateU x mu (anomU x mu t1)) mu (anomU (kepFlow x mu t1) mu t2) = t2 := h2
  rw [h1, h4] at h3
  rw [kepFlow_of_time hmu hh h3.symm]
  exact stateU_comp hmu hh _ _

theorem hasDerivAt_anomU (t : ℝ) : HasDerivAt (anomU x mu) (√mu / radU x mu (anomU x mu t)) t := by
  have hk := (sqrt_pos.2 hmu).ne'
  have hm := timeU_strictMono hmu hh
  have hr := radU_ne hmu hh (anomU x mu t)
  have hc : Continuous (anomU x mu) := by
    let e := hm.orderIsoOfSurjective _ (timeU_surjective hmu hh)
    have : anomU x mu = e.symm := by
      funext t
      apply hm.injective
      rw [timeU_anomU hmu hh]
      exact (e.apply_symm_apply t).symm
    rw [this]
    exact e.symm.continuous
  have h := HasDerivAt.of_local_left_inverse (f := timeU x mu) (g := anomU x mu) (a := t) hc.continuousAt
    (hasDerivAt_timeU hmu hh (anomU x mu t)) (div_ne_zero hr hk)
    (Filter.Eventually.of_forall fun t => timeU_anomU hmu hh t)
  refine h.congr_deriv ?_
  rw [inv_div]

/-- The exact motion solves the equations of motion. -/
theorem kepFlow_twoBody : TwoBody mu (kepFlow x mu) := by
  have hk := (sqrt_pos.2 hmu).ne'
  have pos : ∀ (c d t : ℝ), HasDerivAt (fun t => FU x mu (anomU x mu t) * c + GU x mu (anomU x mu t) * d)
      (FtU x mu (anomU x mu t) * c + GtU x mu (anomU x mu t) * d) t := by
    intro c d t
    have hr := radU_ne hmu hh (anomU x mu t)
    have h1 := ((hasDerivAt_FU hmu hh (anomU x mu t)).comp t (hasDerivAt_anomU hmu hh t)).mul_const c
    have h2 := ((hasDerivAt_GU hmu hh (anomU x mu t)).comp t (hasDerivAt_anomU hmu hh t)).mul_const d
    refine (h1.add h2).congr_deriv ?_
    field_simp
  have vel : ∀ (c d t : ℝ), HasDerivAt (fun t => FtU x mu (anomU x mu t) * c + GtU x mu (anomU x mu t) * d)
      (-(mu / radU x mu (anomU x mu t) ^ 3) * (FU x mu (anomU x mu t) * c + GU x mu (anomU x mu t) * d)) t := by
    intro c d t
    have hr := radU_ne hmu hh (anomU x mu t)
    have h1 := ((hasDerivAt_FtU hmu hh (anomU x mu t)).comp t (hasDerivAt_anomU hmu hh t)).mul_const c
    have h2 := ((hasDerivAt_GtU hmu hh (anomU x mu t)).comp t (hasDerivAt_anomU hmu hh t)).mul_const d
    refine (h1.add h2).congr_deriv ?_
    field_simp
    ring
  have hn : ∀ t, norm (kepFlow x mu t).r = radU x mu (anomU x mu t) := fun t => norm_stateU hmu hh _
  refine ⟨fun t => pos x.r.x x.v.x t, fun t => pos x.r.y x.v.y t, fun t => pos x.r.z x.v.z t, fun t => ?_, fun t => ?_,
    fun t => ?_⟩
  · rw [hn]; exact vel x.r.x x.v.x t
  · rw [hn]; exact vel x.r.y x.v.y t
  · rw [hn]; exact vel x.r.z x.v.z t

/-- The period of an ellipse. -/
theorem timeU_period {b : ℝ} (hb : 0 < b) (hα : alphaOf x mu = b ^ 2) (s : ℝ) :
    timeU x mu (s + 2 * π / b) = timeU x mu s + 2 * π / (b ^ 3 * √mu) ∧
      stateU x mu (s + 2 * π / b) = stateU x mu s := by
  have e : b * (s + 2 * π / b) = b * s + 2 * π := by field_simp
  have e1 : U1 (b ^ 2) (s + 2 * π / b) = U1 (b ^ 2) s := by rw [U1_pos hb, U1_pos hb, e, sin_add_two_pi]
  have e2 : U2 (b ^ 2) (s + 2 * π / b) = U2 (b ^ 2) s := by rw [U2_pos hb, U2_pos hb, e, cos_add_two_pi]
  have e3 : U3 (b ^ 2) (s + 2 * π / b) = U3 (b ^ 2) s + 2 * π / b ^ 3 := by
    rw [U3_pos hb, U3_pos hb, e, sin_add_two_pi]; ring
  have e0 : U0 (b ^ 2) (s + 2 * π / b) = U0 (b ^ 2) s := by unfold U0; rw [e2]
  have hk := (sqrt_pos.2 hmu).ne'
  constructor
  · unfold timeU; rw [hα, e1, e2, e3]; field_simp; ring
  · have er : radU x mu (s + 2 * π / b) = radU x mu s := by unfold radU; rw [hα, e0, e1, e2]
    unfold stateU FU GU FtU GtU
    rw [er, hα, e1, e2]

end
end Kep3
