import Verif.Lagr.Universal
import Mathlib.MeasureTheory.Integral.IntervalIntegral.FundThmCalculus

/-!
# The two-body motion from a given state is unique

Any solution of the equations of motion that starts off the origin's lines (nonzero angular momentum) is `kepFlow`.
-/

namespace Kep3
open Real V3

theorem const_of_hasDerivAt_zero {f : ℝ → ℝ} (h : ∀ t, HasDerivAt f 0 t) (t : ℝ) : f t = f 0 :=
  is_const_of_deriv_eq_zero (fun t => (h t).differentiableAt) (fun t => (h t).deriv) t 0

/-- One component of the motion in the universal anomaly. -/
theorem comp_unique {mu al : ℝ} (hmu : 0 < mu) {r v rho p s : ℝ → ℝ} {e : ℝ}
    (hr : ∀ t, HasDerivAt r (v t) t) (hv : ∀ t, HasDerivAt v (-(mu / rho t ^ 3) * r t) t)
    (hrho : ∀ t, HasDerivAt rho (p t / rho t) t) (h0 : ∀ t, 0 < rho t) (hs : ∀ t, HasDerivAt s (√mu / rho t) t)
    (hs0 : s 0 = 0) (he : ∀ t, e = (1 / rho t - al) * r t - p t / mu * v t) (t : ℝ) :
    r t = U0 al (s t) * r 0 + U1 al (s t) * (rho 0 / √mu * v 0) - U2 al (s t) * e := by
  have hk := (sqrt_pos.2 hmu).ne'
  have hk2 := sq_sqrt hmu.le
  have hw : ∀ t, HasDerivAt (fun t => rho t / √mu * v t) (√mu / rho t * (-al * r t - e)) t := by
    intro t
    have := h0 t
    refine (((hrho t).div_const √mu).mul (hv t)).congr_deriv ?_
    rw [he t]
    field_simp
    rw [show √mu ^ 2 = mu from hk2]
    field_simp
    ring
  have hU0 : ∀ t, HasDerivAt (fun t => U0 al (s t)) (-(al * U1 al (s t)) * (√mu / rho t)) t :=
    fun t => (hasDerivAt_U0 al (s t)).comp t (hs t)
  have hU1 : ∀ t, HasDerivAt (fun t => U1 al (s t)) (U0 al (s t) * (√mu / rho t)) t :=
    fun t => (hasDerivAt_U1 al (s t)).comp t (hs t)
  have hU2 : ∀ t, HasDerivAt (fun t => U2 al (s t)) (U1 al (s t) * (√mu / rho t)) t :=
    fun t => (hasDerivAt_U2' al (s t)).comp t (hs t)
  have hP : ∀ t, HasDerivAt (fun t => U0 al (s t) * r t - U1 al (s t) * (rho t / √mu * v t) - U2 al (s t) * e) 0 t := by
    intro t
    have := h0 t
    refine ((((hU0 t).mul (hr t)).sub ((hU1 t).mul (hw t))).sub ((hU2 t).mul_const e)).congr_deriv ?_
    field_simp
    ring
  have hQ : ∀ t, HasDerivAt (fun t => al * (U1 al (s t) * r t) + U0 al (s t) * (rho t / √mu * v t) + U1 al (s t) * e) 0 t := by
    intro t
    have := h0 t
    refine (((((hU1 t).mul (hr t)).const_mul al).add ((hU0 t).mul (hw t))).add ((hU1 t).mul_const e)).congr_deriv ?_
    field_simp
    ring
  have p1 := const_of_hasDerivAt_zero hP t
  have q1 := const_of_hasDerivAt_zero hQ t
  simp only [hs0, U0_at_zero, U1_at_zero, U2_at_zero] at p1 q1
  have hU := U_sq al (s t)
  have hd : U0 al (s t) = 1 - al * U2 al (s t) := rfl
  rw [hd] at p1 q1 ⊢
  linear_combination (1 - al * U2 al (s t)) * p1 + U1 al (s t) * q1 - (al * r t + e) * hU

section
variable {mu : ℝ} (hmu : 0 < mu) {γ : ℝ → RV ℝ} (hγ : TwoBody mu γ)
include hmu hγ

theorem twoBody_angMom (t : ℝ) : angMom (γ t) = angMom (γ 0) := by
  have h := hγ
  ext
  · refine const_of_hasDerivAt_zero (f := fun t => (γ t).r.y * (γ t).v.z - (γ t).r.z * (γ t).v.y) (fun t => ?_) t
    exact (((h.ry t).mul (h.vz t)).sub ((h.rz t).mul (h.vy t))).congr_deriv (by ring)
  · refine const_of_hasDerivAt_zero (f := fun t => (γ t).r.z * (γ t).v.x - (γ t).r.x * (γ t).v.z) (fun t => ?_) t
    exact (((h.rz t).mul (h.vx t)).sub ((h.rx t).mul (h.vz t))).congr_deriv (by ring)
  · refine const_of_hasDerivAt_zero (f := fun t => (γ t).r.x * (γ t).v.y - (γ t).r.y * (γ t).v.x) (fun t => ?_) t
    exact (((h.rx t).mul (h.vy t)).sub ((h.ry t).mul (h.vx t))).congr_deriv (by ring)

variable (hh : angMom (γ 0) ≠ 0)
include hh

theorem twoBody_norm_pos (t : ℝ) : 0 < norm (γ t).r :=
  norm_pos (r_ne_of_h (by rw [twoBody_angMom hmu hγ]; exact hh))

theorem twoBody_norm (t : ℝ) : HasDerivAt (fun t => norm (γ t).r) (dot (γ t).r (γ t).v / norm (γ t).r) t := by
  have hp := twoBody_norm_pos hmu hγ hh t
  have h1 : HasDerivAt (fun t => dot (γ t).r (γ t).r) (2 * dot (γ t).r (γ t).v) t := by
    refine ((((hγ.rx t).mul (hγ.rx t)).add ((hγ.ry t).mul (hγ.ry t))).add ((hγ.rz t).mul (hγ.rz t))).congr_deriv ?_
    unfold dot; ring
  have h2 := h1.sqrt (by rw [← norm_sq]; exact (pow_pos hp 2).ne')
  refine h2.congr_deriv ?_
  show 2 * dot (γ t).r (γ t).v / (2 * norm (γ t).r) = _
  field_simp

theorem twoBody_alpha (t : ℝ) : alphaOf (γ t) mu = alphaOf (γ 0) mu := by
  refine const_of_hasDerivAt_zero (f := fun t => alphaOf (γ t) mu) (fun t => ?_) t
  have hp := twoBody_norm_pos hmu hγ hh t
  have h1 : HasDerivAt (fun t => dot (γ t).v (γ t).v) (-(2 * mu / norm (γ t).r ^ 3) * dot (γ t).r (γ t).v) t := by
    refine ((((hγ.vx t).mul (hγ.vx t)).add ((hγ.vy t).mul (hγ.vy t))).add ((hγ.vz t).mul (hγ.vz t))).congr_deriv ?_
    unfold dot; ring
  refine (((hasDerivAt_const t (2 : ℝ)).div (twoBody_norm hmu hγ hh t) hp.ne').sub (h1.div_const mu)).congr_deriv ?_
  field_simp
  ring

theorem twoBody_rv (t : ℝ) : HasDerivAt (fun t => dot (γ t).r (γ t).v)
    (dot (γ t).v (γ t).v - mu / norm (γ t).r) t := by
  have hp := twoBody_norm_pos hmu hγ hh t
  refine ((((hγ.rx t).mul (hγ.vx t)).add ((hγ.ry t).mul (hγ.vy t))).add ((hγ.rz t).mul (hγ.vz t))).congr_deriv ?_
  have hn := norm_sq (γ t).r
  have : mu / norm (γ t).r = mu / norm (γ t).r ^ 3 * dot (γ t).r (γ t).r := by rw [← hn]; field_simp
  rw [this]
  unfold dot; ring

/-- One component of the eccentricity vector. -/
theorem ecc_comp {al : ℝ} (hal : ∀ t, alphaOf (γ t) mu = al) {r v : ℝ → ℝ} (hr : ∀ t, HasDerivAt r (v t) t)
    (hv : ∀ t, HasDerivAt v (-(mu / norm (γ t).r ^ 3) * r t) t) (t : ℝ) :
    (1 / norm (γ t).r - al) * r t - dot (γ t).r (γ t).v / mu * v t
      = (1 / norm (γ 0).r - al) * r 0 - dot (γ 0).r (γ 0).v / mu * v 0 := by
  refine const_of_hasDerivAt_zero
    (f := fun t => (1 / norm (γ t).r - al) * r t - dot (γ t).r (γ t).v / mu * v t) (fun t => ?_) t
  have hp := twoBody_norm_pos hmu hγ hh t
  have h1 : HasDerivAt (fun t => 1 / norm (γ t).r)
      ((0 * norm (γ t).r - 1 * (dot (γ t).r (γ t).v / norm (γ t).r)) / norm (γ t).r ^ 2) t :=
    (hasDerivAt_const t (1 : ℝ)).div (twoBody_norm hmu hγ hh t) hp.ne'
  refine (((h1.sub_const al).mul (hr t)).sub
    (((twoBody_rv hmu hγ hh t).div_const mu).mul (hv t))).congr_deriv ?_
  rw [← hal t]
  unfold alphaOf
  field_simp
  ring

/-- The two-body motion from a state with nonzero angular momentum is unique: it is `kepFlow`. -/
theorem twoBody_unique (t : ℝ) : γ t = kepFlow (γ 0) mu t := by
  have hk := sqrt_pos.2 hmu
  have hal := twoBody_alpha hmu hγ hh
  have hp := twoBody_norm_pos hmu hγ hh
  have hcont : Continuous fun t => √mu / norm (γ t).r :=
    continuous_const.div (continuous_iff_continuousAt.2 fun t => (twoBody_norm hmu hγ hh t).continuousAt)
      fun t => (hp t).ne'
  obtain ⟨s, hs0, hs⟩ : ∃ s : ℝ → ℝ, s 0 = 0 ∧ ∀ t, HasDerivAt s (√mu / norm (γ t).r) t :=
    ⟨fun t => ∫ u in (0 : ℝ)..t, √mu / norm (γ u).r, intervalIntegral.integral_same, fun t =>
      intervalIntegral.integral_hasDerivAt_right (hcont.intervalIntegrable _ _)
        (hcont.stronglyMeasurableAtFilter _ _) hcont.continuousAt⟩
  have comp : ∀ {r v : ℝ → ℝ}, (∀ t, HasDerivAt r (v t) t) →
      (∀ t, HasDerivAt v (-(mu / norm (γ t).r ^ 3) * r t) t) → ∀ t,
      r t = FU (γ 0) mu (s t) * r 0 + GU (γ 0) mu (s t) * v 0 := by
    intro r v hr hv t
    rw [comp_unique hmu hr hv (twoBody_norm hmu hγ hh) hp hs hs0
      (fun t => (ecc_comp hmu hγ hh hal hr hv t).symm) t]
    have := hp 0
    have hk2 := sq_sqrt hmu.le
    unfold FU GU sigmaOf
    rw [show U0 (alphaOf (γ 0) mu) (s t) = 1 - alphaOf (γ 0) mu * U2 (alphaOf (γ 0) mu) (s t) from rfl]
    field_simp
    linear_combination (norm (γ 0).r * U2 (alphaOf (γ 0) mu) (s t) * v 0 * dot (γ 0).r (γ 0).v) * hk2
  have hr : ∀ t, (γ t).r = (stateU (γ 0) mu (s t)).r := by
    intro t
    ext
    · exact comp hγ.rx hγ.vx t
    · exact comp hγ.ry hγ.vy t
    · exact comp hγ.rz hγ.vz t
  have hT : ∀ t, timeU (γ 0) mu (s t) = t := by
    intro t
    have h1 : ∀ t, HasDerivAt (fun t => timeU (γ 0) mu (s t) - t) 0 t := by
      intro t
      refine (((hasDerivAt_timeU hmu hh (s t)).comp t (hs t)).sub (hasDerivAt_id t)).congr_deriv ?_
      have h2 : norm (γ t).r = radU (γ 0) mu (s t) := by rw [hr t, norm_stateU hmu hh]
      have := hp t
      rw [← h2]
      field_simp
      ring
    have := const_of_hasDerivAt_zero h1 t
    rw [hs0, timeU_zero hmu hh] at this
    linarith
  have hrk : ∀ t, (γ t).r = (kepFlow (γ 0) mu t).r := fun t => by
    rw [hr t, kepFlow_of_time hmu hh (hT t)]
  have hK := kepFlow_twoBody hmu hh
  apply RV.ext
  · exact hrk t
  · ext
    · refine (hγ.rx t).unique ?_
      have : (fun t => (γ t).r.x) = fun t => (kepFlow (γ 0) mu t).r.x := funext fun t => by rw [hrk t]
      rw [this]; exact hK.rx t
    · refine (hγ.ry t).unique ?_
      have : (fun t => (γ t).r.y) = fun t => (kepFlow (γ 0) mu t).r.y := funext fun t => by rw [hrk t]
      rw [this]; exact hK.ry t
    · refine (hγ.rz t).unique ?_
      have : (fun t => (γ t).r.z) = fun t => (kepFlow (γ 0) mu t).r.z := funext fun t => by rw [hrk t]
      rw [this]; exact hK.rz t

end

end Kep3
