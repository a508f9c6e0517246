import Verif.Lagr.Run
import Verif.Elements.Props16

/-!
# What `propagate_keplerian` computes
-/

namespace Kep3
open Real V3

/-- Position and velocity on an ellipse in terms of the eccentric anomaly (`b = 1 / sqrt a`, `c = sqrt (1 - e^2)`). -/
noncomputable def ellState (P Q : V3 ℝ) (b e c k E : ℝ) : RV ℝ :=
  ⟨((cos E - e) / b ^ 2) • P + (c * sin E / b ^ 2) • Q,
   (-(k * b * sin E / (1 - e * cos E))) • P + (k * b * c * cos E / (1 - e * cos E)) • Q⟩

/-- Position and velocity on a hyperbola in terms of the hyperbolic anomaly (`b = 1 / sqrt (-a)`,
`c = sqrt (e^2 - 1)`). -/
noncomputable def hypState (P Q : V3 ℝ) (b e c k H : ℝ) : RV ℝ :=
  ⟨((e - cosh H) / b ^ 2) • P + (c * sinh H / b ^ 2) • Q,
   (-(k * b * sinh H / (e * cosh H - 1))) • P + (k * b * c * cosh H / (e * cosh H - 1)) • Q⟩

theorem dot_frame {P Q : V3 ℝ} (hP : dot P P = 1) (hQ : dot Q Q = 1) (hPQ : dot P Q = 0) (a b c d : ℝ) :
    dot (a • P + b • Q) (c • P + d • Q) = a * c + b * d := by
  simp only [add_dot, dot_add, smul_dot, dot_smul, hP, hQ, hPQ, V3.dot_comm Q P]; ring

theorem frame_congr {P Q : V3 ℝ} {a b a' b' : ℝ} (h1 : a = a') (h2 : b = b') : a • P + b • Q = a' • P + b' • Q := by
  rw [h1, h2]

section ellipse
variable {P Q : V3 ℝ} (hP : dot P P = 1) (hQ : dot Q Q = 1) (hPQ : dot P Q = 0) {b e c mu : ℝ} (hb : 0 < b)
  (he0 : 0 ≤ e) (he1 : e < 1) (hc : c ^ 2 = 1 - e ^ 2) (hmu : 0 < mu)
include hP hQ hPQ hb he0 he1 hc hmu

omit hP hQ hPQ hb hc hmu in
theorem one_sub_pos (E : ℝ) : 0 < 1 - e * cos E := by
  have := cos_le_one E
  nlinarith

theorem ell_norm (E : ℝ) : norm (ellState P Q b e c √mu E).r = (1 - e * cos E) / b ^ 2 := by
  have hd := one_sub_pos he0 he1 E
  have h : dot (ellState P Q b e c √mu E).r (ellState P Q b e c √mu E).r = ((1 - e * cos E) / b ^ 2) ^ 2 := by
    unfold ellState
    rw [dot_frame hP hQ hPQ]
    have := sin_sq_add_cos_sq E
    field_simp
    linear_combination c ^ 2 * this + (1 - cos E ^ 2) * hc
  unfold V3.norm
  rw [h, sqrt_sq (by positivity)]

theorem ell_sigma (E : ℝ) : sigmaOf (ellState P Q b e c √mu E) mu = e * sin E / b := by
  have hd := one_sub_pos he0 he1 E
  have hk := sqrt_pos.2 hmu
  unfold sigmaOf ellState
  rw [dot_frame hP hQ hPQ]
  obtain ⟨D, hD⟩ : ∃ D, D = 1 - e * cos E := ⟨_, rfl⟩
  rw [← hD] at hd ⊢
  field_simp
  linear_combination (sin E * cos E) * hc - (e * sin E) * hD

theorem ell_alpha (E : ℝ) : alphaOf (ellState P Q b e c √mu E) mu = b ^ 2 := by
  have hd := one_sub_pos he0 he1 E
  have hk := sqrt_pos.2 hmu
  have hk2 := sq_sqrt hmu.le
  unfold alphaOf
  rw [ell_norm hP hQ hPQ hb he0 he1 hc hmu]
  unfold ellState
  rw [dot_frame hP hQ hPQ]
  have := sin_sq_add_cos_sq E
  rw [sub_eq_iff_eq_add]
  field_simp
  rw [hk2]
  field_simp
  linear_combination (-1 : ℝ) * this - cos E ^ 2 * hc

theorem ell_angMom (E : ℝ) : angMom (ellState P Q b e c √mu E) ≠ 0 := by
  have hd := one_sub_pos he0 he1 E
  have hk := sqrt_pos.2 hmu
  have hc0 : c ≠ 0 := by
    rintro rfl
    nlinarith
  have h1 : dot (cross P Q) (cross P Q) = 1 := by rw [lagrange, hP, hQ, hPQ]; ring
  have h2 : angMom (ellState P Q b e c √mu E) = (√mu * c / b) • cross P Q := by
    have hs := sin_sq_add_cos_sq E
    have : (cos E - e) / b ^ 2 * (√mu * b * c * cos E / (1 - e * cos E))
        + c * sin E / b ^ 2 * (√mu * b * sin E / (1 - e * cos E)) = √mu * c / b := by
      obtain ⟨D, hD⟩ : ∃ D, D = 1 - e * cos E := ⟨_, rfl⟩
      rw [← hD] at hd ⊢
      field_simp
      linear_combination hs - hD
    rw [← this]
    unfold angMom ellState
    ext <;> simp <;> ring
  rw [h2]
  intro h0
  have : dot ((√mu * c / b) • cross P Q) ((√mu * c / b) • cross P Q) = 0 := by rw [h0]; simp [dot]
  rw [smul_dot, dot_smul, h1] at this
  have h3 : √mu * c / b ≠ 0 := by positivity
  exact h3 (by simpa using this)

theorem ell_time (E0 E1 : ℝ) : timeU (ellState P Q b e c √mu E0) mu ((E1 - E0) / b)
    = ((E1 - e * sin E1) - (E0 - e * sin E0)) / (b ^ 3 * √mu) := by
  have hk := sqrt_pos.2 hmu
  unfold timeU
  rw [ell_norm hP hQ hPQ hb he0 he1 hc hmu, ell_sigma hP hQ hPQ hb he0 he1 hc hmu,
    ell_alpha hP hQ hPQ hb he0 he1 hc hmu, U1_pos hb, U2_pos hb, U3_pos hb, mul_div_cancel₀ _ hb.ne', sin_sub, cos_sub]
  have := sin_sq_add_cos_sq E0
  field_simp
  linear_combination (-e * sin E1) * this

theorem ell_state (E0 E1 : ℝ) :
    stateU (ellState P Q b e c √mu E0) mu ((E1 - E0) / b) = ellState P Q b e c √mu E1 := by
  have hk := sqrt_pos.2 hmu
  have hd0 := one_sub_pos he0 he1 E0
  have hd1 := one_sub_pos he0 he1 E1
  have h0 := sin_sq_add_cos_sq E0
  have h1 := sin_sq_add_cos_sq E1
  have hr : radU (ellState P Q b e c √mu E0) mu ((E1 - E0) / b) = (1 - e * cos E1) / b ^ 2 := by
    unfold radU
    rw [ell_norm hP hQ hPQ hb he0 he1 hc hmu, ell_sigma hP hQ hPQ hb he0 he1 hc hmu,
      ell_alpha hP hQ hPQ hb he0 he1 hc hmu, U0_pos hb, U1_pos hb, U2_pos hb, mul_div_cancel₀ _ hb.ne', sin_sub, cos_sub]
    field_simp
    linear_combination (-e * cos E1) * h0
  have hF : FU (ellState P Q b e c √mu E0) mu ((E1 - E0) / b)
      = 1 - (1 - (cos E1 * cos E0 + sin E1 * sin E0)) / (1 - e * cos E0) := by
    unfold FU
    rw [ell_norm hP hQ hPQ hb he0 he1 hc hmu, ell_alpha hP hQ hPQ hb he0 he1 hc hmu, U2_pos hb,
      mul_div_cancel₀ _ hb.ne', cos_sub]
    field_simp
  have hG : GU (ellState P Q b e c √mu E0) mu ((E1 - E0) / b)
      = ((1 - e * cos E0) * (sin E1 * cos E0 - cos E1 * sin E0)
        + e * sin E0 * (1 - (cos E1 * cos E0 + sin E1 * sin E0))) / (b ^ 3 * √mu) := by
    unfold GU
    rw [ell_norm hP hQ hPQ hb he0 he1 hc hmu, ell_sigma hP hQ hPQ hb he0 he1 hc hmu,
      ell_alpha hP hQ hPQ hb he0 he1 hc hmu, U1_pos hb, U2_pos hb, mul_div_cancel₀ _ hb.ne', sin_sub, cos_sub]
    field_simp
  have hFt : FtU (ellState P Q b e c √mu E0) mu ((E1 - E0) / b)
      = -(√mu * b ^ 3 * (sin E1 * cos E0 - cos E1 * sin E0)) / ((1 - e * cos E1) * (1 - e * cos E0)) := by
    unfold FtU
    rw [hr, ell_norm hP hQ hPQ hb he0 he1 hc hmu, ell_alpha hP hQ hPQ hb he0 he1 hc hmu, U1_pos hb,
      mul_div_cancel₀ _ hb.ne', sin_sub]
    field_simp
  have hGt : GtU (ellState P Q b e c √mu E0) mu ((E1 - E0) / b)
      = 1 - (1 - (cos E1 * cos E0 + sin E1 * sin E0)) / (1 - e * cos E1) := by
    unfold GtU
    rw [hr, ell_alpha hP hQ hPQ hb he0 he1 hc hmu, U2_pos hb, mul_div_cancel₀ _ hb.ne', cos_sub]
    field_simp
  have comb : ∀ (A B a1 b1 a2 b2 : ℝ), A • (a1 • P + b1 • Q) + B • (a2 • P + b2 • Q)
      = (A * a1 + B * a2) • P + (A * b1 + B * b2) • Q := by
    intro A B a1 b1 a2 b2; ext <;> simp <;> ring
  unfold stateU
  rw [hF, hG, hFt, hGt]
  unfold ellState
  simp only [comb]
  obtain ⟨D0, hD0⟩ : ∃ D, D = 1 - e * cos E0 := ⟨_, rfl⟩
  obtain ⟨D1, hD1⟩ : ∃ D, D = 1 - e * cos E1 := ⟨_, rfl⟩
  rw [← hD0, ← hD1]
  rw [← hD0] at hd0
  rw [← hD1] at hd1
  generalize sin E0 = S0 at *
  generalize cos E0 = C0 at *
  generalize sin E1 = S1 at *
  generalize cos E1 = C1 at *
  have k1 : (D0 - 1 + (C1 * C0 + S1 * S0)) * (C0 - e) - S0 * (D0 * (S1 * C0 - C1 * S0)
      + e * S0 * (1 - (C1 * C0 + S1 * S0))) = D0 * (C1 - e) := by
    rw [hD0]; linear_combination (e * S0 * S1 + C1 - e) * h0
  have k2 : (D0 - 1 + (C1 * C0 + S1 * S0)) * S0 + C0 * (D0 * (S1 * C0 - C1 * S0)
      + e * S0 * (1 - (C1 * C0 + S1 * S0))) = D0 * S1 := by
    rw [hD0]; linear_combination ((1 - e * C0) * S1) * h0
  have k3 : -((S1 * C0 - C1 * S0) * (C0 - e)) - (D1 - 1 + (C1 * C0 + S1 * S0)) * S0 = -(S1 * D0) := by
    rw [hD0, hD1]; linear_combination (-S1) * h0
  have k4 : -((S1 * C0 - C1 * S0) * S0) + (D1 - 1 + (C1 * C0 + S1 * S0)) * C0 = C1 * D0 := by
    rw [hD0, hD1]; linear_combination C1 * h0
  apply RV.ext
  · refine frame_congr ?_ ?_
    · field_simp
      linear_combination k1
    · field_simp
      linear_combination c * k2
  · refine frame_congr ?_ ?_
    · field_simp
      linear_combination k3
    · field_simp
      linear_combination c * k4

end ellipse

section hyperbola
variable {P Q : V3 ℝ} (hP : dot P P = 1) (hQ : dot Q Q = 1) (hPQ : dot P Q = 0) {b e c mu : ℝ} (hb : 0 < b)
  (he1 : 1 < e) (hc : c ^ 2 = e ^ 2 - 1) (hmu : 0 < mu)
include hP hQ hPQ hb he1 hc hmu

omit hP hQ hPQ hb hc hmu in
theorem cosh_sub_pos (H : ℝ) : 0 < e * cosh H - 1 := by
  have := one_le_cosh H
  nlinarith

theorem hyp_norm (H : ℝ) : norm (hypState P Q b e c √mu H).r = (e * cosh H - 1) / b ^ 2 := by
  have hd := cosh_sub_pos he1 H
  have h : dot (hypState P Q b e c √mu H).r (hypState P Q b e c √mu H).r = ((e * cosh H - 1) / b ^ 2) ^ 2 := by
    unfold hypState
    rw [dot_frame hP hQ hPQ]
    have := cosh_sq_sub_sinh_sq H
    field_simp
    linear_combination sinh H ^ 2 * hc - (e ^ 2 - 1) * this
  unfold V3.norm
  rw [h, sqrt_sq (by positivity)]

theorem hyp_sigma (H : ℝ) : sigmaOf (hypState P Q b e c √mu H) mu = e * sinh H / b := by
  have hd := cosh_sub_pos he1 H
  have hk := sqrt_pos.2 hmu
  unfold sigmaOf hypState
  rw [dot_frame hP hQ hPQ]
  obtain ⟨D, hD⟩ : ∃ D, D = e * cosh H - 1 := ⟨_, rfl⟩
  rw [← hD] at hd ⊢
  field_simp
  linear_combination (sinh H * cosh H) * hc - (e * sinh H) * hD

theorem hyp_alpha (H : ℝ) : alphaOf (hypState P Q b e c √mu H) mu = -b ^ 2 := by
  have hd := cosh_sub_pos he1 H
  have hk := sqrt_pos.2 hmu
  have hk2 := sq_sqrt hmu.le
  unfold alphaOf
  rw [hyp_norm hP hQ hPQ hb he1 hc hmu]
  unfold hypState
  rw [dot_frame hP hQ hPQ]
  have := cosh_sq_sub_sinh_sq H
  rw [sub_eq_iff_eq_add]
  obtain ⟨D, hD⟩ : ∃ D, D = e * cosh H - 1 := ⟨_, rfl⟩
  rw [← hD] at hd ⊢
  field_simp
  rw [hk2]
  field_simp
  rw [hD]
  linear_combination this - cosh H ^ 2 * hc

theorem hyp_angMom (H : ℝ) : angMom (hypState P Q b e c √mu H) ≠ 0 := by
  have hd := cosh_sub_pos he1 H
  have hk := sqrt_pos.2 hmu
  have hc0 : c ≠ 0 := by
    rintro rfl
    nlinarith
  have h1 : dot (cross P Q) (cross P Q) = 1 := by rw [lagrange, hP, hQ, hPQ]; ring
  have h2 : angMom (hypState P Q b e c √mu H) = (√mu * c / b) • cross P Q := by
    have hs := cosh_sq_sub_sinh_sq H
    have : (e - cosh H) / b ^ 2 * (√mu * b * c * cosh H / (e * cosh H - 1))
        + c * sinh H / b ^ 2 * (√mu * b * sinh H / (e * cosh H - 1)) = √mu * c / b := by
      obtain ⟨D, hD⟩ : ∃ D, D = e * cosh H - 1 := ⟨_, rfl⟩
      rw [← hD] at hd ⊢
      field_simp
      linear_combination -hs - hD
    rw [← this]
    unfold angMom hypState
    ext <;> simp <;> ring
  rw [h2]
  intro h0
  have : dot ((√mu * c / b) • cross P Q) ((√mu * c / b) • cross P Q) = 0 := by rw [h0]; simp [dot]
  rw [smul_dot, dot_smul, h1] at this
  have h3 : √mu * c / b ≠ 0 := by positivity
  exact h3 (by simpa using this)

theorem hyp_time (H0 H1 : ℝ) : timeU (hypState P Q b e c √mu H0) mu ((H1 - H0) / b)
    = ((e * sinh H1 - H1) - (e * sinh H0 - H0)) / (b ^ 3 * √mu) := by
  have hk := sqrt_pos.2 hmu
  unfold timeU
  rw [hyp_norm hP hQ hPQ hb he1 hc hmu, hyp_sigma hP hQ hPQ hb he1 hc hmu,
    hyp_alpha hP hQ hPQ hb he1 hc hmu, U1_neg hb, U2_neg hb, U3_neg hb, mul_div_cancel₀ _ hb.ne', sinh_sub, cosh_sub]
  have := cosh_sq_sub_sinh_sq H0
  field_simp
  linear_combination (e * sinh H1) * this

theorem hyp_state (H0 H1 : ℝ) :
    stateU (hypState P Q b e c √mu H0) mu ((H1 - H0) / b) = hypState P Q b e c √mu H1 := by
  have hk := sqrt_pos.2 hmu
  have hd0 := cosh_sub_pos he1 H0
  have hd1 := cosh_sub_pos he1 H1
  have h0 := cosh_sq_sub_sinh_sq H0
  have h1 := cosh_sq_sub_sinh_sq H1
  have hr : radU (hypState P Q b e c √mu H0) mu ((H1 - H0) / b) = (e * cosh H1 - 1) / b ^ 2 := by
    unfold radU
    rw [hyp_norm hP hQ hPQ hb he1 hc hmu, hyp_sigma hP hQ hPQ hb he1 hc hmu,
      hyp_alpha hP hQ hPQ hb he1 hc hmu, U0_neg hb, U1_neg hb, U2_neg hb, mul_div_cancel₀ _ hb.ne', sinh_sub, cosh_sub]
    field_simp
    linear_combination (e * cosh H1) * h0
  have hF : FU (hypState P Q b e c √mu H0) mu ((H1 - H0) / b)
      = 1 - ((cosh H1 * cosh H0 - sinh H1 * sinh H0) - 1) / (e * cosh H0 - 1) := by
    unfold FU
    rw [hyp_norm hP hQ hPQ hb he1 hc hmu, hyp_alpha hP hQ hPQ hb he1 hc hmu, U2_neg hb,
      mul_div_cancel₀ _ hb.ne', cosh_sub]
    field_simp
  have hG : GU (hypState P Q b e c √mu H0) mu ((H1 - H0) / b)
      = ((e * cosh H0 - 1) * (sinh H1 * cosh H0 - cosh H1 * sinh H0)
        + e * sinh H0 * ((cosh H1 * cosh H0 - sinh H1 * sinh H0) - 1)) / (b ^ 3 * √mu) := by
    unfold GU
    rw [hyp_norm hP hQ hPQ hb he1 hc hmu, hyp_sigma hP hQ hPQ hb he1 hc hmu,
      hyp_alpha hP hQ hPQ hb he1 hc hmu, U1_neg hb, U2_neg hb, mul_div_cancel₀ _ hb.ne', sinh_sub, cosh_sub]
    field_simp
  have hFt : FtU (hypState P Q b e c √mu H0) mu ((H1 - H0) / b)
      = -(√mu * b ^ 3 * (sinh H1 * cosh H0 - cosh H1 * sinh H0)) / ((e * cosh H1 - 1) * (e * cosh H0 - 1)) := by
    unfold FtU
    rw [hr, hyp_norm hP hQ hPQ hb he1 hc hmu, hyp_alpha hP hQ hPQ hb he1 hc hmu, U1_neg hb,
      mul_div_cancel₀ _ hb.ne', sinh_sub]
    field_simp
  have hGt : GtU (hypState P Q b e c √mu H0) mu ((H1 - H0) / b)
      = 1 - ((cosh H1 * cosh H0 - sinh H1 * sinh H0) - 1) / (e * cosh H1 - 1) := by
    unfold GtU
    rw [hr, hyp_alpha hP hQ hPQ hb he1 hc hmu, U2_neg hb, mul_div_cancel₀ _ hb.ne', cosh_sub]
    field_simp
  have comb : ∀ (A B a1 b1 a2 b2 : ℝ), A • (a1 • P + b1 • Q) + B • (a2 • P + b2 • Q)
      = (A * a1 + B * a2) • P + (A * b1 + B * b2) • Q := by
    intro A B a1 b1 a2 b2; ext <;> simp <;> ring
  unfold stateU
  rw [hF, hG, hFt, hGt]
  unfold hypState
  simp only [comb]
  obtain ⟨D0, hD0⟩ : ∃ D, D = e * cosh H0 - 1 := ⟨_, rfl⟩
  obtain ⟨D1, hD1⟩ : ∃ D, D = e * cosh H1 - 1 := ⟨_, rfl⟩
  rw [← hD0, ← hD1]
  rw [← hD0] at hd0
  rw [← hD1] at hd1
  generalize sinh H0 = S0 at *
  generalize cosh H0 = C0 at *
  generalize sinh H1 = S1 at *
  generalize cosh H1 = C1 at *
  have k1 : (D0 + 1 - (C1 * C0 - S1 * S0)) * (e - C0) - S0 * (D0 * (S1 * C0 - C1 * S0)
      + e * S0 * ((C1 * C0 - S1 * S0) - 1)) = D0 * (e - C1) := by
    rw [hD0]; linear_combination (-e * S0 * S1 + C1 - e) * h0
  have k2 : (D0 + 1 - (C1 * C0 - S1 * S0)) * S0 + C0 * (D0 * (S1 * C0 - C1 * S0)
      + e * S0 * ((C1 * C0 - S1 * S0) - 1)) = D0 * S1 := by
    rw [hD0]; linear_combination ((e * C0 - 1) * S1) * h0
  have k3 : -((S1 * C0 - C1 * S0) * (e - C0)) - (D1 + 1 - (C1 * C0 - S1 * S0)) * S0 = -(S1 * D0) := by
    rw [hD0, hD1]; linear_combination S1 * h0
  have k4 : -((S1 * C0 - C1 * S0) * S0) + (D1 + 1 - (C1 * C0 - S1 * S0)) * C0 = C1 * D0 := by
    rw [hD0, hD1]; linear_combination (-C1) * h0
  apply RV.ext
  · refine frame_congr ?_ ?_
    · field_simp
      linear_combination k1
    · field_simp
      linear_combination c * k2
  · refine frame_congr ?_ ?_
    · field_simp
      linear_combination k3
    · field_simp
      linear_combination c * k4

end hyperbola

end Kep3
