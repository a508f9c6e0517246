import Verif.Lagr.StmFlow

/-!
# The variational equations
-/

namespace Kep3
open Real Filter Topology V3

/-- The partial derivatives of `(r, v) ↦ (v, - mu r / |r|^3)`. -/
noncomputable def gravJac (x : RV ℝ) (mu : ℝ) : Fin 6 → Row :=
  ![seedV 0, seedV 1, seedV 2,
    fun j => -(mu / norm x.r ^ 3) * seedR 0 j + 3 * mu / norm x.r ^ 5 * x.r.x * dotRow x.r seedR j,
    fun j => -(mu / norm x.r ^ 3) * seedR 1 j + 3 * mu / norm x.r ^ 5 * x.r.y * dotRow x.r seedR j,
    fun j => -(mu / norm x.r ^ 3) * seedR 2 j + 3 * mu / norm x.r ^ 5 * x.r.z * dotRow x.r seedR j]

/-- `gravJac` is what it says. -/
theorem gravJac_spec {p : Fin 6 → ℝ} {mu : ℝ} (h : (unpack p).r ≠ 0) (i : Fin 6) :
    HasGrad (fun q => pack ⟨(unpack q).v, -(mu / norm (unpack q).r ^ 3) • (unpack q).r⟩ i) (gravJac (unpack p) mu i) p := by
  have hp := (norm_pos h).ne'
  have hn := grad_norm h
  have h3 := (hn.mul hn).mul hn
  have hc := ((hasGrad_const mu p).div h3 (mul_ne_zero (mul_ne_zero hp hp) hp)).smul (-1)
  fin_cases i
  · exact (hasGrad_coord 3 p).congr_row fun j => by unfold gravJac seedV; fin_cases j <;> simp
  · exact (hasGrad_coord 4 p).congr_row fun j => by unfold gravJac seedV; fin_cases j <;> simp
  · exact (hasGrad_coord 5 p).congr_row fun j => by unfold gravJac seedV; fin_cases j <;> simp
  · refine ((hc.mul (hasGrad_coord 0 p)).congr_fun (Eventually.of_forall fun q => ?_)).congr_row fun j => ?_
    · show -(mu / norm (unpack q).r ^ 3) * q 0 = _
      ring
    · show _ = -(mu / norm (unpack p).r ^ 3) * seedR 0 j + 3 * mu / norm (unpack p).r ^ 5 * (unpack p).r.x
        * dotRow (unpack p).r seedR j
      unfold stmDR0
      have e : (if j = 0 then (1 : ℝ) else 0) = seedR 0 j := by unfold seedR; fin_cases j <;> simp
      rw [e]
      generalize dotRow _ _ _ = D
      generalize seedR 0 j = S
      generalize norm (unpack p).r = R at *
      show _ = _ + 3 * mu / R ^ 5 * p 0 * D
      field_simp
      ring
  · refine ((hc.mul (hasGrad_coord 1 p)).congr_fun (Eventually.of_forall fun q => ?_)).congr_row fun j => ?_
    · show -(mu / norm (unpack q).r ^ 3) * q 1 = _
      ring
    · show _ = -(mu / norm (unpack p).r ^ 3) * seedR 1 j + 3 * mu / norm (unpack p).r ^ 5 * (unpack p).r.y
        * dotRow (unpack p).r seedR j
      unfold stmDR0
      have e : (if j = 1 then (1 : ℝ) else 0) = seedR 1 j := by unfold seedR; fin_cases j <;> simp
      rw [e]
      generalize dotRow _ _ _ = D
      generalize seedR 1 j = S
      generalize norm (unpack p).r = R at *
      show _ = _ + 3 * mu / R ^ 5 * p 1 * D
      field_simp
      ring
  · refine ((hc.mul (hasGrad_coord 2 p)).congr_fun (Eventually.of_forall fun q => ?_)).congr_row fun j => ?_
    · show -(mu / norm (unpack q).r ^ 3) * q 2 = _
      ring
    · show _ = -(mu / norm (unpack p).r ^ 3) * seedR 2 j + 3 * mu / norm (unpack p).r ^ 5 * (unpack p).r.z
        * dotRow (unpack p).r seedR j
      unfold stmDR0
      have e : (if j = 2 then (1 : ℝ) else 0) = seedR 2 j := by unfold seedR; fin_cases j <;> simp
      rw [e]
      generalize dotRow _ _ _ = D
      generalize seedR 2 j = S
      generalize norm (unpack p).r = R at *
      show _ = _ + 3 * mu / R ^ 5 * p 2 * D
      field_simp
      ring

/-! ## The derivative at time zero -/

section
variable {mu b R σ ρ' : ℝ} {E ρ F : ℝ → ℝ} {dR dσ da : Row} (j : Fin 6)

theorem deriv0_E (hmu : 0 < mu) (hb : 0 < b) (hR : 0 < R) (hE0 : E 0 = 0) (hE : HasDerivAt E (√mu / R / b) 0)
    (hρ0 : ρ 0 = R) (hρ : HasDerivAt ρ ρ' 0) (hF0 : F 0 = 1) (hF : HasDerivAt F 0 0) {d : ℝ → DCoeff}
    (hd : ∀ t, d t = stmDiffE mu R (ρ t) σ (b ^ 2) (E t) (F t) dR dσ da
      (stmDDE t mu R σ (b ^ 2) (σ / b) (1 - R / b ^ 2) (E t) dR dσ da)) :
    HasDerivAt (fun t => (d t).dF j) 0 0 ∧ HasDerivAt (fun t => (d t).dG j) 0 0 ∧
    HasDerivAt (fun t => (d t).dFt j) (3 * mu / R ^ 4 * dR j) 0 ∧ HasDerivAt (fun t => (d t).dGt j) 0 0 := by
  have hk := (sqrt_pos.2 hmu).ne'
  have hb1 := hb.ne'
  have hR1 := hR.ne'
  have hc : HasDerivAt (fun t => cos (E t)) 0 0 := by simpa [hE0] using hE.cos
  have hs : HasDerivAt (fun t => sin (E t)) (√mu / R / b) 0 := by simpa [hE0] using hE.sin
  have h1c : HasDerivAt (fun t => 1 - cos (E t)) 0 0 := by simpa using hc.const_sub 1
  have hdd : HasDerivAt (fun t => stmDDE t mu R σ (b ^ 2) (σ / b) (1 - R / b ^ 2) (E t) dR dσ da j)
      (-(1 / 2) * √mu / (R * b ^ 3) * da j - √mu / (R ^ 2 * b) * dR j) 0 := by
    unfold stmDDE
    simp only [sqrt_sq hb.le]
    have hN := ((((hasDerivAt_id (0 : ℝ)).const_mul (-(3 / 2 : ℝ) * √mu)).div_const (b ^ 5)).mul_const (da j)).sub
      (h1c.mul_const (dσ j / b - (1 / 2 : ℝ) * σ / b / b / b * da j)) |>.add
      (hs.mul_const (-1 / b ^ 2 * dR j + R / b ^ 2 / b ^ 2 * da j))
    have hD := ((hs.const_mul (σ / b)).const_add 1).sub (hc.const_mul (1 - R / b ^ 2))
    have := hN.div hD (by simp [hE0, hR1, hb1])
    refine this.congr_deriv ?_
    simp [hE0]
    field_simp
    ring
  have hdd0 : stmDDE 0 mu R σ (b ^ 2) (σ / b) (1 - R / b ^ 2) (E 0) dR dσ da j = 0 := by
    unfold stmDDE; simp [hE0]
  generalize hDE : (fun t => stmDDE t mu R σ (b ^ 2) (σ / b) (1 - R / b ^ 2) (E t) dR dσ da) = DE at *
  have hDEt : ∀ t, stmDDE t mu R σ (b ^ 2) (σ / b) (1 - R / b ^ 2) (E t) dR dσ da = DE t := fun t => congrFun hDE t
  simp only [hDEt] at hd hdd hdd0
  have hdF : HasDerivAt (fun t => (d t).dF j) 0 0 := by
    simp only [hd, stmDiffE]
    have := (((h1c.neg.div_const R).mul_const (da j)).add ((h1c.const_mul (b ^ 2 / R / R)).mul_const (dR j))).sub
      ((hs.const_mul (b ^ 2 / R)).mul hdd)
    exact this.congr_deriv (by simp [hE0, hdd0])
  have hdF0 : (d 0).dF j = 0 := by simp [hd, stmDiffE, hE0, hdd0]
  have hRf : HasDerivAt (fun t => (1 - cos (E t) + (1 / 2 : ℝ) / b * σ * sin (E t)) * da j + cos (E t) * dR j
    + (σ * b * cos (E t) - (R - b ^ 2) * sin (E t)) * DE t j + b * sin (E t) * dσ j) _ 0 :=
    ((((h1c.add (hs.const_mul ((1 / 2 : ℝ) / b * σ))).mul_const (da j)).add (hc.mul_const (dR j))).add
      (((hc.const_mul (σ * b)).sub (hs.const_mul (R - b ^ 2))).mul hdd)).add ((hs.const_mul b).mul_const (dσ j))
  refine ⟨hdF, ?_, ?_, ?_⟩
  · have e : (fun t => (d t).dG j) = fun t => ((1 - F t) * (R * dσ j + σ * dR j) - (σ * R) * (d t).dF j
        + (b * R * cos (E t)) * DE t j + (b * sin (E t)) * dR j + ((1 / 2 : ℝ) * R * sin (E t) / b) * da j) / √mu := by
      funext t; simp only [hd, stmDiffE, sqrt_sq hb.le]
    rw [e]
    have := ((((((hF.const_sub 1).mul_const (R * dσ j + σ * dR j)).sub (hdF.const_mul (σ * R))).add
      ((hc.const_mul (b * R)).mul hdd)).add ((hs.const_mul b).mul_const (dR j))).add
      (((hs.const_mul ((1 / 2 : ℝ) * R)).div_const b).mul_const (da j))).div_const √mu
    refine this.congr_deriv ?_
    simp only [hE0, hdd0, cos_zero]
    field_simp
    ring
  · simp only [hd, stmDiffE, sqrt_sq hb.le]
    have i1 := hρ.inv (by rw [hρ0]; exact hR1)
    have t1 := (((i1.const_mul (-b / R)).mul hc).mul hdd)
    have t2 := ((i1.const_mul ((1 / 2 : ℝ) / b / R)).mul hs).mul_const (da j)
    have t3 := (((i1.const_mul b).div_const R).div_const R).mul hs |>.mul_const (dR j)
    have t4 := ((((i1.mul i1).const_mul b).div_const R).mul hs).mul hRf
    have := (((t1.sub t2).add t3).add t4).mul_const √mu
    refine (this.congr_deriv ?_).congr_of_eventuallyEq (Eventually.of_forall fun t => ?_)
    · simp only [Pi.mul_apply, Pi.inv_apply, Pi.add_apply, hE0, hdd0, hρ0, cos_zero, sin_zero]
      have hm : mu = √mu * √mu := (mul_self_sqrt hmu.le).symm
      generalize √mu = k at *
      subst hm
      field_simp
      ring
    · simp only [Pi.mul_apply, Pi.inv_apply, Pi.add_apply, Pi.sub_apply]
      ring
  · simp only [hd, stmDiffE, sqrt_sq hb.le]
    have i1 := hρ.inv (by rw [hρ0]; exact hR1)
    have t1 := (h1c.neg.mul i1).mul_const (da j)
    have t2 := (((i1.mul i1).const_mul (b ^ 2)).mul h1c).mul hRf
    have t3 := ((i1.const_mul (b ^ 2)).mul hs).mul hdd
    have := (t1.add t2).sub t3
    refine (this.congr_deriv ?_).congr_of_eventuallyEq (Eventually.of_forall fun t => ?_)
    · simp only [Pi.mul_apply, Pi.inv_apply, Pi.add_apply, Pi.neg_apply, hE0, hdd0, hρ0, cos_zero, sin_zero]
      ring
    · simp only [Pi.mul_apply, Pi.inv_apply, Pi.add_apply, Pi.neg_apply, Pi.sub_apply]
      ring

theorem deriv0_H (hmu : 0 < mu) (hb : 0 < b) (hR : 0 < R) (hE0 : E 0 = 0) (hE : HasDerivAt E (√mu / R / b) 0)
    (hρ0 : ρ 0 = R) (hρ : HasDerivAt ρ ρ' 0) (hF0 : F 0 = 1) (hF : HasDerivAt F 0 0) {d : ℝ → DCoeff}
    (hd : ∀ t, d t = stmDiffH mu R (ρ t) σ (-b ^ 2) (E t) (F t) dR dσ da
      (stmDDH t mu R σ (-b ^ 2) (σ / b) (1 - R / -b ^ 2) (E t) dR dσ da)) :
    HasDerivAt (fun t => (d t).dF j) 0 0 ∧ HasDerivAt (fun t => (d t).dG j) 0 0 ∧
    HasDerivAt (fun t => (d t).dFt j) (3 * mu / R ^ 4 * dR j) 0 ∧ HasDerivAt (fun t => (d t).dGt j) 0 0 := by
  have hk := (sqrt_pos.2 hmu).ne'
  have hb1 := hb.ne'
  have hR1 := hR.ne'
  have hsq : √(- -b ^ 2) = b := by rw [neg_neg, sqrt_sq hb.le]
  have hc : HasDerivAt (fun t => cosh (E t)) 0 0 := by simpa [hE0] using hE.cosh
  have hs : HasDerivAt (fun t => sinh (E t)) (√mu / R / b) 0 := by simpa [hE0] using hE.sinh
  have h1c : HasDerivAt (fun t => 1 - cosh (E t)) 0 0 := by simpa using hc.const_sub 1
  have hc1 : HasDerivAt (fun t => cosh (E t) - 1) 0 0 := by simpa using hc.sub_const 1
  have hdd : HasDerivAt (fun t => stmDDH t mu R σ (-b ^ 2) (σ / b) (1 - R / -b ^ 2) (E t) dR dσ da j)
      ((1 / 2) * √mu / (R * b ^ 3) * da j - √mu / (R ^ 2 * b) * dR j) 0 := by
    unfold stmDDH
    simp only [hsq]
    have hN := ((((hasDerivAt_id (0 : ℝ)).const_mul ((3 / 2 : ℝ) * √mu)).div_const (b ^ 5)).mul_const (da j)).sub
      (hc1.mul_const (dσ j / b + (1 / 2 : ℝ) * σ / b / b / b * da j)) |>.sub
      (hs.mul_const (-1 / -b ^ 2 * dR j + R / -b ^ 2 / -b ^ 2 * da j))
    have hD := ((hs.const_mul (σ / b)).add (hc.const_mul (1 - R / -b ^ 2))).sub_const 1
    have := hN.div hD (by simp [hE0, hR1, hb1])
    refine this.congr_deriv ?_
    simp [hE0]
    field_simp
    ring
  have hdd0 : stmDDH 0 mu R σ (-b ^ 2) (σ / b) (1 - R / -b ^ 2) (E 0) dR dσ da j = 0 := by
    unfold stmDDH; simp [hE0]
  generalize hDE : (fun t => stmDDH t mu R σ (-b ^ 2) (σ / b) (1 - R / -b ^ 2) (E t) dR dσ da) = DE at *
  have hDEt : ∀ t, stmDDH t mu R σ (-b ^ 2) (σ / b) (1 - R / -b ^ 2) (E t) dR dσ da = DE t := fun t => congrFun hDE t
  simp only [hDEt] at hd hdd hdd0
  have hdF : HasDerivAt (fun t => (d t).dF j) 0 0 := by
    simp only [hd, stmDiffH]
    have := (((h1c.neg.div_const R).mul_const (da j)).add ((h1c.const_mul (-b ^ 2 / R / R)).mul_const (dR j))).add
      ((hs.const_mul (-b ^ 2 / R)).mul hdd)
    exact this.congr_deriv (by simp [hE0, hdd0])
  have hdF0 : (d 0).dF j = 0 := by simp [hd, stmDiffH, hE0, hdd0]
  have hRf : HasDerivAt (fun t => (1 - cosh (E t) - (1 / 2 : ℝ) / b * σ * sinh (E t)) * da j + cosh (E t) * dR j
    + (σ * b * cosh (E t) + (R - -b ^ 2) * sinh (E t)) * DE t j + b * sinh (E t) * dσ j) _ 0 :=
    ((((h1c.sub (hs.const_mul ((1 / 2 : ℝ) / b * σ))).mul_const (da j)).add (hc.mul_const (dR j))).add
      (((hc.const_mul (σ * b)).add (hs.const_mul (R - -b ^ 2))).mul hdd)).add ((hs.const_mul b).mul_const (dσ j))
  refine ⟨hdF, ?_, ?_, ?_⟩
  · have e : (fun t => (d t).dG j) = fun t => ((1 - F t) * (R * dσ j + σ * dR j) - (σ * R) * (d t).dF j
        + (b * R * cosh (E t)) * DE t j + (b * sinh (E t)) * dR j - ((1 / 2 : ℝ) * R * sinh (E t) / b) * da j) / √mu := by
      funext t; simp only [hd, stmDiffH, hsq]
    rw [e]
    have := ((((((hF.const_sub 1).mul_const (R * dσ j + σ * dR j)).sub (hdF.const_mul (σ * R))).add
      ((hc.const_mul (b * R)).mul hdd)).add ((hs.const_mul b).mul_const (dR j))).sub
      (((hs.const_mul ((1 / 2 : ℝ) * R)).div_const b).mul_const (da j))).div_const √mu
    refine this.congr_deriv ?_
    simp only [hE0, hdd0, cosh_zero]
    field_simp
    ring
  · simp only [hd, stmDiffH, hsq]
    have i1 := hρ.inv (by rw [hρ0]; exact hR1)
    have t1 := (((i1.const_mul (-b / R)).mul hc).mul hdd)
    have t2 := ((i1.const_mul ((1 / 2 : ℝ) / b / R)).mul hs).mul_const (da j)
    have t3 := (((i1.const_mul b).div_const R).div_const R).mul hs |>.mul_const (dR j)
    have t4 := ((((i1.mul i1).const_mul b).div_const R).mul hs).mul hRf
    have := (((t1.add t2).add t3).add t4).mul_const √mu
    refine (this.congr_deriv ?_).congr_of_eventuallyEq (Eventually.of_forall fun t => ?_)
    · simp only [Pi.mul_apply, Pi.inv_apply, Pi.add_apply, hE0, hdd0, hρ0, cosh_zero, sinh_zero]
      have hm : mu = √mu * √mu := (mul_self_sqrt hmu.le).symm
      generalize √mu = k at *
      subst hm
      field_simp
      ring
    · simp only [Pi.mul_apply, Pi.inv_apply, Pi.add_apply, Pi.sub_apply]
      ring
  · simp only [hd, stmDiffH, hsq]
    have i1 := hρ.inv (by rw [hρ0]; exact hR1)
    have t1 := (h1c.neg.mul i1).mul_const (da j)
    have t2 := (((i1.mul i1).const_mul (-b ^ 2)).mul h1c).mul hRf
    have t3 := ((i1.const_mul (-b ^ 2)).mul hs).mul hdd
    have := (t1.add t2).add t3
    refine (this.congr_deriv ?_).congr_of_eventuallyEq (Eventually.of_forall fun t => ?_)
    · simp only [Pi.mul_apply, Pi.inv_apply, Pi.add_apply, Pi.neg_apply, hE0, hdd0, hρ0, cosh_zero, sinh_zero]
      ring
    · simp only [Pi.mul_apply, Pi.inv_apply, Pi.add_apply, Pi.neg_apply, Pi.sub_apply]
      ring

end

end Kep3
