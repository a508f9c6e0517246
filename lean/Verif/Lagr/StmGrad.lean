import Verif.Lagr.Grad6
import Verif.Lagr.Run

/-!
# The differentials of the Lagrange coefficients
-/

namespace Kep3
open Real Filter Topology

section
variable {R σ b E : (Fin 6 → ℝ) → ℝ} {dR dσ db dE : Row} {p : Fin 6 → ℝ}

/-- The differentials for ellipses, with `b` the root of the semi-major axis. -/
theorem grad_coeffE (mu : ℝ) (hR : HasGrad R dR p) (hσ : HasGrad σ dσ p) (hb : HasGrad b db p) (hE : HasGrad E dE p)
    (hR0 : R p ≠ 0) (hb0 : 0 < b p) (hmu : 0 < mu) {Rf : ℝ}
    (hRf : Rf = b p ^ 2 + (R p - b p ^ 2) * cos (E p) + σ p * b p * sin (E p)) (hRf0 : Rf ≠ 0) {F : ℝ}
    (hF : F = 1 - b p ^ 2 / R p * (1 - cos (E p))) {d : DCoeff}
    (hd : d = stmDiffE mu (R p) Rf (σ p) (b p ^ 2) (E p) F dR dσ (fun j => 2 * b p * db j) dE) :
    HasGrad (fun q => 1 - b q ^ 2 / R q * (1 - cos (E q))) d.dF p ∧
    HasGrad (fun q => (b q ^ 2 * σ q * (1 - cos (E q)) + R q * b q * sin (E q)) / √mu) d.dG p ∧
    HasGrad (fun q => -(√mu * b q * sin (E q))
      / ((b q ^ 2 + (R q - b q ^ 2) * cos (E q) + σ q * b q * sin (E q)) * R q)) d.dFt p ∧
    HasGrad (fun q => 1 - b q ^ 2 / (b q ^ 2 + (R q - b q ^ 2) * cos (E q) + σ q * b q * sin (E q)) * (1 - cos (E q)))
      d.dGt p := by
  have hk := (sqrt_pos.2 hmu).ne'
  have hc := HasGrad.comp (hasDerivAt_cos (E p)) hE
  have hs := HasGrad.comp (hasDerivAt_sin (E p)) hE
  have hb2 : HasGrad (fun q => b q ^ 2) (fun j => 2 * b p * db j) p :=
    ((hb.mul hb).congr_row (h := fun j => 2 * b p * db j) fun j => by ring).congr_fun (Eventually.of_forall fun q => by ring)
  have h1c : HasGrad (fun q => 1 - cos (E q)) (fun j => sin (E p) * dE j) p :=
    ((hasGrad_const 1 p).sub hc).congr_row fun j => by ring
  have hr : HasGrad (fun q => b q ^ 2 + (R q - b q ^ 2) * cos (E q) + σ q * b q * sin (E q)) _ p :=
    (hb2.add ((hR.sub hb2).mul hc)).add ((hσ.mul hb).mul hs)
  have hsq : √(b p ^ 2) = b p := sqrt_sq hb0.le
  have hcs := sin_sq_add_cos_sq (E p)
  have hb1 := hb0.ne'
  subst hd hF
  unfold stmDiffE
  simp only [hsq]
  refine ⟨?_, ?_, ?_, ?_⟩
  · refine ((hasGrad_const 1 p).sub ((hb2.div hR hR0).mul h1c)).congr_row fun j => ?_
    field_simp; ring
  · refine ((((hb2.mul hσ).mul h1c).add ((hR.mul hb).mul hs)).div (hasGrad_const √mu p) hk).congr_row fun j => ?_
    field_simp; ring
  · refine ((((((hasGrad_const √mu p).mul hb).mul hs).smul (-1)).div (hr.mul hR)
      (mul_ne_zero (hRf ▸ hRf0) hR0)).congr_fun (Eventually.of_forall fun q => ?_)).congr_row fun j => ?_
    · simp only [neg_one_mul]
    · rw [← hRf]
      generalize √mu = k at *
      clear hRf
      field_simp
      ring
  · refine ((hasGrad_const 1 p).sub ((hb2.div hr (hRf ▸ hRf0)).mul h1c)).congr_row fun j => ?_
    rw [← hRf]
    clear hRf
    field_simp
    ring

/-- The differentials for hyperbolas, with `b` the root of minus the semi-major axis. -/
theorem grad_coeffH (mu : ℝ) (hR : HasGrad R dR p) (hσ : HasGrad σ dσ p) (hb : HasGrad b db p) (hE : HasGrad E dE p)
    (hR0 : R p ≠ 0) (hb0 : 0 < b p) (hmu : 0 < mu) {Rf : ℝ}
    (hRf : Rf = -b p ^ 2 + (R p - -b p ^ 2) * cosh (E p) + σ p * b p * sinh (E p)) (hRf0 : Rf ≠ 0) {F : ℝ}
    (hF : F = 1 - -b p ^ 2 / R p * (1 - cosh (E p))) {d : DCoeff}
    (hd : d = stmDiffH mu (R p) Rf (σ p) (-b p ^ 2) (E p) F dR dσ (fun j => -(2 * b p * db j)) dE) :
    HasGrad (fun q => 1 - -b q ^ 2 / R q * (1 - cosh (E q))) d.dF p ∧
    HasGrad (fun q => (-b q ^ 2 * σ q * (1 - cosh (E q)) + R q * b q * sinh (E q)) / √mu) d.dG p ∧
    HasGrad (fun q => -(√mu * b q * sinh (E q))
      / ((-b q ^ 2 + (R q - -b q ^ 2) * cosh (E q) + σ q * b q * sinh (E q)) * R q)) d.dFt p ∧
    HasGrad (fun q => 1 - -b q ^ 2 / (-b q ^ 2 + (R q - -b q ^ 2) * cosh (E q) + σ q * b q * sinh (E q))
      * (1 - cosh (E q))) d.dGt p := by
  have hk := (sqrt_pos.2 hmu).ne'
  have hc := HasGrad.comp (hasDerivAt_cosh (E p)) hE
  have hs := HasGrad.comp (hasDerivAt_sinh (E p)) hE
  have hb2 : HasGrad (fun q => -b q ^ 2) (fun j => -(2 * b p * db j)) p :=
    (((hb.mul hb).smul (-1)).congr_row (h := fun j => -(2 * b p * db j)) fun j => by ring).congr_fun
      (Eventually.of_forall fun q => by ring)
  have h1c : HasGrad (fun q => 1 - cosh (E q)) (fun j => -(sinh (E p) * dE j)) p :=
    ((hasGrad_const 1 p).sub hc).congr_row fun j => by ring
  have hr : HasGrad (fun q => -b q ^ 2 + (R q - -b q ^ 2) * cosh (E q) + σ q * b q * sinh (E q)) _ p :=
    (hb2.add ((hR.sub hb2).mul hc)).add ((hσ.mul hb).mul hs)
  have hsq : √(- -b p ^ 2) = b p := by rw [neg_neg, sqrt_sq hb0.le]
  have hb1 := hb0.ne'
  subst hd hF
  unfold stmDiffH
  simp only [hsq]
  refine ⟨?_, ?_, ?_, ?_⟩
  · refine ((hasGrad_const 1 p).sub ((hb2.div hR hR0).mul h1c)).congr_row fun j => ?_
    field_simp; ring
  · refine ((((hb2.mul hσ).mul h1c).add ((hR.mul hb).mul hs)).div (hasGrad_const √mu p) hk).congr_row fun j => ?_
    field_simp; ring
  · refine ((((((hasGrad_const √mu p).mul hb).mul hs).smul (-1)).div (hr.mul hR)
      (mul_ne_zero (hRf ▸ hRf0) hR0)).congr_fun (Eventually.of_forall fun q => ?_)).congr_row fun j => ?_
    · simp only [neg_one_mul]
    · rw [← hRf]
      generalize √mu = k at *
      clear hRf
      field_simp
      ring
  · refine ((hasGrad_const 1 p).sub ((hb2.div hr (hRf ▸ hRf0)).mul h1c)).congr_row fun j => ?_
    rw [← hRf]
    clear hRf
    field_simp
    ring

/-- A function of the parameters, as a function of the parameters and the unknown. -/
theorem hasFDerivAt_fst_comp {f : (Fin 6 → ℝ) → ℝ} {g : Row} (hf : HasGrad f g p) (e : ℝ) :
    HasFDerivAt (fun z : (Fin 6 → ℝ) × ℝ => f z.1) ((rowL g).comp (ContinuousLinearMap.fst ℝ (Fin 6 → ℝ) ℝ)) (p, e) :=
  HasFDerivAt.comp (p, e) (f := Prod.fst) (g := f) hf hasFDerivAt_fst

theorem hasFDerivAt_snd_comp {φ : ℝ → ℝ} {d e : ℝ} (h : HasDerivAt φ d e) :
    HasFDerivAt (fun z : (Fin 6 → ℝ) × ℝ => φ z.2) (d • ContinuousLinearMap.snd ℝ (Fin 6 → ℝ) ℝ) (p, e) :=
  HasDerivAt.comp_hasFDerivAt (p, e) h hasFDerivAt_snd

/-- The solution of `e - M + s A(e) + c B(e) = 0`. -/
theorem grad_kepler {M s c X : (Fin 6 → ℝ) → ℝ} {dM ds dc : Row} {A B A' B' : ℝ → ℝ} (sg : ℝ)
    (hM : HasGrad M dM p) (hs : HasGrad s ds p) (hc : HasGrad c dc p)
    (hA : ∀ e, HasDerivAt A (A' e) e) (hB : ∀ e, HasDerivAt B (B' e) e)
    (hne : sg + s p * A' (X p) + c p * B' (X p) ≠ 0) (hX : ContinuousAt X p)
    (h0 : ∀ᶠ q in 𝓝 p, sg * X q - M q + s q * A (X q) + c q * B (X q) = 0) :
    HasGrad X (fun j => (dM j - A (X p) * ds j - B (X p) * dc j) / (sg + s p * A' (X p) + c p * B' (X p))) p := by
  have hf : HasFDerivAt (fun z : (Fin 6 → ℝ) × ℝ => sg * z.2 - M z.1 + s z.1 * A z.2 + c z.1 * B z.2)
      ((rowL (fun j => -dM j + A (X p) * ds j + B (X p) * dc j)).comp (ContinuousLinearMap.fst ℝ (Fin 6 → ℝ) ℝ)
        + (sg + s p * A' (X p) + c p * B' (X p)) • ContinuousLinearMap.snd ℝ (Fin 6 → ℝ) ℝ) (p, X p) := by
    have h1 := (((hasFDerivAt_snd_comp (p := p) ((hasDerivAt_id (X p)).const_mul sg)).sub (hasFDerivAt_fst_comp hM (X p))).add
      ((hasFDerivAt_fst_comp hs (X p)).mul (hasFDerivAt_snd_comp (hA (X p))))).add
      ((hasFDerivAt_fst_comp hc (X p)).mul (hasFDerivAt_snd_comp (hB (X p))))
    refine h1.congr_fderiv ?_
    ext v
    · simp [rowL_apply, Finset.sum_add_distrib, Finset.mul_sum, add_mul, mul_assoc]
    · simp [rowL_apply]
  refine (implicit_grad hf hne hX h0).congr_row fun j => ?_
  congr 1
  ring

end

end Kep3
