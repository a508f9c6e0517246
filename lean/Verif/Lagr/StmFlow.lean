import Verif.Lagr.StmGrad

/-!
# The state transition matrix is the Jacobian of the flow
-/

namespace Kep3
open Real Filter Topology V3

/-- Six coordinates as a state. -/
def unpack (q : Fin 6 → ℝ) : RV ℝ := ⟨⟨q 0, q 1, q 2⟩, ⟨q 3, q 4, q 5⟩⟩

/-- A state as six coordinates. -/
def pack (x : RV ℝ) : Fin 6 → ℝ := ![x.r.x, x.r.y, x.r.z, x.v.x, x.v.y, x.v.z]

@[simp] theorem unpack_pack (x : RV ℝ) : unpack (pack x) = x := rfl
@[simp] theorem pack_unpack (q : Fin 6 → ℝ) : pack (unpack q) = q := by
  funext i; fin_cases i <;> rfl

section
variable {p : Fin 6 → ℝ} {mu : ℝ}

theorem grad_norm (h : (unpack p).r ≠ 0) :
    HasGrad (fun q => norm (unpack q).r) (stmDR0 (unpack p) (norm (unpack p).r)) p := by
  have h1 := (((hasGrad_coord 0 p).mul (hasGrad_coord 0 p)).add ((hasGrad_coord 1 p).mul (hasGrad_coord 1 p))).add
    ((hasGrad_coord 2 p).mul (hasGrad_coord 2 p))
  have hp := norm_pos h
  have hn : dot (unpack p).r (unpack p).r ≠ 0 := fun h0 => h (dot_self_eq_zero.1 h0)
  refine (h1.sqrt (by exact hn)).congr_row fun j => ?_
  have e : √(p 0 * p 0 + p 1 * p 1 + p 2 * p 2) = norm (unpack p).r := rfl
  simp only [e]
  unfold stmDR0 dotRow seedR unpack
  fin_cases j <;> simp <;> ring

theorem grad_sigma (hmu : 0 < mu) : HasGrad (fun q => sigmaOf (unpack q) mu) (stmDSigma0 (unpack p) mu) p := by
  have h1 := (((hasGrad_coord 0 p).mul (hasGrad_coord 3 p)).add ((hasGrad_coord 1 p).mul (hasGrad_coord 4 p))).add
    ((hasGrad_coord 2 p).mul (hasGrad_coord 5 p))
  have hk := (sqrt_pos.2 hmu).ne'
  refine (h1.div (hasGrad_const √mu p) hk).congr_row fun j => ?_
  unfold stmDSigma0 dotRow seedR seedV unpack
  fin_cases j <;> simp

theorem grad_energy (h : (unpack p).r ≠ 0) :
    HasGrad (fun q => energy (unpack q) mu) (stmDEnergy (unpack p) mu (norm (unpack p).r)) p := by
  have h1 := (((hasGrad_coord 3 p).mul (hasGrad_coord 3 p)).add ((hasGrad_coord 4 p).mul (hasGrad_coord 4 p))).add
    ((hasGrad_coord 5 p).mul (hasGrad_coord 5 p))
  have hp := (norm_pos h).ne'
  refine ((h1.div (hasGrad_const 2 p) (by norm_num)).sub ((hasGrad_const mu p).div (grad_norm h) hp)).congr_row
    fun j => ?_
  simp only [stmDEnergy]
  have e : stmDV02 (unpack p) j = p 3 * (if j = 3 then 1 else 0) + p 3 * (if j = 3 then 1 else 0)
      + (p 4 * (if j = 4 then 1 else 0) + p 4 * (if j = 4 then 1 else 0))
      + (p 5 * (if j = 5 then 1 else 0) + p 5 * (if j = 5 then 1 else 0)) := by
    unfold stmDV02 dotRow seedV unpack
    fin_cases j <;> simp <;> ring
  rw [e]
  field_simp
  ring

theorem grad_a (h : (unpack p).r ≠ 0) (hE : energy (unpack p) mu ≠ 0) :
    HasGrad (fun q => -mu / 2 / energy (unpack q) mu)
      (stmDa (unpack p) mu (norm (unpack p).r) (energy (unpack p) mu)) p := by
  refine ((hasGrad_const (-mu / 2) p).div (grad_energy h) hE).congr_row fun j => ?_
  unfold stmDa
  field_simp
  ring

/-- The assembly of the matrix. -/
theorem grad_assemble {F G : (Fin 6 → ℝ) → ℝ} {dF dG : Row} (hF : HasGrad F dF p) (hG : HasGrad G dG p) :
    HasGrad (fun q => F q * q 0 + G q * q 3) (stmRows (unpack p) (F p) (G p) dF dG 0) p ∧
    HasGrad (fun q => F q * q 1 + G q * q 4) (stmRows (unpack p) (F p) (G p) dF dG 1) p ∧
    HasGrad (fun q => F q * q 2 + G q * q 5) (stmRows (unpack p) (F p) (G p) dF dG 2) p := by
  refine ⟨?_, ?_, ?_⟩
  · refine ((hF.mul (hasGrad_coord 0 p)).add (hG.mul (hasGrad_coord 3 p))).congr_row fun j => ?_
    unfold stmRows seedR seedV V3.get unpack
    fin_cases j <;> simp <;> ring
  · refine ((hF.mul (hasGrad_coord 1 p)).add (hG.mul (hasGrad_coord 4 p))).congr_row fun j => ?_
    unfold stmRows seedR seedV V3.get unpack
    fin_cases j <;> simp <;> ring
  · refine ((hF.mul (hasGrad_coord 2 p)).add (hG.mul (hasGrad_coord 5 p))).congr_row fun j => ?_
    unfold stmRows seedR seedV V3.get unpack
    fin_cases j <;> simp <;> ring

theorem continuous_angMom : Continuous fun q => dot (angMom (unpack q)) (angMom (unpack q)) := by
  unfold dot angMom cross unpack
  fun_prop

theorem eventually_angMom (h : angMom (unpack p) ≠ 0) : ∀ᶠ q in 𝓝 p, angMom (unpack q) ≠ 0 := by
  have h0 : dot (angMom (unpack p)) (angMom (unpack p)) ≠ 0 := fun e => h (dot_self_eq_zero.1 e)
  filter_upwards [continuous_angMom.continuousAt.eventually_ne h0] with q hq e
  exact hq (dot_self_eq_zero.2 e)

end

section
variable {x : RV ℝ} {mu : ℝ} (hmu : 0 < mu) (hh : angMom x ≠ 0)
include hmu hh

/-- The exact motion along an ellipse with semi-major axis `b^2`. -/
theorem ellipse_formulas {b : ℝ} (hb : 0 < b) (hα : alphaOf x mu = (1 / b) ^ 2) (s : ℝ) :
    FU x mu s = 1 - b ^ 2 / norm x.r * (1 - cos (s / b)) ∧
    GU x mu s = (b ^ 2 * sigmaOf x mu * (1 - cos (s / b)) + norm x.r * b * sin (s / b)) / √mu ∧
    radU x mu s = b ^ 2 + (norm x.r - b ^ 2) * cos (s / b) + sigmaOf x mu * b * sin (s / b) ∧
    FtU x mu s = -(√mu * b * sin (s / b)) / (radU x mu s * norm x.r) ∧
    GtU x mu s = 1 - b ^ 2 / radU x mu s * (1 - cos (s / b)) ∧
    √mu / b ^ 3 * timeU x mu s = s / b + sigmaOf x mu / b * (1 - cos (s / b)) + (norm x.r / b ^ 2 - 1) * sin (s / b) := by
  have hk := (sqrt_pos.2 hmu).ne'
  have hb' : 0 < 1 / b := by positivity
  have e : 1 / b * s = s / b := by ring
  unfold FU GU FtU GtU timeU radU
  rw [hα, U0_pos hb', U1_pos hb', U2_pos hb', U3_pos hb', e]
  refine ⟨?_, ?_, ?_, ?_, ?_, ?_⟩ <;> field_simp <;> ring

theorem hyperbola_formulas {b : ℝ} (hb : 0 < b) (hα : alphaOf x mu = -(1 / b) ^ 2) (s : ℝ) :
    FU x mu s = 1 - -b ^ 2 / norm x.r * (1 - cosh (s / b)) ∧
    GU x mu s = (-b ^ 2 * sigmaOf x mu * (1 - cosh (s / b)) + norm x.r * b * sinh (s / b)) / √mu ∧
    radU x mu s = -b ^ 2 + (norm x.r - -b ^ 2) * cosh (s / b) + sigmaOf x mu * b * sinh (s / b) ∧
    FtU x mu s = -(√mu * b * sinh (s / b)) / (radU x mu s * norm x.r) ∧
    GtU x mu s = 1 - -b ^ 2 / radU x mu s * (1 - cosh (s / b)) ∧
    √mu / b ^ 3 * timeU x mu s
      = -1 * (s / b) + sigmaOf x mu / b * (cosh (s / b) - 1) + (norm x.r / b ^ 2 + 1) * sinh (s / b) := by
  have hk := (sqrt_pos.2 hmu).ne'
  have hb' : 0 < 1 / b := by positivity
  have e : 1 / b * s = s / b := by ring
  unfold FU GU FtU GtU timeU radU
  rw [hα, U0_neg hb', U1_neg hb', U2_neg hb', U3_neg hb', e]
  refine ⟨?_, ?_, ?_, ?_, ?_, ?_⟩ <;> field_simp <;> ring

end

section
variable {p : Fin 6 → ℝ} {mu : ℝ} (hmu : 0 < mu) (hh : angMom (unpack p) ≠ 0)
include hmu hh

theorem alpha_a {q : Fin 6 → ℝ} (hq : angMom (unpack q) ≠ 0) :
    -mu / 2 / energy (unpack q) mu = 1 / alphaOf (unpack q) mu := by
  rw [energy_alpha hmu hq]
  rcases eq_or_ne (alphaOf (unpack q) mu) 0 with h | h
  · rw [h]; simp
  · field_simp

/-- Negative energy: near `p` the semi-major axis is the square of a positive differentiable function. -/
theorem ellipse_near (hE : energy (unpack p) mu < 0) :
    ∃ (b : (Fin 6 → ℝ) → ℝ) (db : Row), HasGrad b db p ∧ (∀ᶠ q in 𝓝 p, 0 < b q ∧ angMom (unpack q) ≠ 0 ∧
        alphaOf (unpack q) mu = (1 / b q) ^ 2) ∧ b p ^ 2 = -mu / 2 / energy (unpack p) mu ∧
      ∀ j, 2 * b p * db j = stmDa (unpack p) mu (norm (unpack p).r) (energy (unpack p) mu) j := by
  have hr := r_ne_of_h hh
  have hga := grad_a (mu := mu) hr hE.ne
  have hap : 0 < -mu / 2 / energy (unpack p) mu := by
    apply div_pos_of_neg_of_neg <;> linarith
  refine ⟨fun q => √(-mu / 2 / energy (unpack q) mu), _, hga.sqrt hap.ne', ?_, sq_sqrt hap.le, fun j => ?_⟩
  · filter_upwards [eventually_angMom hh, hga.continuousAt.eventually (lt_mem_nhds hap)] with q h1 h2
    refine ⟨sqrt_pos.2 h2, h1, ?_⟩
    rw [div_pow, sq_sqrt h2.le, alpha_a hmu hh h1]; simp
  · have := (sqrt_pos.2 hap).ne'
    beta_reduce
    generalize √_ = w at this ⊢
    field_simp

theorem hyperbola_near (hE : 0 < energy (unpack p) mu) :
    ∃ (b : (Fin 6 → ℝ) → ℝ) (db : Row), HasGrad b db p ∧ (∀ᶠ q in 𝓝 p, 0 < b q ∧ angMom (unpack q) ≠ 0 ∧
        alphaOf (unpack q) mu = -(1 / b q) ^ 2) ∧ -b p ^ 2 = -mu / 2 / energy (unpack p) mu ∧
      ∀ j, -(2 * b p * db j) = stmDa (unpack p) mu (norm (unpack p).r) (energy (unpack p) mu) j := by
  have hr := r_ne_of_h hh
  have hga := (grad_a (mu := mu) hr hE.ne').smul (-1)
  have hap : 0 < -1 * (-mu / 2 / energy (unpack p) mu) := by
    have : 0 < mu / 2 / energy (unpack p) mu := by positivity
    have e : -1 * (-mu / 2 / energy (unpack p) mu) = mu / 2 / energy (unpack p) mu := by ring
    linarith
  refine ⟨fun q => √(-1 * (-mu / 2 / energy (unpack q) mu)), _, hga.sqrt hap.ne', ?_, ?_, fun j => ?_⟩
  · filter_upwards [eventually_angMom hh, hga.continuousAt.eventually (lt_mem_nhds hap)] with q h1 h2
    refine ⟨sqrt_pos.2 h2, h1, ?_⟩
    rw [div_pow, sq_sqrt h2.le, alpha_a hmu hh h1]; simp
  · show -√_ ^ 2 = _
    rw [sq_sqrt hap.le]; ring
  · have := (sqrt_pos.2 hap).ne'
    beta_reduce
    generalize √_ = w at this ⊢
    field_simp

/-- The universal anomaly divided by `b` solves a Kepler equation, and has the differential that the code computes. -/
theorem grad_E (tof : ℝ) {b : (Fin 6 → ℝ) → ℝ} {db : Row} (hb : HasGrad b db p)
    (hn : ∀ᶠ q in 𝓝 p, 0 < b q ∧ angMom (unpack q) ≠ 0 ∧ alphaOf (unpack q) mu = (1 / b q) ^ 2) :
    HasGrad (fun q => anomU (unpack q) mu tof / b q)
      (stmDDE tof mu (norm (unpack p).r) (sigmaOf (unpack p) mu) (b p ^ 2) (sigmaOf (unpack p) mu / b p)
        (1 - norm (unpack p).r / b p ^ 2) (anomU (unpack p) mu tof / b p) (stmDR0 (unpack p) (norm (unpack p).r))
        (stmDSigma0 (unpack p) mu) (fun j => 2 * b p * db j)) p := by
  have hr := r_ne_of_h hh
  have hR := grad_norm hr
  have hσ := grad_sigma (p := p) hmu
  obtain ⟨hb0, -, hα⟩ := hn.self_of_nhds
  have hk := (sqrt_pos.2 hmu).ne'
  have hb2 : HasGrad (fun q => b q ^ 2) (fun j => 2 * b p * db j) p :=
    ((hb.mul hb).congr_row (h := fun j => 2 * b p * db j) fun j => by ring).congr_fun (Eventually.of_forall fun q => by ring)
  have hb3 := hb.mul hb2
  have hM := (hasGrad_const (√mu * tof) p).div hb3 (by positivity)
  have hs := hσ.div hb hb0.ne'
  have hc := (hR.div hb2 (by positivity)).sub (hasGrad_const 1 p)
  obtain ⟨-, -, e3, -, -, -⟩ := ellipse_formulas hmu hh hb0 hα (anomU (unpack p) mu tof)
  have hne : 1 + sigmaOf (unpack p) mu / b p * sin (anomU (unpack p) mu tof / b p)
      + (norm (unpack p).r / b p ^ 2 - 1) * cos (anomU (unpack p) mu tof / b p) ≠ 0 := by
    have h1 := (radU_pos hmu hh (anomU (unpack p) mu tof)).ne'
    rw [e3] at h1
    intro h0
    apply h1
    have : b p ^ 2 + (norm (unpack p).r - b p ^ 2) * cos (anomU (unpack p) mu tof / b p)
        + sigmaOf (unpack p) mu * b p * sin (anomU (unpack p) mu tof / b p)
        = b p ^ 2 * (1 + sigmaOf (unpack p) mu / b p * sin (anomU (unpack p) mu tof / b p)
      + (norm (unpack p).r / b p ^ 2 - 1) * cos (anomU (unpack p) mu tof / b p)) := by
      field_simp; ring
    rw [this, h0, mul_zero]
  have key : ∀ᶠ q in 𝓝 p, ∀ e, 1 * e - √mu * tof / (b q * b q ^ 2) + sigmaOf (unpack q) mu / b q * (1 - cos e)
      + (norm (unpack q).r / b q ^ 2 - 1) * sin e = √mu / b q ^ 3 * (timeU (unpack q) mu (e * b q) - tof) := by
    filter_upwards [hn] with q ⟨h1, h2, h3⟩ e
    obtain ⟨-, -, -, -, -, h6⟩ := ellipse_formulas hmu h2 h1 h3 (e * b q)
    rw [mul_div_cancel_right₀ _ h1.ne'] at h6
    rw [mul_sub (√mu / b q ^ 3), h6]
    field_simp
    ring
  have h0 : ∀ᶠ q in 𝓝 p, 1 * (anomU (unpack q) mu tof / b q) - √mu * tof / (b q * b q ^ 2)
      + sigmaOf (unpack q) mu / b q * (1 - cos (anomU (unpack q) mu tof / b q))
      + (norm (unpack q).r / b q ^ 2 - 1) * sin (anomU (unpack q) mu tof / b q) = 0 := by
    filter_upwards [hn, key] with q ⟨h1, h2, h3⟩ hk'
    rw [hk' (anomU (unpack q) mu tof / b q), div_mul_cancel₀ _ h1.ne', timeU_anomU hmu h2]; ring
  have hcont : ContinuousAt (fun q => anomU (unpack q) mu tof / b q) p := by
    refine implicit_continuous (f := fun q e => 1 * e - √mu * tof / (b q * b q ^ 2)
      + sigmaOf (unpack q) mu / b q * (1 - cos e) + (norm (unpack q).r / b q ^ 2 - 1) * sin e) ?_ ?_ h0
    · filter_upwards [hn, key] with q ⟨h1, h2, h3⟩ hk' e1 e2 he
      simp only [hk']
      have := timeU_strictMono hmu h2 (mul_lt_mul_of_pos_right he h1)
      have hc : 0 < √mu / b q ^ 3 := by have := sqrt_pos.2 hmu; positivity
      exact mul_lt_mul_of_pos_left (by linarith) hc
    · intro e
      exact (((hasGrad_const (1 * e) p).sub hM).add (hs.mul (hasGrad_const (1 - cos e) p))).add
        (hc.mul (hasGrad_const (sin e) p)) |>.continuousAt
  have hA : ∀ e : ℝ, HasDerivAt (fun e => 1 - cos e) (sin e) e := fun e =>
    ((hasDerivAt_cos e).const_sub 1).congr_deriv (neg_neg _)
  have := grad_kepler (A := fun e => 1 - cos e) (B := sin) (A' := sin) (B' := cos)
    (X := fun q => anomU (unpack q) mu tof / b q) 1 hM hs hc hA hasDerivAt_sin hne hcont h0
  refine this.congr_row fun j => ?_
  clear this hcont h0 key hne e3 hc hs hM hb3 hb2 hσ hR
  unfold stmDDE
  generalize anomU (unpack p) mu tof / b p = E
  generalize stmDR0 _ _ = dR
  generalize stmDSigma0 _ _ = dS
  generalize norm (unpack p).r = R
  generalize sigmaOf (unpack p) mu = σ
  simp only [sqrt_sq hb0.le]
  rw [show 1 + σ / b p * sin E - (1 - R / b p ^ 2) * cos E = 1 + σ / b p * sin E + (R / b p ^ 2 - 1) * cos E by ring]
  congr 1
  have hb1 := hb0.ne'
  field_simp
  ring

theorem grad_H (tof : ℝ) {b : (Fin 6 → ℝ) → ℝ} {db : Row} (hb : HasGrad b db p)
    (hn : ∀ᶠ q in 𝓝 p, 0 < b q ∧ angMom (unpack q) ≠ 0 ∧ alphaOf (unpack q) mu = -(1 / b q) ^ 2) :
    HasGrad (fun q => anomU (unpack q) mu tof / b q)
      (stmDDH tof mu (norm (unpack p).r) (sigmaOf (unpack p) mu) (-b p ^ 2) (sigmaOf (unpack p) mu / b p)
        (1 - norm (unpack p).r / -b p ^ 2) (anomU (unpack p) mu tof / b p) (stmDR0 (unpack p) (norm (unpack p).r))
        (stmDSigma0 (unpack p) mu) (fun j => -(2 * b p * db j))) p := by
  have hr := r_ne_of_h hh
  have hR := grad_norm hr
  have hσ := grad_sigma (p := p) hmu
  obtain ⟨hb0, -, hα⟩ := hn.self_of_nhds
  have hk := (sqrt_pos.2 hmu).ne'
  have hb2 : HasGrad (fun q => b q ^ 2) (fun j => 2 * b p * db j) p :=
    ((hb.mul hb).congr_row (h := fun j => 2 * b p * db j) fun j => by ring).congr_fun (Eventually.of_forall fun q => by ring)
  have hb3 := hb.mul hb2
  have hM := (hasGrad_const (√mu * tof) p).div hb3 (by positivity)
  have hs := hσ.div hb hb0.ne'
  have hc := (hR.div hb2 (by positivity)).add (hasGrad_const 1 p)
  obtain ⟨-, -, e3, -, -, -⟩ := hyperbola_formulas hmu hh hb0 hα (anomU (unpack p) mu tof)
  have hne : -1 + sigmaOf (unpack p) mu / b p * sinh (anomU (unpack p) mu tof / b p)
      + (norm (unpack p).r / b p ^ 2 + 1) * cosh (anomU (unpack p) mu tof / b p) ≠ 0 := by
    have h1 := (radU_pos hmu hh (anomU (unpack p) mu tof)).ne'
    rw [e3] at h1
    intro h0
    apply h1
    have : -b p ^ 2 + (norm (unpack p).r - -b p ^ 2) * cosh (anomU (unpack p) mu tof / b p)
        + sigmaOf (unpack p) mu * b p * sinh (anomU (unpack p) mu tof / b p)
        = b p ^ 2 * (-1 + sigmaOf (unpack p) mu / b p * sinh (anomU (unpack p) mu tof / b p)
      + (norm (unpack p).r / b p ^ 2 + 1) * cosh (anomU (unpack p) mu tof / b p)) := by
      field_simp; ring
    rw [this, h0, mul_zero]
  have key : ∀ᶠ q in 𝓝 p, ∀ e, -1 * e - √mu * tof / (b q * b q ^ 2) + sigmaOf (unpack q) mu / b q * (cosh e - 1)
      + (norm (unpack q).r / b q ^ 2 + 1) * sinh e = √mu / b q ^ 3 * (timeU (unpack q) mu (e * b q) - tof) := by
    filter_upwards [hn] with q ⟨h1, h2, h3⟩ e
    obtain ⟨-, -, -, -, -, h6⟩ := hyperbola_formulas hmu h2 h1 h3 (e * b q)
    rw [mul_div_cancel_right₀ _ h1.ne'] at h6
    rw [mul_sub (√mu / b q ^ 3), h6]
    field_simp
    ring
  have h0 : ∀ᶠ q in 𝓝 p, -1 * (anomU (unpack q) mu tof / b q) - √mu * tof / (b q * b q ^ 2)
      + sigmaOf (unpack q) mu / b q * (cosh (anomU (unpack q) mu tof / b q) - 1)
      + (norm (unpack q).r / b q ^ 2 + 1) * sinh (anomU (unpack q) mu tof / b q) = 0 := by
    filter_upwards [hn, key] with q ⟨h1, h2, h3⟩ hk'
    rw [hk' (anomU (unpack q) mu tof / b q), div_mul_cancel₀ _ h1.ne', timeU_anomU hmu h2]; ring
  have hcont : ContinuousAt (fun q => anomU (unpack q) mu tof / b q) p := by
    refine implicit_continuous (f := fun q e => -1 * e - √mu * tof / (b q * b q ^ 2)
      + sigmaOf (unpack q) mu / b q * (cosh e - 1) + (norm (unpack q).r / b q ^ 2 + 1) * sinh e) ?_ ?_ h0
    · filter_upwards [hn, key] with q ⟨h1, h2, h3⟩ hk' e1 e2 he
      simp only [hk']
      have := timeU_strictMono hmu h2 (mul_lt_mul_of_pos_right he h1)
      have hc : 0 < √mu / b q ^ 3 := by have := sqrt_pos.2 hmu; positivity
      exact mul_lt_mul_of_pos_left (by linarith) hc
    · intro e
      exact (((hasGrad_const (-1 * e) p).sub hM).add (hs.mul (hasGrad_const (cosh e - 1) p))).add
        (hc.mul (hasGrad_const (sinh e) p)) |>.continuousAt
  have := grad_kepler (A := fun e => cosh e - 1) (B := sinh) (A' := sinh) (B' := cosh) (-1) hM hs hc
    (fun e => (hasDerivAt_cosh e).sub_const 1) hasDerivAt_sinh hne hcont h0
  refine this.congr_row fun j => ?_
  clear this hcont h0 key hne e3 hc hs hM hb3 hb2 hσ hR
  unfold stmDDH
  generalize anomU (unpack p) mu tof / b p = E
  generalize stmDR0 _ _ = dR
  generalize stmDSigma0 _ _ = dS
  generalize norm (unpack p).r = R
  generalize sigmaOf (unpack p) mu = σ
  simp only [neg_neg, sqrt_sq hb0.le]
  have hb1 := hb0.ne'
  rw [show σ / b p * sinh E + (1 - R / -b p ^ 2) * cosh E - 1
    = -1 + σ / b p * sinh E + (R / b p ^ 2 + 1) * cosh E by field_simp; ring]
  congr 1
  field_simp
  ring

omit hmu hh in
theorem stmDDE_period (tof R0 s a s0 c0 E : ℝ) (k : ℤ) (dR ds da : Row) :
    stmDDE tof mu R0 s a s0 c0 (E + k * (2 * π)) dR ds da = stmDDE tof mu R0 s a s0 c0 E dR ds da := by
  unfold stmDDE
  simp only [sin_add_int_mul_two_pi, cos_add_int_mul_two_pi]

omit hmu hh in
theorem stmDiffE_period (R0 Rf s a E F : ℝ) (k : ℤ) (dR ds da dE : Row) :
    stmDiffE mu R0 Rf s a (E + k * (2 * π)) F dR ds da dE = stmDiffE mu R0 Rf s a E F dR ds da dE := by
  unfold stmDiffE
  simp only [sin_add_int_mul_two_pi, cos_add_int_mul_two_pi]

/-- The six rows of the assembly. -/
def rowsOf (x : RV ℝ) (F G Ft Gt : ℝ) (d : DCoeff) : Fin 6 → Row :=
  ![stmRows x F G d.dF d.dG 0, stmRows x F G d.dF d.dG 1, stmRows x F G d.dF d.dG 2,
    stmRows x Ft Gt d.dFt d.dGt 0, stmRows x Ft Gt d.dFt d.dGt 1, stmRows x Ft Gt d.dFt d.dGt 2]

/-- Rows of the Jacobian from the differentials of the coefficients. -/
theorem grad_rows {tof : ℝ} {F G Ft Gt : (Fin 6 → ℝ) → ℝ} {d : DCoeff}
    (hF : HasGrad F d.dF p) (hG : HasGrad G d.dG p) (hFt : HasGrad Ft d.dFt p) (hGt : HasGrad Gt d.dGt p)
    (h : ∀ᶠ q in 𝓝 p, FU (unpack q) mu (anomU (unpack q) mu tof) = F q ∧ GU (unpack q) mu (anomU (unpack q) mu tof) = G q
      ∧ FtU (unpack q) mu (anomU (unpack q) mu tof) = Ft q ∧ GtU (unpack q) mu (anomU (unpack q) mu tof) = Gt q)
    (i : Fin 6) :
    HasGrad (fun q => pack (kepFlow (unpack q) mu tof) i)
      (rowsOf (unpack p) (F p) (G p) (Ft p) (Gt p) d i) p := by
  obtain ⟨h1, h2, h3⟩ := grad_assemble hF hG
  obtain ⟨h4, h5, h6⟩ := grad_assemble hFt hGt
  have key : ∀ᶠ q in 𝓝 p, pack (kepFlow (unpack q) mu tof) = ![F q * q 0 + G q * q 3, F q * q 1 + G q * q 4,
      F q * q 2 + G q * q 5, Ft q * q 0 + Gt q * q 3, Ft q * q 1 + Gt q * q 4, Ft q * q 2 + Gt q * q 5] := by
    filter_upwards [h] with q ⟨e1, e2, e3, e4⟩
    unfold kepFlow stateU
    rw [e1, e2, e3, e4]
    rfl
  fin_cases i
  · exact h1.congr_fun (key.mono fun q e => congrFun e 0)
  · exact h2.congr_fun (key.mono fun q e => congrFun e 1)
  · exact h3.congr_fun (key.mono fun q e => congrFun e 2)
  · exact h4.congr_fun (key.mono fun q e => congrFun e 3)
  · exact h5.congr_fun (key.mono fun q e => congrFun e 4)
  · exact h6.congr_fun (key.mono fun q e => congrFun e 5)

/-- The Jacobian of the exact motion, in the form of the code. -/
theorem jac_E (hE : energy (unpack p) mu < 0) :
    ∃ b : ℝ, 0 < b ∧ alphaOf (unpack p) mu = (1 / b) ^ 2 ∧ ∀ (tof : ℝ) (i : Fin 6),
      HasGrad (fun q => pack (kepFlow (unpack q) mu tof) i)
        (rowsOf (unpack p) (FU (unpack p) mu (anomU (unpack p) mu tof)) (GU (unpack p) mu (anomU (unpack p) mu tof))
          (FtU (unpack p) mu (anomU (unpack p) mu tof)) (GtU (unpack p) mu (anomU (unpack p) mu tof))
          (stmDiffE mu (norm (unpack p).r) (radU (unpack p) mu (anomU (unpack p) mu tof)) (sigmaOf (unpack p) mu)
            (b ^ 2) (anomU (unpack p) mu tof / b) (FU (unpack p) mu (anomU (unpack p) mu tof))
            (stmDR0 (unpack p) (norm (unpack p).r)) (stmDSigma0 (unpack p) mu)
            (stmDa (unpack p) mu (norm (unpack p).r) (energy (unpack p) mu))
            (stmDDE tof mu (norm (unpack p).r) (sigmaOf (unpack p) mu) (b ^ 2) (sigmaOf (unpack p) mu / b)
              (1 - norm (unpack p).r / b ^ 2) (anomU (unpack p) mu tof / b)
              (stmDR0 (unpack p) (norm (unpack p).r)) (stmDSigma0 (unpack p) mu)
              (stmDa (unpack p) mu (norm (unpack p).r) (energy (unpack p) mu)))) i) p := by
  obtain ⟨b, db, hb, hn, hbp, hda⟩ := ellipse_near hmu hh hE
  obtain ⟨hb0, -, hα⟩ := hn.self_of_nhds
  refine ⟨b p, hb0, hα, fun tof i => ?_⟩
  have hE' := grad_E hmu hh tof hb hn
  have ef := ellipse_formulas hmu hh hb0 hα (anomU (unpack p) mu tof)
  have hR0 := (norm_pos (r_ne_of_h hh)).ne'
  obtain ⟨g1, g2, g3, g4⟩ := grad_coeffE mu (grad_norm (r_ne_of_h hh)) (grad_sigma hmu) hb hE' hR0 hb0 hmu
    (ef.2.2.1) (radU_ne hmu hh _) ef.1 rfl
  have hrows := grad_rows hmu hh g1 g2 g3 g4 (hn.mono fun q ⟨a1, a2, a3⟩ => by
    obtain ⟨f1, f2, f3, f4, f5, -⟩ := ellipse_formulas hmu a2 a1 a3 (anomU (unpack q) mu tof)
    rw [f3] at f4 f5
    exact ⟨f1, f2, f4, f5⟩) i
  have hda' : (fun j => 2 * b p * db j) = stmDa (unpack p) mu (norm (unpack p).r) (energy (unpack p) mu) := funext hda
  rw [hda'] at hrows
  have e4 := ef.2.2.2.1
  have e5 := ef.2.2.2.2.1
  rw [ef.2.2.1] at e4 e5
  beta_reduce at hrows
  rw [← ef.1, ← ef.2.1, ← e4, ← e5] at hrows
  exact hrows

theorem stm_jac_E (sv : Solver) (hsv : sv.Sound) (tof : ℝ) {l : Lagr} (hl : lagr sv (unpack p) tof mu = .ok (some l))
    (hE : energy (unpack p) mu < 0) (i : Fin 6) :
    HasGrad (fun q => pack (kepFlow (unpack q) mu tof) i) (stmLagrangian (unpack p) tof mu l i) p := by
  obtain ⟨b, hb0, hα, hj⟩ := jac_E hmu hh hE
  have hb1 : 0 < 1 / b := by positivity
  have hk := (sqrt_pos.2 hmu).ne'
  rcases lagr_ellipse hmu hh sv hsv tof hb1 hα with ⟨h, -⟩ | ⟨E, k, ht, h⟩
  · rw [hl] at h; exact absurd h (by simp)
  rw [hl] at h
  -- the anomaly of the code is the exact one up to whole revolutions
  have hEk : E = anomU (unpack p) mu tof / b + k * (2 * π) := by
    have h1 := (timeU_period_int hmu hh hb1 hα (anomU (unpack p) mu tof) k).1
    rw [timeU_anomU hmu hh, ← ht] at h1
    have h2 := (timeU_strictMono hmu hh).injective h1
    field_simp at h2 ⊢
    linarith
  have ef := ellipse_formulas hmu hh hb0 hα (anomU (unpack p) mu tof)
  have ef' := ellipse_formulas hmu hh hb0 hα (E / (1 / b))
  have hEb : E / (1 / b) / b = E := by field_simp
  have hc : cos E = cos (anomU (unpack p) mu tof / b) := by rw [hEk, cos_add_int_mul_two_pi]
  have hsn : sin E = sin (anomU (unpack p) mu tof / b) := by rw [hEk, sin_add_int_mul_two_pi]
  rw [hEb, hc, hsn] at ef'
  have hRf : radU (unpack p) mu (E / (1 / b)) = radU (unpack p) mu (anomU (unpack p) mu tof) := by
    rw [ef'.2.2.1, ef.2.2.1]
  have e1 := ef'.1.trans ef.1.symm
  have e2 := ef'.2.1.trans ef.2.1.symm
  have e3 := ef'.2.2.2.1
  rw [hRf, ← ef.2.2.2.1] at e3
  have e4 := ef'.2.2.2.2.1
  rw [hRf, ← ef.2.2.2.2.1] at e4
  have hl' := Option.some.inj (Res.ok.inj h)
  have ha : 1 / (1 / b) ^ 2 = b ^ 2 := by field_simp
  rw [e1, e2, e3, e4, hRf, ha] at hl'
  rw [hl']
  unfold stmLagrangian
  simp only
  rw [if_pos (by positivity), hEk, stmDDE_period, stmDiffE_period,
      show sigmaOf (unpack p) mu * (1 / b) = sigmaOf (unpack p) mu / b by ring,
      show 1 - norm (unpack p).r * (1 / b) ^ 2 = 1 - norm (unpack p).r / b ^ 2 by ring]
  exact hj tof i

/-- The Jacobian of the exact motion, in the form of the code. -/
theorem jac_H (hE : 0 < energy (unpack p) mu) :
    ∃ b : ℝ, 0 < b ∧ alphaOf (unpack p) mu = -(1 / b) ^ 2 ∧ ∀ (tof : ℝ) (i : Fin 6),
      HasGrad (fun q => pack (kepFlow (unpack q) mu tof) i)
        (rowsOf (unpack p) (FU (unpack p) mu (anomU (unpack p) mu tof)) (GU (unpack p) mu (anomU (unpack p) mu tof))
          (FtU (unpack p) mu (anomU (unpack p) mu tof)) (GtU (unpack p) mu (anomU (unpack p) mu tof))
          (stmDiffH mu (norm (unpack p).r) (radU (unpack p) mu (anomU (unpack p) mu tof)) (sigmaOf (unpack p) mu)
            (-b ^ 2) (anomU (unpack p) mu tof / b) (FU (unpack p) mu (anomU (unpack p) mu tof))
            (stmDR0 (unpack p) (norm (unpack p).r)) (stmDSigma0 (unpack p) mu)
            (stmDa (unpack p) mu (norm (unpack p).r) (energy (unpack p) mu))
            (stmDDH tof mu (norm (unpack p).r) (sigmaOf (unpack p) mu) (-b ^ 2) (sigmaOf (unpack p) mu / b)
              (1 - norm (unpack p).r / -b ^ 2) (anomU (unpack p) mu tof / b)
              (stmDR0 (unpack p) (norm (unpack p).r)) (stmDSigma0 (unpack p) mu)
              (stmDa (unpack p) mu (norm (unpack p).r) (energy (unpack p) mu)))) i) p := by
  obtain ⟨b, db, hb, hn, hbp, hda⟩ := hyperbola_near hmu hh hE
  obtain ⟨hb0, -, hα⟩ := hn.self_of_nhds
  refine ⟨b p, hb0, hα, fun tof i => ?_⟩
  have hE' := grad_H hmu hh tof hb hn
  have ef := hyperbola_formulas hmu hh hb0 hα (anomU (unpack p) mu tof)
  have hR0 := (norm_pos (r_ne_of_h hh)).ne'
  obtain ⟨g1, g2, g3, g4⟩ := grad_coeffH mu (grad_norm (r_ne_of_h hh)) (grad_sigma hmu) hb hE' hR0 hb0 hmu
    (ef.2.2.1) (radU_ne hmu hh _) ef.1 rfl
  have hrows := grad_rows hmu hh g1 g2 g3 g4 (hn.mono fun q ⟨a1, a2, a3⟩ => by
    obtain ⟨f1, f2, f3, f4, f5, -⟩ := hyperbola_formulas hmu a2 a1 a3 (anomU (unpack q) mu tof)
    rw [f3] at f4 f5
    exact ⟨f1, f2, f4, f5⟩) i
  have hda' : (fun j => -(2 * b p * db j)) = stmDa (unpack p) mu (norm (unpack p).r) (energy (unpack p) mu) := funext hda
  rw [hda'] at hrows
  have e4 := ef.2.2.2.1
  have e5 := ef.2.2.2.2.1
  rw [ef.2.2.1] at e4 e5
  beta_reduce at hrows
  rw [← ef.1, ← ef.2.1, ← e4, ← e5] at hrows
  exact hrows

theorem stm_jac_H (sv : Solver) (hsv : sv.Sound) (tof : ℝ) {l : Lagr} (hl : lagr sv (unpack p) tof mu = .ok (some l))
    (hE : 0 < energy (unpack p) mu) (hrg : HypRange (unpack p) mu tof) (i : Fin 6) :
    HasGrad (fun q => pack (kepFlow (unpack q) mu tof) i) (stmLagrangian (unpack p) tof mu l i) p := by
  obtain ⟨b, hb0, hα, hj⟩ := jac_H hmu hh hE
  have hb1 : 0 < 1 / b := by positivity
  have hk := (sqrt_pos.2 hmu).ne'
  have hrg := hrg hE
  rw [hα, neg_neg, sqrt_sq hb1.le] at hrg
  have habs : |√mu * (1 / b) ^ 3 * tof| ≤ 10 ^ 10 := by
    rw [abs_mul, abs_of_pos (by positivity : 0 < √mu * (1 / b) ^ 3)]; linarith
  rcases lagr_hyperbola hmu hh sv hsv tof hb1 hα habs with ⟨h, -⟩ | ⟨E, ht, h⟩
  · rw [hl] at h; exact absurd h (by simp)
  rw [hl] at h
  have hs : E / (1 / b) = anomU (unpack p) mu tof := (anomU_eq hmu hh ht).symm
  have hEk : E = anomU (unpack p) mu tof / b := by rw [← hs]; field_simp
  have hl' := Option.some.inj (Res.ok.inj h)
  have ha : -(1 / (1 / b) ^ 2) = -b ^ 2 := by field_simp
  have hneg : 0 < b ^ 2 := by positivity
  rw [hs, ha] at hl'
  rw [hl']
  unfold stmLagrangian
  simp only
  rw [if_neg (by linarith), hEk,
      show sigmaOf (unpack p) mu * (1 / b) = sigmaOf (unpack p) mu / b by ring,
      show 1 + norm (unpack p).r * (1 / b) ^ 2 = 1 - norm (unpack p).r / -b ^ 2 by field_simp; ring]
  exact hj tof i

/-- The matrix computed by the code is the Jacobian of the exact two-body motion. -/
theorem stm_jac (sv : Solver) (hsv : sv.Sound) (tof : ℝ) {l : Lagr} (hl : lagr sv (unpack p) tof mu = .ok (some l))
    (hrg : HypRange (unpack p) mu tof) (i : Fin 6) :
    HasGrad (fun q => pack (kepFlow (unpack q) mu tof) i) (stmLagrangian (unpack p) tof mu l i) p := by
  rcases lt_trichotomy (energy (unpack p) mu) 0 with h | h | h
  · exact stm_jac_E hmu hh sv hsv tof hl h i
  · have hα : alphaOf (unpack p) mu = 0 := by
      rw [energy_alpha hmu hh] at h
      rcases mul_eq_zero.1 h with h | h
      · linarith
      · exact h
    rw [lagr_parabola_eq hmu hh sv tof hα] at hl
    simp at hl
  · exact stm_jac_H hmu hh sv hsv tof hl h hrg i

end

end Kep3
