import Verif.Lagr.Props97

/-!
# C97: propagation along ellipses in double precision: the coefficients and the state
-/

namespace Kep3
open Real V3 Fl

/-! ## The Lagrange coefficients -/

theorem Err.exact (x : ℝ) {p : ℝ} (hp : 0 ≤ p) : Err p |x| x x := ⟨le_refl _, by rw [sub_self, abs_zero]; positivity⟩

/-- The computed coefficients when all divisions have denominators. -/
theorem coeffED_run {A : Libm} (hA : A.Double) {mu R' σ' a' s' DE : ℝ} (hmu : 0 < mu) (hR : 0 < R') (ha : 0 < a') {Rf : ℝ}
    (hRf : Rf = rn (rn (a' + rn (rn (R' - a') * A.cos DE)) + rn (rn (σ' * s') * A.sin DE))) (hf : 0 < Rf) :
    coeffED A mu R' σ' a' s' DE = some
      { F := rn (1 - rn (rn (a' / R') * rn (1 - A.cos DE)))
        G := rn (rn (rn (rn (a' * σ') / rn √mu) * rn (1 - A.cos DE)) + rn (rn (R' * rn √(rn (a' / mu))) * A.sin DE))
        Ft := rn (rn (-rn √(rn (mu * a')) / rn (Rf * R')) * A.sin DE)
        Gt := rn (1 - rn (rn (a' / Rf) * rn (1 - A.cos DE))) } := by
  have hu := u_pos
  have hus := u_small
  have pos : ∀ {t : ℝ}, 0 < t → 0 < rn t := fun {t} ht => Within.pos (a := u) (rn_err' t) (by linarith) ht
  have sq : ∀ {t : ℝ}, 0 < t → A.sqrt? t = some (rn √t) := by
    intro t ht
    unfold Arith.sqrt?
    rw [hA.arith.rd, sqrt?_ok ht.le]; rfl
  unfold coeffED
  dsimp only
  rw [hA.arith.rd, ← hRf, dbl_div hA hR.ne', dbl_div hA (pos (sqrt_pos.2 hmu)).ne', dbl_div hA hmu.ne', dbl_div hA hf.ne']
  simp only [Option.bind_eq_bind, Option.bind_some]
  rw [sq (pos (by positivity)), sq (pos (by positivity)), Option.bind_some, Option.bind_some, dbl_div hA (pos (by positivity)).ne']
  rfl

/-- The data of a step along an ellipse, in exact arithmetic and as computed: `1 / b²` is the semi-major axis, `κ / b²` the final distance. -/
structure StepE (mu b R σ E κ ζ a' R' σ' s' DE : ℝ) : Prop where
  mu0 : 0 < mu
  b0 : 0 < b
  r0 : 0 < R
  ρ2 : R * b ^ 2 ≤ 2
  κ0 : 0 < κ
  κ2 : κ ≤ 2
  hκ : κ = 1 + (R * b ^ 2 - 1) * cos E + σ * b * sin E
  ζu : 16 * u ≤ ζ
  ζs : ζ ≤ 1 / 1000
  ea : Within ζ (1 / b ^ 2) a'
  eR : Near 4.04 R R'
  eσ : Err ζ (1 / b) σ σ'
  es : Within (1.1 * ζ) (1 / b) s'
  ecos : |cos DE - cos E| ≤ ζ
  esin : |sin DE - sin E| ≤ ζ

namespace StepE
variable {A : Libm} (hA : A.Double) {mu b R σ E κ ζ a' R' σ' s' DE : ℝ} (h : StepE mu b R σ E κ ζ a' R' σ' s' DE)
include hA h

theorem c1 : Err (0.625 * ζ) 2 (1 - cos E) (rn (1 - A.cos DE)) := by
  have hu := u_pos
  obtain ⟨-, -, ec⟩ := cosD_err hA DE
  refine ⟨abs_le.2 ⟨by linarith [cos_le_one E], by linarith [neg_one_le_cos E]⟩, ?_⟩
  have := h.ecos
  have := h.ζu
  have t := abs_sub_le (rn (1 - A.cos DE)) (1 - cos DE) (1 - cos E)
  rw [show 1 - cos DE - (1 - cos E) = -(cos DE - cos E) by ring, abs_neg] at t
  linarith

theorem cc : Err (1.13 * ζ) 1 (cos E) (A.cos DE) := by
  refine ⟨abs_cos_le_one _, ?_⟩
  have := h.ecos
  have := h.ζu
  have := cos_err hA DE
  have t := abs_sub_le (A.cos DE) (cos DE) (cos E)
  linarith [u_pos]

theorem ss : Err (1.25 * ζ) 1 (sin E) (A.sin DE) := by
  refine ⟨abs_sin_le_one _, ?_⟩
  have := h.esin
  have := h.ζu
  have := sin_err hA DE
  have t := abs_sub_le (A.sin DE) (sin DE) (sin E)
  linarith [u_pos]

omit hA in
theorem a0 : 0 < a' := h.ea.pos (by linarith [h.ζs]) (by have := h.b0; positivity)

omit hA in
theorem R0 : 0 < R' := h.eR.pos h.r0

omit hA in
theorem wR : Within (4.04 * u) R R' := h.eR.within

/-- `F`. -/
theorem F : Err (2.2 * ζ) (4 / (R * b ^ 2)) (1 - 1 / (R * b ^ 2) * (1 - cos E)) (rn (1 - rn (rn (a' / R') * rn (1 - A.cos DE)))) := by
  have hu := u_pos
  have hus := u_small
  have h1 := h.ζu
  have h2 := h.ζs
  have hb := h.b0
  have hR := h.r0
  have hρ : 0 < R * b ^ 2 := by positivity
  have w := ((h.ea.mul (h.wR.inv (by linarith) (by linarith) hR) (by linarith)).rn (by linarith)).mono (show _ ≤ 1.4 * ζ by linarith)
  rw [← div_eq_mul_inv a', show 1 / b ^ 2 * R⁻¹ = 1 / (R * b ^ 2) by field_simp] at w
  have e := ((Err.of_within w (le_refl _) (by linarith)).mul (h.c1 hA) (by linarith)).rn (by linarith)
  rw [abs_of_pos (show 0 < 1 / (R * b ^ 2) by positivity)] at e
  have e := e.mono (show _ ≤ 2.12 * ζ by linarith)
  have z0 : 0 ≤ ζ := by linarith
  have o : Err (2.12 * ζ) (2 / (R * b ^ 2)) 1 1 := by
    refine ⟨?_, by rw [sub_self, abs_zero]; positivity⟩
    rw [abs_one, le_div_iff₀ hρ]; linarith [h.ρ2]
  have f := ((o.sub e).rn (by linarith)).mono (show _ ≤ 2.2 * ζ by linarith)
  rwa [show 2 / (R * b ^ 2) + 1 / (R * b ^ 2) * 2 = 4 / (R * b ^ 2) by ring] at f

/-- `G`. -/
theorem G : Err (3.1 * ζ) (4 / (√mu * b ^ 3)) (1 / b ^ 2 * σ / √mu * (1 - cos E) + R * (1 / (√mu * b)) * sin E)
    (rn (rn (rn (rn (a' * σ') / rn √mu) * rn (1 - A.cos DE)) + rn (rn (R' * rn √(rn (a' / mu))) * A.sin DE))) := by
  have hu := u_pos
  have hus := u_small
  have h1 := h.ζu
  have h2 := h.ζs
  have hb := h.b0
  have hR := h.r0
  have hk := sqrt_pos.2 h.mu0
  have hk' : Within u (√mu) (rn √mu) := rn_err' _
  have hb2 : 0 < 1 / b ^ 2 := by positivity
  have e1 := ((Err.of_within h.ea (le_refl _) (by linarith)).mul h.eσ (by linarith)).rn (by linarith)
  have e2 := (e1.mul (Err.of_within (hk'.inv hu.le (by linarith) hk) (le_refl _) (by linarith)) (by linarith)).rn (by linarith)
  have e3 := ((e2.mul (h.c1 hA) (by linarith)).rn (by linarith)).mono (show _ ≤ 2.95 * ζ by linarith)
  rw [abs_of_pos hb2, abs_of_pos (inv_pos.2 hk), ← div_eq_mul_inv, ← div_eq_mul_inv, ← div_eq_mul_inv] at e3
  have w0 : Within 0 mu⁻¹ mu⁻¹ := by unfold Within; simp
  have w1 := (((h.ea.mul w0 (by linarith)).rn (by linarith)).sqrt (by linarith) (by linarith) (by have := h.mu0; positivity)).rn (by linarith)
  have w2 := ((h.wR.mul w1 (by linarith)).rn (by linarith)).mono (show _ ≤ 1.5 * ζ by linarith)
  have e : √(1 / b ^ 2 * mu⁻¹) = 1 / (√mu * b) := by
    rw [sqrt_mul hb2.le, sqrt_a hb, sqrt_inv]; field_simp
  rw [e, ← div_eq_mul_inv a'] at w2
  have hX : |R * (1 / (√mu * b))| ≤ 2 / (√mu * b ^ 3) := by
    rw [abs_of_pos (by positivity), mul_one_div, div_le_div_iff₀ (by positivity) (by positivity)]
    have : R * (√mu * b ^ 3) = R * b ^ 2 * (√mu * b) := by ring
    rw [this]
    exact mul_le_mul_of_nonneg_right h.ρ2 (by positivity)
  have e4 := (((Err.of_within w2 hX (by linarith)).mul (h.ss hA) (by linarith)).rn (by linarith)).mono (show _ ≤ 2.95 * ζ by linarith)
  have e5 := ((e3.add e4).rn (by linarith)).mono (show _ ≤ 3.1 * ζ by linarith)
  rwa [show 1 / b ^ 2 * (1 / b) / √mu * 2 + 2 / (√mu * b ^ 3) * 1 = 4 / (√mu * b ^ 3) by field_simp; norm_num] at e5

/-- The final distance. -/
theorem Rf : |rn (rn (a' + rn (rn (R' - a') * A.cos DE)) + rn (rn (σ' * s') * A.sin DE)) - κ * (1 / b ^ 2)| ≤ 11 * ζ * (1 / b ^ 2) := by
  have hu := u_pos
  have hus := u_small
  have h1 := h.ζu
  have h2 := h.ζs
  have hb := h.b0
  have hR := h.r0
  have hb2 : 0 < 1 / b ^ 2 := by positivity
  have hb1 : 0 < 1 / b := by positivity
  have hR2 : R ≤ 2 * (1 / b ^ 2) := by rw [mul_one_div, le_div_iff₀ (by positivity)]; exact h.ρ2
  have d1 : Err (1.51 * ζ) (1 / b ^ 2) (R - 1 / b ^ 2) (R' - a') := by
    refine ⟨abs_le.2 ⟨by linarith, by linarith⟩, ?_⟩
    have t1 := h.eR.abs_le
    have t2 := h.ea
    unfold Within at t2
    rw [abs_of_pos hb2] at t2
    have t3 := abs_sub (R' - R) (a' - 1 / b ^ 2)
    rw [show R' - R - (a' - 1 / b ^ 2) = R' - a' - (R - 1 / b ^ 2) by ring] at t3
    have t4 : 4.04 * u * R ≤ 0.51 * ζ * (1 / b ^ 2) := by
      calc 4.04 * u * R ≤ 4.04 * u * (2 * (1 / b ^ 2)) := mul_le_mul_of_nonneg_left hR2 (by positivity)
        _ = 8.08 * u * (1 / b ^ 2) := by ring
        _ ≤ _ := mul_le_mul_of_nonneg_right (by linarith) hb2.le
    linarith
  have d2 := (((d1.rn (by linarith)).mul (h.cc hA) (by linarith)).rn (by linarith)).mono (show _ ≤ 2.9 * ζ by linarith)
  have d3 := (((Err.of_within h.ea (le_refl _) (by linarith)).mono (show _ ≤ 2.9 * ζ by linarith)).add d2).rn (by linarith)
  have d4 := (h.eσ.mul (Err.of_within h.es (le_refl _) (by linarith)) (by linarith)).rn (by linarith)
  have d5 := ((d4.mul (h.ss hA) (by linarith)).rn (by linarith)).mono (show _ ≤ 3.56 * ζ by linarith)
  have d6 := (((d3.mono (show _ ≤ 3.56 * ζ by linarith)).add d5).rn (by linarith)).mono (show _ ≤ 3.65 * ζ by linarith)
  rw [abs_of_pos hb2, abs_of_pos hb1] at d6
  have d7 := d6.2
  rw [show 1 / b ^ 2 + (R - 1 / b ^ 2) * cos E + σ * (1 / b) * sin E = κ * (1 / b ^ 2) by rw [h.hκ]; field_simp,
    show 1 / b ^ 2 + 1 / b ^ 2 * 1 + 1 / b * (1 / b) * 1 = 3 * (1 / b ^ 2) by field_simp; norm_num] at d7
  refine d7.trans ?_
  have : 0 < ζ * (1 / b ^ 2) := by have : 0 < ζ := by linarith
                                   positivity
  linarith

variable {ξ rf : ℝ} (hξ : ξ * κ = 11 * ζ) (hξs : ξ ≤ 1 / 200) (hrf : Within ξ (κ * (1 / b ^ 2)) rf)
include hξ hξs hrf

omit hA hξs hrf in
theorem ζξ : ζ ≤ 2 / 11 * ξ := by
  have h1 := h.ζu
  have := h.κ0
  have := h.κ2
  have hu := u_pos
  have : 0 < ξ := by by_contra hc; have := mul_nonpos_of_nonpos_of_nonneg (not_lt.1 hc) h.κ0.le; linarith
  nlinarith

/-- `Ft`. -/
theorem Ft : Err (1.7 * ξ) (√mu * b ^ 3 / (κ * (R * b ^ 2))) (-(√mu * (1 / b)) / (κ * (1 / b ^ 2) * R) * sin E)
    (rn (rn (-rn √(rn (mu * a')) / rn (rf * R')) * A.sin DE)) := by
  have hu := u_pos
  have hus := u_small
  have h1 := h.ζu
  have h2 := h.ζs
  have h3 := h.ζξ hξ
  have hb := h.b0
  have hR := h.r0
  have hκ := h.κ0
  have hk := sqrt_pos.2 h.mu0
  have hb2 : 0 < 1 / b ^ 2 := by positivity
  have hr : 0 < κ * (1 / b ^ 2) := by positivity
  have w0 : Within 0 mu mu := by unfold Within; simp
  have w1 := (((w0.mul h.ea (by norm_num)).rn (by linarith)).sqrt (by linarith) (by linarith) (by have := h.mu0; positivity)).rn (by linarith)
  have e : √(mu * (1 / b ^ 2)) = √mu * (1 / b) := by rw [sqrt_mul h.mu0.le, sqrt_a hb]
  rw [e] at w1
  have w2 := ((hrf.mul h.wR (by linarith)).rn (by linarith)).inv (by linarith) (by linarith) (by positivity)
  have w3 := ((w1.mul w2 (by linarith)).rn (by linarith)).mono (show _ ≤ 1.4 * ξ by linarith)
  rw [← div_eq_mul_inv, ← div_eq_mul_inv] at w3
  have hX : |√mu * (1 / b) / (κ * (1 / b ^ 2) * R)| ≤ √mu * b ^ 3 / (κ * (R * b ^ 2)) := by
    rw [abs_of_pos (by positivity)]
    apply le_of_eq
    field_simp
  have e4 := (((Err.of_within w3 hX (by linarith)).neg.mul (h.ss hA) (by linarith)).rn (by linarith)).mono (show _ ≤ 1.7 * ξ by linarith)
  rwa [← rn_neg, ← neg_div, ← neg_div, mul_one] at e4

/-- `Gt`. -/
theorem Gt : Err (1.5 * ξ) (4 / κ) (1 - 1 / b ^ 2 / (κ * (1 / b ^ 2)) * (1 - cos E)) (rn (1 - rn (rn (a' / rf) * rn (1 - A.cos DE)))) := by
  have hu := u_pos
  have hus := u_small
  have h1 := h.ζu
  have h2 := h.ζs
  have h3 := h.ζξ hξ
  have hb := h.b0
  have hκ := h.κ0
  have hb2 : 0 < 1 / b ^ 2 := by positivity
  have hr : 0 < κ * (1 / b ^ 2) := by positivity
  have w := ((h.ea.mul (hrf.inv (by linarith) (by linarith) hr) (by linarith)).rn (by linarith)).mono (show _ ≤ 1.25 * ξ by linarith)
  rw [← div_eq_mul_inv, ← div_eq_mul_inv] at w
  have hX : |1 / b ^ 2 / (κ * (1 / b ^ 2))| ≤ 1 / κ := by
    rw [abs_of_pos (by positivity)]; apply le_of_eq; field_simp
  have e := (((Err.of_within w hX (by linarith)).mul (h.c1 hA) (by linarith)).rn (by linarith)).mono (show _ ≤ 1.45 * ξ by linarith)
  have o : Err (1.45 * ξ) (2 / κ) 1 1 := by
    refine ⟨?_, by rw [sub_self, abs_zero]; have : 0 ≤ ξ := by linarith
                   positivity⟩
    rw [abs_one, le_div_iff₀ hκ]; linarith [h.κ2]
  have f := ((o.sub e).rn (by linarith)).mono (show _ ≤ 1.5 * ξ by linarith)
  rwa [show 2 / κ + 1 / κ * 2 = 4 / κ by ring] at f

end StepE

end Kep3
