import Verif.Lagr.Props97b
import Verif.Lagr.Joint
import Verif.Lagr.Unique
import Verif.Flyby.Props94
import Verif.Planet.Keplerian

/-!
# C97: propagation along ellipses in double precision

`propagate_lagrangian`, and with it the Keplerian planets, against the exact two-body motion.
-/

namespace Kep3
open Real V3 Fl

/-! ## The state -/

/-- Errors of a combination of two vectors. -/
theorem norm_comb {d x v : V3 ℝ} {α β : ℝ} (hα : 0 ≤ α) (hβ : 0 ≤ β) (h1 : |d.x| ≤ α * |x.x| + β * |v.x|) (h2 : |d.y| ≤ α * |x.y| + β * |v.y|)
    (h3 : |d.z| ≤ α * |x.z| + β * |v.z|) : norm d ≤ α * norm x + β * norm v := by
  have e : ∀ a : V3 ℝ, norm (⟨|a.x|, |a.y|, |a.z|⟩ : V3 ℝ) = norm a := by intro a; simp [V3.norm, V3.dot]
  have t := norm_add_le' (α • (⟨|x.x|, |x.y|, |x.z|⟩ : V3 ℝ)) (β • (⟨|v.x|, |v.y|, |v.z|⟩ : V3 ℝ))
  rw [norm_smul_pos hα, norm_smul_pos hβ, e, e] at t
  refine le_trans ?_ t
  rw [← e d]
  unfold V3.norm V3.dot
  apply sqrt_le_sqrt
  simp only [V3.add_x, V3.add_y, V3.add_z, V3.smul_x, V3.smul_y, V3.smul_z]
  have m : ∀ {p q : ℝ}, |p| ≤ q → |p| * |p| ≤ q * q := fun {p q} h => mul_le_mul h h (abs_nonneg _) ((abs_nonneg _).trans h)
  have := m h1
  have := m h2
  have := m h3
  linarith

/-- A component of the final state. -/
theorem state_comp_err {p X Z f f' g g' s t : ℝ} (hp : 16 * u ≤ p) (hps : p ≤ 1 / 110) (hf : Err p X f f') (hg : Err p Z g g') :
    |rn (rn (f' * s) + rn (g' * t)) - (f * s + g * t)| ≤ 1.2 * p * X * |s| + 1.2 * p * Z * |t| := by
  have hu := u_pos
  have e1 := (hf.mul (Err.exact s (le_refl 0)) (by linarith)).rn (by linarith)
  have e2 := (hg.mul (Err.exact t (le_refl 0)) (by linarith)).rn (by linarith)
  have e3 := ((e1.add e2).rn (by linarith)).mono (show _ ≤ 1.2 * p by linarith)
  have := e3.2
  linarith

/-- The final state from the coefficients. -/
theorem stateD_near {A : Libm} (hA : A.Double) {q q' : FG} {x : RV ℝ} {p p' X Z X' Z' : ℝ} (hp : 16 * u ≤ p) (hps : p ≤ 1 / 110) (hp' : 16 * u ≤ p') (hps' : p' ≤ 1 / 110)
    (hF : Err p X q.F q'.F) (hG : Err p Z q.G q'.G) (hFt : Err p' X' q.Ft q'.Ft) (hGt : Err p' Z' q.Gt q'.Gt) :
    norm ((q'.stateD A x).r - (q.F • x.r + q.G • x.v)) ≤ 1.2 * p * (X * norm x.r + Z * norm x.v) ∧
    norm ((q'.stateD A x).v - (q.Ft • x.r + q.Gt • x.v)) ≤ 1.2 * p' * (X' * norm x.r + Z' * norm x.v) := by
  have hu := u_pos
  have hX := hF.scale_nonneg
  have hZ := hG.scale_nonneg
  have hX' := hFt.scale_nonneg
  have hZ' := hGt.scale_nonneg
  have p0 : 0 ≤ p := by linarith
  have p0' : 0 ≤ p' := by linarith
  unfold FG.stateD
  rw [hA.arith.rd]
  constructor
  · refine (norm_comb (α := 1.2 * p * X) (β := 1.2 * p * Z) (x := x.r) (v := x.v) (by positivity) (by positivity) ?_ ?_ ?_).trans (le_of_eq (by ring))
    all_goals exact state_comp_err hp hps hF hG
  · refine (norm_comb (α := 1.2 * p' * X') (β := 1.2 * p' * Z') (x := x.r) (v := x.v) (by positivity) (by positivity) ?_ ?_ ?_).trans (le_of_eq (by ring))
    all_goals exact state_comp_err hp' hps' hFt hGt

/-- The coefficients and the state after a step. -/
theorem StepE.state {A : Libm} (hA : A.Double) {x : RV ℝ} {mu b σ E κ ζ a' R' σ' s' DE : ℝ} (h : StepE mu b (norm x.r) σ E κ ζ a' R' σ' s' DE) (hκ : 2200 * ζ ≤ κ)
    {y : RV ℝ} (hr : y.r = (1 - 1 / (norm x.r * b ^ 2) * (1 - cos E)) • x.r + (1 / b ^ 2 * σ / √mu * (1 - cos E) + norm x.r * (1 / (√mu * b)) * sin E) • x.v)
    (hv : y.v = (-(√mu * (1 / b)) / (κ * (1 / b ^ 2) * norm x.r) * sin E) • x.r + (1 - 1 / b ^ 2 / (κ * (1 / b ^ 2)) * (1 - cos E)) • x.v) :
    ∃ q, coeffED A mu R' σ' a' s' DE = some q ∧ norm ((q.stateD A x).r - y.r) ≤ 15 * ζ * (1 / b ^ 2 * (1 + norm x.v / (√mu * b))) ∧
      norm ((q.stateD A x).v - y.v) ≤ 23 * ζ / κ ^ 2 * (√mu * b + 4 * norm x.v) := by
  have hu := u_pos
  have h1 := h.ζu
  have hb := h.b0
  have hR := h.r0
  have hk := sqrt_pos.2 h.mu0
  have hκ0 := h.κ0
  have hκ2 := h.κ2
  have ζ0 : 0 < ζ := by linarith
  obtain ⟨ξ, hξ⟩ : ∃ ξ, ξ = 11 * ζ / κ := ⟨_, rfl⟩
  have hξ1 : ξ * κ = 11 * ζ := by rw [hξ]; field_simp
  have hξs : ξ ≤ 1 / 200 := by rw [hξ, div_le_iff₀ hκ0]; linarith
  have hξ0 : 0 < ξ := by rw [hξ]; positivity
  have hζξ := h.ζξ hξ1
  have e := h.Rf hA
  obtain ⟨rf, hrf⟩ : ∃ rf, rf = rn (rn (a' + rn (rn (R' - a') * A.cos DE)) + rn (rn (σ' * s') * A.sin DE)) := ⟨_, rfl⟩
  rw [← hrf] at e
  have hr0 : 0 < κ * (1 / b ^ 2) := by positivity
  have w : Within ξ (κ * (1 / b ^ 2)) rf := by
    unfold Within
    rw [abs_of_pos hr0, ← mul_assoc, hξ1]
    exact e
  have rf0 := w.pos (by linarith) hr0
  refine ⟨_, coeffED_run hA h.mu0 h.R0 h.a0 hrf rf0, ?_⟩
  obtain ⟨s1, s2⟩ := stateD_near hA (x := x) (q := ⟨_, _, _, _⟩) (q' := ⟨_, _, _, _⟩) (p := 3.1 * ζ) (p' := 1.7 * ξ) (by linarith) (by linarith) (by linarith) (by linarith)
    ((h.F hA).mono (by linarith)) (h.G hA) (h.Ft hA hξ1 hξs w) ((h.Gt hA hξ1 hξs w).mono (by linarith))
  dsimp only at s1 s2
  rw [← hr] at s1
  rw [← hv] at s2
  constructor
  · refine s1.trans ?_
    rw [show 1.2 * (3.1 * ζ) * (4 / (norm x.r * b ^ 2) * norm x.r + 4 / (√mu * b ^ 3) * norm x.v) = 14.88 * ζ * (1 / b ^ 2 * (1 + norm x.v / (√mu * b))) by
      field_simp; ring]
    have := norm_nonneg x.v
    exact mul_le_mul_of_nonneg_right (by linarith) (by positivity)
  · refine s2.trans ?_
    have := norm_nonneg x.v
    rw [show 1.2 * (1.7 * ξ) * (√mu * b ^ 3 / (κ * (norm x.r * b ^ 2)) * norm x.r + 4 / κ * norm x.v) = 22.44 * ζ / κ ^ 2 * (√mu * b + 4 * norm x.v) by
      rw [hξ]; field_simp; ring]
    refine mul_le_mul_of_nonneg_right ?_ (by positivity)
    exact div_le_div_of_nonneg_right (by linarith) (by positivity)

/-! ## Along the exact motion -/

section
variable {x : RV ℝ} {mu : ℝ} (hmu : 0 < mu) (hh : angMom x ≠ 0)
include hmu hh

/-- The exact motion in terms of the difference of eccentric anomaly. -/
theorem flow_ellipse {b : ℝ} (hb : 0 < b) (hα : alphaOf x mu = b ^ 2) (t : ℝ) :
    ∃ E κ, κ = norm (kepFlow x mu t).r * b ^ 2 ∧ κ = 1 + (norm x.r * b ^ 2 - 1) * cos E + sigmaOf x mu * b * sin E ∧ 0 < κ ∧ κ ≤ 2 ∧
      E + sigmaOf x mu * b * (1 - cos E) - (1 - norm x.r * b ^ 2) * sin E = √mu * b ^ 3 * t ∧
      (kepFlow x mu t).r = (1 - 1 / (norm x.r * b ^ 2) * (1 - cos E)) • x.r
        + (1 / b ^ 2 * sigmaOf x mu / √mu * (1 - cos E) + norm x.r * (1 / (√mu * b)) * sin E) • x.v ∧
      (kepFlow x mu t).v = (-(√mu * (1 / b)) / (κ * (1 / b ^ 2) * norm x.r) * sin E) • x.r
        + (1 - 1 / b ^ 2 / (κ * (1 / b ^ 2)) * (1 - cos E)) • x.v := by
  have hR := norm_pos (r_ne_of_h hh)
  have hk := sqrt_pos.2 hmu
  obtain ⟨s, hs⟩ : ∃ s, s = anomU x mu t := ⟨_, rfl⟩
  have hst : kepFlow x mu t = stateU x mu s := by rw [hs]; rfl
  have htime : timeU x mu s = t := by rw [hs]; exact timeU_anomU hmu hh t
  have hκ : norm (kepFlow x mu t).r * b ^ 2 = 1 + (norm x.r * b ^ 2 - 1) * cos (b * s) + sigmaOf x mu * b * sin (b * s) := by
    rw [hst, norm_stateU hmu hh]; unfold radU; rw [hα, U0_pos hb, U1_pos hb, U2_pos hb]; field_simp; ring
  have hrad : radU x mu s = norm (kepFlow x mu t).r := by rw [hst, norm_stateU hmu hh]
  have hrp := radU_pos hmu hh s
  refine ⟨b * s, norm (kepFlow x mu t).r * b ^ 2, rfl, hκ, ?_, ?_, ?_, ?_, ?_⟩
  · rw [← hrad]; positivity
  · have hh' : angMom (stateU x mu s) ≠ 0 := by rw [angMom_stateU hmu hh]; exact hh
    rw [hst]
    exact (ellipse_sizes hmu hh' hb (by rw [alphaOf_stateU hmu hh, hα])).2.1
  · have h := kepDE_time hmu hh hb hα (b * s) 0
    rw [mul_div_cancel_left₀ s hb.ne', htime] at h
    unfold kepDE at h
    have e1 : sigmaOf x mu / (1 / b) = sigmaOf x mu * b := by field_simp
    have e2 : norm x.r / (1 / b ^ 2) = norm x.r * b ^ 2 := by field_simp
    rw [e1, e2] at h
    linear_combination h
  · rw [hst]
    show FU x mu s • x.r + GU x mu s • x.v = _
    congr 2
    · unfold FU; rw [hα, U2_pos hb]; field_simp
    · unfold GU; rw [hα, U1_pos hb, U2_pos hb]; field_simp; ring
  · rw [← hrad, hst]
    show FtU x mu s • x.r + GtU x mu s • x.v = _
    congr 2
    · unfold FtU; rw [hα, U1_pos hb]; field_simp
    · unfold GtU; rw [hα, U2_pos hb]; field_simp

end

/-! ## The root finder -/

/-- For the parameters of an ellipse, the root finder answers with a number at which Kepler's equation, as evaluated by the code, is met up to `tol`:
src/core_astro/propagate_lagrangian.cpp:75-88. -/
def SolverD.SettlesDE (sv : SolverD) (A : Libm) (tol : ℝ) : Prop :=
  ∀ M σ sq a R s0 q, |σ| ≤ 1.1 * sq → 0 < R → R ≤ 2.1 * a → A.div? σ sq = some s0 → A.div? R a = some q →
    let DMc := wrapNegD A (A.atan2 (A.sin M) (A.cos M))
    let IG := igDED A DMc (A.sin M) (A.cos M) s0 (A.rd (1 - q))
    ∃ y, kepDED A (sv (fun DE => both (kepDED A DE DMc σ sq a R) (d_kepDED A DE σ sq a R)) IG (A.rd (IG - A.rd π)) (A.rd (IG + A.rd π))).1
      DMc σ sq a R = some y ∧ |y| ≤ tol

/-- What the elliptic branch does with the answer of the root finder. -/
theorem lagrED_run {A : Libm} (hA : A.Double) {sv : SolverD} (hq : sv.Quick) {tol : ℝ} (hsv : sv.SettlesDE A tol) {tof mu R σ a n n' : ℝ}
    (hn : A.div? mu (A.pow a 3) = some n) (hn' : A.sqrt? n = some n') (a0 : 0 < a) (s0 : 0 < rn √a) (c1 : |σ| ≤ 1.1 * rn √a) (R0 : 0 < R) (c2 : R ≤ 2.1 * a) :
    ∃ DE y, lagrED A sv tof mu R σ a = .ok (coeffED A mu R σ a (rn √a) DE) ∧
      kepDED A DE (wrapNegD A (A.atan2 (A.sin (A.rd (n' * tof))) (A.cos (A.rd (n' * tof))))) σ (rn √a) a R = some y ∧ |y| ≤ tol := by
  have hdet := hsv (A.rd (n' * tof)) σ (rn √a) a R _ _ c1 R0 c2 (dbl_div hA s0.ne') (dbl_div hA a0.ne')
  dsimp only at hdet
  have hsq : A.rd √a = rn √a := by rw [hA.arith.rd]
  obtain ⟨y, hy, hyt⟩ := hdet
  refine ⟨_, y, ?_, hy, hyt⟩
  unfold lagrED
  dsimp only
  rw [hsq, hn]
  simp only [Option.bind_eq_bind, Option.bind_some]
  rw [hn', dbl_div hA s0.ne', dbl_div hA a0.ne']
  simp only [Option.bind_some, Option.pure_def]
  unfold tryRoot
  dsimp only
  rw [if_neg (hq _ _ _ _)]

/-- The computed numbers are those of an ellipse, up to a margin. -/
theorem sigma_dom {B ε σ σ' s' : ℝ} (hB : 0 < B) (hs : ε ≤ 1 / 1000) (h0 : 0 ≤ ε) (h : Err ε B σ σ') (w : Within (ε + 1.01 * u) B s') : |σ'| ≤ 1.1 * s' := by
  have hus := u_small
  have h1 := h.abs_le (by linarith)
  have h2 := (abs_le.1 (show |s' - B| ≤ _ from w)).1
  rw [abs_of_pos hB] at h2
  have : (ε + 1.01 * u) * B ≤ 0.002 * B := mul_le_mul_of_nonneg_right (by linarith) hB.le
  linarith

theorem radius_dom {X R R' a' ε : ℝ} (hX : 0 < X) (hR : 0 < R) (hs : ε ≤ 1 / 1000) (h0 : 0 ≤ ε) (h : Near 4.04 R R') (w : Within ε X a') (hRX : R ≤ 2 * X) : R' ≤ 2.1 * a' := by
  have hus := u_small
  have h1 := (abs_le.1 h.abs_le).2
  have h2 := (abs_le.1 (show |a' - X| ≤ _ from w)).1
  rw [abs_of_pos hX] at h2
  nlinarith

/-- The error of the anomaly. -/
theorem anomaly_err {s c e DE DMc E M M' r1 r2 r3 ζ : ℝ} {j : ℤ} (he0 : 0 ≤ e) (he : e < 1) (hsc : s ^ 2 + (1 - c) ^ 2 ≤ e ^ 2) (hKep : E + s * (1 - cos E) - (1 - c) * sin E = M)
    (hres : |DE + s * (1 - cos DE) - (1 - c) * sin DE - DMc| ≤ r1) (hj : |DMc - M' - 2 * π * j| ≤ r2) (d1 : |M' - M| ≤ r3) (hζ : r1 + r2 + r3 ≤ ζ * (1 - e)) :
    |cos DE - cos E| ≤ ζ ∧ |sin DE - sin E| ≤ ζ := by
  have hj2 : E + 2 * π * j = E + j * (2 * π) := by ring
  have hshift : |DE - (E + 2 * π * j)| ≤ ζ := by
    have st := kepDE_stable (D := DE) (D' := E + 2 * π * j) (δ := ζ * (1 - e)) he0 he hsc ?_
    · rwa [mul_div_cancel_right₀ _ (by linarith : (1 : ℝ) - e ≠ 0)] at st
    · rw [hj2, sin_add_int_mul_two_pi, cos_add_int_mul_two_pi]
      have t1 := abs_add_three (DE + s * (1 - cos DE) - (1 - c) * sin DE - DMc) (DMc - M' - 2 * π * j) (M' - M)
      rw [show DE + s * (1 - cos DE) - (1 - c) * sin DE - DMc + (DMc - M' - 2 * π * j) + (M' - M)
        = DE + s * (1 - cos DE) - (1 - c) * sin DE - (E + j * (2 * π) + s * (1 - cos E) - (1 - c) * sin E) by rw [← hKep]; ring] at t1
      linarith
  have h1 := (Real.abs_cos_sub_cos_le DE (E + 2 * π * j)).trans hshift
  have h2 := (Real.abs_sin_sub_sin_le DE (E + 2 * π * j)).trans hshift
  rw [hj2, cos_add_int_mul_two_pi] at h1
  rw [hj2, sin_add_int_mul_two_pi] at h2
  exact ⟨h1, h2⟩

/-- The distance stays above the pericentre. -/
theorem radius_low {s c e : ℝ} (he0 : 0 ≤ e) (hsc : s ^ 2 + (1 - c) ^ 2 ≤ e ^ 2) (E : ℝ) : 1 - e ≤ 1 + (c - 1) * cos E + s * sin E := by
  have : |(1 - c) * cos E - s * sin E| ≤ e := by
    apply abs_le_of_sq_le_sq _ he0
    refine le_trans ?_ hsc
    nlinarith [sq_nonneg ((1 - c) * sin E + s * cos E), sin_sq_add_cos_sq E]
  have := (abs_le.1 this).2
  linarith

/-- A nonradial orbit. -/
theorem angMom_of_ecc {x : RV ℝ} {mu a e : ℝ} (hmu : 0 < mu) (ha : 0 < a) (hE : energy x mu = -mu / (2 * a)) (he0 : 0 ≤ e) (he : e < 1)
    (hecc : (1 - norm x.r / a) ^ 2 + dot x.r x.v ^ 2 / (mu * a) ≤ e ^ 2) : angMom x ≠ 0 := by
  intro h0
  have e1 : e ^ 2 < 1 := by nlinarith
  have hR : 0 < norm x.r := by
    rcases (norm_nonneg x.r).eq_or_lt with h | h
    · rw [← h, zero_div, sub_zero] at hecc
      have : 0 ≤ dot x.r x.v ^ 2 / (mu * a) := by positivity
      linarith
    · exact h
  have hcr : dot x.r x.r * dot x.v x.v - dot x.r x.v ^ 2 = 0 := by
    have : dot (angMom x) (angMom x) = dot x.r x.r * dot x.v x.v - dot x.r x.v ^ 2 := by
      unfold angMom; simp only [V3.dot, V3.cross]; ring
    rw [← this, h0]; simp [V3.dot]
  have hr2 : dot x.r x.r = norm x.r ^ 2 := (sq_sqrt (dot_self_nonneg _)).symm
  have hv2 : dot x.v x.v = 2 * (mu / norm x.r - mu / (2 * a)) := by
    unfold energy at hE
    rw [neg_div] at hE
    linarith
  rw [hr2, hv2] at hcr
  have : dot x.r x.v ^ 2 / (mu * a) = 1 - (1 - norm x.r / a) ^ 2 := by
    rw [show dot x.r x.v ^ 2 = norm x.r ^ 2 * (2 * (mu / norm x.r - mu / (2 * a))) by linarith]
    field_simp; ring
  rw [this] at hecc
  linarith

/-- The propagator against the exact flow. -/
theorem lagrangian_flow_err {A : Libm} (hA : A.Double) (hat : ∀ y x, |A.atan2 y x - atan2 y x| ≤ 4 * u * |atan2 y x|) {sv : SolverD} (hq : sv.Quick) {tol : ℝ} (t0 : 0 ≤ tol)
    (hsv : sv.SettlesDE A tol) {x : RV ℝ} {mu a e tof tof' ζ : ℝ} (hmu : 0 < mu) (ha : 0 < a) (hE : energy x mu = -mu / (2 * a)) (he0 : 0 ≤ e) (he : e < 1)
    (hecc : (1 - norm x.r / a) ^ 2 + dot x.r x.v ^ 2 / (mu * a) ≤ e ^ 2) (htof : |tof' - tof| ≤ 2.1 * (1 / 2 ^ 53) * |tof|)
    (hζ : ζ = (tol + (480 + 128 * (√(mu / a ^ 3) * |tof|)) * (1 / 2 ^ 53) * (a / norm x.r)) / (1 - e)) (hsmall : 2200 * ζ ≤ 1 - e) :
    ∃ y, propagateLagrangianD A sv x tof' mu = .ok (some y) ∧
      norm (y.r - (kepFlow x mu tof).r) ≤ 15 * ζ * a * (1 + norm x.v * √(a / mu)) ∧
      norm (y.v - (kepFlow x mu tof).v) ≤ 23 * ζ * (a / norm (kepFlow x mu tof).r) ^ 2 * (√(mu / a) + 4 * norm x.v) := by
  have hu := u_pos
  have hus := u_small
  have hu1 : (1 : ℝ) / 2 ^ 53 = u := rfl
  rw [hu1] at htof hζ
  have hh := angMom_of_ecc hmu ha hE he0 he hecc
  have hk := sqrt_pos.2 hmu
  -- the axis
  obtain ⟨b, hb, hab⟩ : ∃ b, 0 < b ∧ a = 1 / b ^ 2 :=
    ⟨1 / √a, by have := sqrt_pos.2 ha; positivity, by rw [div_pow, one_pow, sq_sqrt ha.le, one_div_one_div]⟩
  have hα : alphaOf x mu = b ^ 2 := by
    have := energy_alpha hmu hh
    rw [hE, hab] at this
    have h2 : mu * (b ^ 2 - alphaOf x mu) = 0 := by
      have e : -mu / (2 * (1 / b ^ 2)) = -(mu / 2) * b ^ 2 := by field_simp
      rw [e] at this; linarith
    rcases mul_eq_zero.1 h2 with h | h <;> linarith
  obtain ⟨hR, hρ, hV, hσ⟩ := ellipse_sizes hmu hh hb hα
  have hN : √(mu / a ^ 3) = √mu * b ^ 3 := by rw [hab]; exact sqrt_mean hmu hb
  have hb2 : 0 < b ^ 2 := by positivity
  obtain ⟨ε, hε⟩ : ∃ ε, ε = 32 * u * (a / norm x.r) := ⟨_, rfl⟩
  have hερ : ε * (norm x.r * b ^ 2) = 32 * u := by rw [hε, hab]; field_simp
  have hε0 : 0 < ε := by rw [hε]; positivity
  have hεu : 16 * u ≤ ε := by nlinarith
  obtain ⟨N, hN'⟩ : ∃ N, N = √mu * b ^ 3 * |tof| := ⟨_, rfl⟩
  have N0 : 0 ≤ N := by rw [hN']; positivity
  have hζ' : ζ * (1 - e) = tol + (15 + 4 * N) * ε := by
    rw [hζ, hN, ← hN', hε, div_mul_cancel₀ _ (by linarith : (1 : ℝ) - e ≠ 0)]; ring
  have hNε : 0 ≤ N * ε := by positivity
  have hζ0 : 0 ≤ ζ := by by_contra hc; have := mul_neg_of_neg_of_pos (not_le.1 hc) (show 0 < 1 - e by linarith); linarith
  have hζ1 : ζ * (1 - e) ≤ ζ := by nlinarith
  have hεζ : ε ≤ ζ := by linarith
  have hεs : ε ≤ 1 / 1000 := by linarith
  have htol : tol ≤ 1 := by linarith
  -- the orbit
  obtain ⟨a', σ', horb, wa, eσ⟩ := orbitD_err hA hmu hh hb hα hερ hεs
  have hb1 : 0 < 1 / b ^ 2 := by positivity
  have hb0 : 0 < 1 / b := by positivity
  have a0 := wa.pos (by linarith) hb1
  have nR := dist_near hA x.r
  have R0 := nR.pos hR
  obtain ⟨n, n', hn, hn', wM⟩ := meanD_err hA hmu hb hεu hεs wa (tof := tof) (tof' := tof') htof
  have ws := (wa.sqrt (by linarith) (by linarith) hb1).rn (by linarith)
  rw [sqrt_a hb] at ws
  have s0 := ws.pos (by linarith) hb0
  obtain ⟨j, hj⟩ := cropD_err hA hat (A.rd (n' * tof'))
  -- the answer of the root finder
  have c1 : |σ'| ≤ 1.1 * rn √a' := sigma_dom hb0 hεs hε0.le eσ ws
  have c2 : A.rd √(A.dot x.r x.r) ≤ 2.1 * a' := radius_dom hb1 hR hεs hε0.le nR wa (by rw [mul_one_div, le_div_iff₀ hb2]; exact hρ)
  obtain ⟨DE, y, hrun2, hy, hyt⟩ := lagrED_run hA hq hsv hn hn' a0 s0 c1 R0 c2
  have hrun : propagateLagrangianD A sv x tof' mu = (do
      let q ← lagrED A sv tof' mu (A.rd √(A.dot x.r x.r)) σ' a'
      return q.map fun q => q.stateD A x) := by
    unfold propagateLagrangianD
    dsimp only
    rw [if_neg hmu.not_ge, horb]
    dsimp only
    rw [if_pos a0]
  rw [hrun, hrun2]
  generalize A.rd √(A.dot x.r x.r) = R' at *
  generalize wrapNegD A _ = DMc at *
  generalize A.rd (n' * tof') = M' at *
  have hres := kepDED_err hA hb hR hρ hεu hεs wa eσ nR hy hyt htol
  -- the exact anomaly
  obtain ⟨E, κ, hκr, hκ, κ0, κ2, hKep, hfr, hfv⟩ := flow_ellipse hmu hh hb hα tof
  have hsc : (sigmaOf x mu * b) ^ 2 + (1 - norm x.r * b ^ 2) ^ 2 ≤ e ^ 2 := by
    refine le_trans (le_of_eq ?_) hecc
    unfold sigmaOf
    rw [hab, mul_pow, div_pow, sq_sqrt hmu.le]
    field_simp
    ring
  have d1 : |M' - √mu * b ^ 3 * tof| ≤ 4 * ε * N := by
    have := wM
    unfold Within at this
    rwa [abs_mul, abs_of_pos (show 0 < √mu * b ^ 3 by positivity), ← hN'] at this
  obtain ⟨hcos, hsin⟩ := anomaly_err he0 he hsc hKep hres hj d1 (ζ := ζ) (by linarith)
  have hκe : 1 - e ≤ κ := by rw [hκ]; exact radius_low he0 hsc E
  have step : StepE mu b (norm x.r) (sigmaOf x mu) E κ ζ a' R' σ' (rn √a') DE :=
    { mu0 := hmu, b0 := hb, r0 := hR, ρ2 := hρ, κ0 := κ0, κ2 := κ2, hκ := hκ, ζu := by linarith, ζs := by linarith, ea := wa.mono hεζ, eR := nR,
      eσ := eσ.mono hεζ, es := ws.mono (by linarith), ecos := hcos, esin := hsin }
  obtain ⟨q, hq', b1, b2⟩ := step.state hA (by linarith) hfr hfv
  refine ⟨q.stateD A x, by rw [hq']; rfl, ?_, ?_⟩
  · rw [← hab] at b1
    have e : norm x.v * √(a / mu) = norm x.v / (√mu * b) := by
      rw [hab, sqrt_div hb1.le, sqrt_a hb]; field_simp
    rw [e]; linarith
  · have e : √(mu / a) = √mu * b := by rw [hab, sqrt_div hmu.le, sqrt_a hb]; field_simp
    rw [e]
    have e2 : a / norm (kepFlow x mu tof).r = 1 / κ := by rw [hκr, hab]; field_simp
    rw [e2, div_pow, one_pow, mul_one_div]
    exact b2

/-- **C97, the propagator**: on an ellipse with semi-major axis `a` and eccentricity at most `e`, with `N` the mean anomaly swept, `propagate_lagrangian` returns numbers, at
most `15 ζ a (1 + V √(a / mu))` away from the position and `23 ζ (a / r)² (√(mu / a) + 4 V)` away from the velocity of the exact motion, where `V` is the initial speed, `r` the final
distance, `ζ = (tol + (480 + 128 N) 2⁻⁵³ a / R) / (1 - e)`, `R` the initial distance and `tol` what the root finder leaves of Kepler's equation. The time may
have a relative error of `2.1 · 2⁻⁵³`. -/
theorem C97_lagrangian {A : Libm} (hA : A.Double) (hat : ∀ y x, |A.atan2 y x - atan2 y x| ≤ 4 * u * |atan2 y x|) {sv : SolverD} (hq : sv.Quick) {tol : ℝ} (t0 : 0 ≤ tol)
    (hsv : sv.SettlesDE A tol) {γ : ℝ → RV ℝ} {mu a e tof tof' ζ : ℝ} (hmu : 0 < mu) (hγ : TwoBody mu γ) (ha : 0 < a) (hE : energy (γ 0) mu = -mu / (2 * a)) (he0 : 0 ≤ e) (he : e < 1)
    (hecc : (1 - norm (γ 0).r / a) ^ 2 + dot (γ 0).r (γ 0).v ^ 2 / (mu * a) ≤ e ^ 2) (htof : |tof' - tof| ≤ 2.1 * (1 / 2 ^ 53) * |tof|)
    (hζ : ζ = (tol + (480 + 128 * (√(mu / a ^ 3) * |tof|)) * (1 / 2 ^ 53) * (a / norm (γ 0).r)) / (1 - e)) (hsmall : 2200 * ζ ≤ 1 - e) :
    ∃ y, propagateLagrangianD A sv (γ 0) tof' mu = .ok (some y) ∧
      norm (y.r - (γ tof).r) ≤ 15 * ζ * a * (1 + norm (γ 0).v * √(a / mu)) ∧
      norm (y.v - (γ tof).v) ≤ 23 * ζ * (a / norm (γ tof).r) ^ 2 * (√(mu / a) + 4 * norm (γ 0).v) := by
  rw [twoBody_unique hmu hγ (angMom_of_ecc hmu ha hE he0 he hecc) tof]
  exact lagrangian_flow_err hA hat hq t0 hsv hmu ha hE he0 he hecc htof hζ hsmall

/-! ## The planet -/

/-- `eph` in double precision, src/udpla/keplerian.cpp:97-104; `none` stands for results that are not numbers, and a planet whose state is not a number is left out. -/
noncomputable def Keplerian.ephD (A : Libm) (sv : SolverD) (k : Keplerian) (t : ℝ) : Res (Option (RV ℝ)) :=
  let dt := A.rd (A.rd (t - k.refEpoch) * DAY2SEC)
  match k.posVel0 with
  | some x => propagateLagrangianD A sv x dt k.muCentralBody
  | none => .ok none

/-- **C97, the planet**: the same for `eph` of a Keplerian planet, at every epoch. -/
theorem C97_keplerian {A : Libm} (hA : A.Double) (hat : ∀ y x, |A.atan2 y x - atan2 y x| ≤ 4 * u * |atan2 y x|) {sv : SolverD} (hq : sv.Quick) {tol : ℝ} (t0 : 0 ≤ tol)
    (hsv : sv.SettlesDE A tol) {k : Keplerian} {γ : ℝ → RV ℝ} {mu a e t ζ : ℝ} (hx : k.posVel0 = some (γ 0)) (hk : k.muCentralBody = mu) (hmu : 0 < mu) (hγ : TwoBody mu γ) (ha : 0 < a)
    (hE : energy (γ 0) mu = -mu / (2 * a)) (he0 : 0 ≤ e) (he : e < 1) (hecc : (1 - norm (γ 0).r / a) ^ 2 + dot (γ 0).r (γ 0).v ^ 2 / (mu * a) ≤ e ^ 2)
    (hζ : ζ = (tol + (480 + 128 * (√(mu / a ^ 3) * |(t - k.refEpoch) * 86400|)) * (1 / 2 ^ 53) * (a / norm (γ 0).r)) / (1 - e)) (hsmall : 2200 * ζ ≤ 1 - e) :
    ∃ y, k.ephD A sv t = .ok (some y) ∧
      norm (y.r - (γ ((t - k.refEpoch) * 86400)).r) ≤ 15 * ζ * a * (1 + norm (γ 0).v * √(a / mu)) ∧
      norm (y.v - (γ ((t - k.refEpoch) * 86400)).v) ≤ 23 * ζ * (a / norm (γ ((t - k.refEpoch) * 86400)).r) ^ 2 * (√(mu / a) + 4 * norm (γ 0).v) := by
  have hu := u_pos
  have hus := u_small
  have hd : (DAY2SEC : ℝ) = 86400 := by norm_num [DAY2SEC]
  have ht : |A.rd (A.rd (t - k.refEpoch) * DAY2SEC) - (t - k.refEpoch) * 86400| ≤ 2.1 * (1 / 2 ^ 53) * |(t - k.refEpoch) * 86400| := by
    rw [hA.arith.rd, hd]
    have w0 : Within 0 (t - k.refEpoch) (t - k.refEpoch) := by unfold Within; simp
    have w1 : Within 0 (86400 : ℝ) 86400 := by unfold Within; simp
    exact ((((w0.rn (by norm_num)).mul w1 (by linarith)).rn (by linarith)).mono (show _ ≤ 2.1 * u by linarith))
  unfold Keplerian.ephD
  rw [hx, hk]
  exact C97_lagrangian hA hat hq t0 hsv hmu hγ ha hE he0 he hecc ht hζ hsmall

/-! ## The hypotheses can be met -/

/-- A solution of Kepler's equation in the difference of eccentric anomaly, also slightly outside of the ellipses. -/
theorem kepDE_root {q r : ℝ} (hq : |q| ≤ 1.2) (hr : |r| ≤ 1.2) (M : ℝ) : ∃ E, E + q * (1 - cos E) - r * sin E = M ∧ |E - M| ≤ 3.6 := by
  have hc : Continuous fun E : ℝ => E + q * (1 - cos E) - r * sin E := by fun_prop
  have b : ∀ E : ℝ, |q * (1 - cos E) - r * sin E| ≤ 3.6 := fun E => by
    have h1 := abs_sub (q * (1 - cos E)) (r * sin E)
    rw [abs_mul, abs_mul, abs_of_nonneg (by linarith [cos_le_one E] : 0 ≤ 1 - cos E)] at h1
    have h2 := mul_le_mul hq (by linarith [neg_one_le_cos E] : 1 - cos E ≤ 2) (by linarith [cos_le_one E]) (by norm_num)
    have h3 := mul_le_mul hr (abs_sin_le_one E) (abs_nonneg _) (by norm_num)
    linarith
  have l := abs_le.1 (b (M - 3.6))
  have r := abs_le.1 (b (M + 3.6))
  obtain ⟨E, hE, hE'⟩ := intermediate_value_Icc (show M - 3.6 ≤ M + 3.6 by linarith) hc.continuousOn (show M ∈ Set.Icc _ _ from ⟨by linarith, by linarith⟩)
  exact ⟨E, hE', abs_le.2 ⟨by linarith [hE.1], by linarith [hE.2]⟩⟩

/-- A product with an approximate factor. -/
theorem rn_mul_err {q C c B δ : ℝ} (hq : |q| ≤ 1.2) (h : |C - c| ≤ δ) (hC : |C| ≤ B) : |rn (q * C) - q * c| ≤ 1.2 * δ + 1.2 * B * u := by
  have hu := u_pos
  have e := rn_err' (q * C)
  have e1 : |q * C - q * c| ≤ 1.2 * δ := by rw [← mul_sub, abs_mul]; exact mul_le_mul hq h (abs_nonneg _) (by norm_num)
  have e2 : |q * C| ≤ 1.2 * B := by rw [abs_mul]; exact mul_le_mul hq hC (abs_nonneg _) (by norm_num)
  have := mul_le_mul_of_nonneg_left e2 hu.le
  have t := abs_add_le (rn (q * C) - q * C) (q * C - q * c)
  rw [sub_add_sub_cancel] at t
  linarith

theorem kepDED_attainable {A : Libm} (hA : A.Double) {q r DM : ℝ} (hq : |q| ≤ 1.2) (hr : |r| ≤ 1.2) (hM : |DM| ≤ 7) :
    ∃ D, |rn (rn (rn (-DM + D) + rn (q * rn (1 - A.cos D))) - rn (r * A.sin D))| ≤ 100 * u := by
  have hu := u_pos
  have hus := u_small
  obtain ⟨E, hE, hb⟩ := kepDE_root hq hr DM
  refine ⟨rn E, ?_⟩
  have e0 := rn_err' E
  have hEb : |E| ≤ 10.6 := by have := abs_add_le (E - DM) DM; rw [sub_add_cancel] at this; linarith
  have e0' := mul_le_mul_of_nonneg_left hEb hu.le
  generalize rn E = x at *
  have s0 := Real.abs_sin_sub_sin_le x E
  have c0 := Real.abs_cos_sub_cos_le x E
  have s1 := sin_err hA x
  obtain ⟨c1, c2, c3⟩ := cosD_err hA x
  have s2 := abs_sin_le_one E
  have s3 := abs_add_le (A.sin x - sin x) (sin x - sin E)
  rw [sub_add_sub_cancel] at s3
  have s4 := abs_add_le (A.sin x - sin E) (sin E)
  rw [sub_add_cancel] at s4
  have c4 := abs_add_le (rn (1 - A.cos x) - (1 - cos x)) (-(cos x - cos E))
  rw [abs_neg, show rn (1 - A.cos x) - (1 - cos x) + -(cos x - cos E) = rn (1 - A.cos x) - (1 - cos E) by ring] at c4
  have p1 := rn_mul_err hq (show |rn (1 - A.cos x) - (1 - cos E)| ≤ 15 * u by linarith) (show |rn (1 - A.cos x)| ≤ 2 by rw [abs_of_nonneg c1]; exact c2)
  have p2 := rn_mul_err hr (show |A.sin x - sin E| ≤ 15 * u by linarith) (show |A.sin x| ≤ 1.01 by linarith)
  have q1 : |q * (1 - cos E)| ≤ 2.4 := by
    rw [abs_mul, abs_of_nonneg (by linarith [cos_le_one E] : 0 ≤ 1 - cos E)]
    have := mul_le_mul hq (by linarith [neg_one_le_cos E] : 1 - cos E ≤ 2) (by linarith [cos_le_one E]) (by norm_num)
    linarith
  generalize rn (q * rn (1 - A.cos x)) = P at *
  generalize rn (r * A.sin x) = S at *
  have g1 := rn_err' (-DM + x)
  have d1 : |-DM + x| ≤ 3.7 := by
    have := abs_add_le (E - DM) (x - E)
    rw [show E - DM + (x - E) = -DM + x by ring] at this
    linarith
  have g1' := mul_le_mul_of_nonneg_left d1 hu.le
  generalize rn (-DM + x) = d at *
  have g2 := rn_err' (d + P)
  have d2 : |d + P| ≤ 6.2 := by
    rw [abs_le] at *
    constructor <;> linarith
  have g2' := mul_le_mul_of_nonneg_left d2 hu.le
  generalize rn (d + P) = w at *
  have hw : |w - S| ≤ 80 * u := by
    rw [show w - S = (w - (d + P)) + (d - (-DM + x)) + (x - E) + (P - q * (1 - cos E)) - (S - r * sin E) by rw [← hE]; ring]
    rw [abs_le] at *
    constructor <;> linarith
  have g3 := rn_err' (w - S)
  have := mul_le_mul_of_nonneg_left hw hu.le
  have t5 := abs_add_le (rn (w - S) - (w - S)) (w - S)
  rw [sub_add_cancel] at t5
  nlinarith

open Classical in
/-- A root finder for the examples: a number that meets the equation up to 100 units of roundoff, if there is one. -/
noncomputable def pickDE : SolverD := fun f _ _ _ => if h : ∃ E y d, f E = some (y, d) ∧ |y| ≤ 100 * u then (h.choose, 0) else (0, 0)

theorem pickDE_quick : pickDE.Quick := by
  intro f g lo hi
  unfold pickDE
  split_ifs <;> simp

theorem pickDE_settles {A : Libm} (hA : A.Double) (hat : ∀ y x, |A.atan2 y x - atan2 y x| ≤ 4 * u * |atan2 y x|) : pickDE.SettlesDE A (100 * u) := by
  intro M σ sq a R s0 q hσ hR hRa h1 h2 DMc IG
  have hu := u_pos
  have hus := u_small
  have hDM : |DMc| ≤ 7 := by
    have h1 := (wrap_err hA hat M).2
    show |wrapNegD A (A.atan2 (A.sin M) (A.cos M))| ≤ 7
    unfold wrapNegD
    split_ifs with h0
    · rw [hA.arith.rd]
      generalize A.atan2 (A.sin M) (A.cos M) = z at *
      have hp := Real.pi_lt_d2
      have hp0 := Real.pi_gt_three
      have r1 := abs_le.1 (rn_err' π)
      rw [abs_of_pos (by linarith)] at r1
      have hs : |2 * rn π| ≤ 6.31 := by rw [abs_le]; constructor <;> nlinarith
      have r2 := rn_err' (2 * rn π)
      have r2' := mul_le_mul_of_nonneg_left hs hu.le
      generalize rn (2 * rn π) = T at *
      have r3 := rn_err' (z + T)
      have hz : |z + T| ≤ 6.4 := by
        rw [abs_le] at *
        constructor <;> nlinarith
      have := abs_add_le (rn (z + T) - (z + T)) (z + T)
      rw [sub_add_cancel] at this
      have := mul_le_mul_of_nonneg_left hz hu.le
      linarith
    · linarith
  have hsq : sq ≠ 0 := by
    rintro rfl
    simp [Arith.div?, div?] at h1
  have sq0 : 0 < sq := by
    have := abs_nonneg σ
    exact lt_of_le_of_ne (by linarith) hsq.symm
  have a0 : 0 < a := by linarith
  have e1 := Option.some.inj ((dbl_div hA hsq).symm.trans h1)
  have e2 := Option.some.inj ((dbl_div hA a0.ne').symm.trans h2)
  have hs0 : |s0| ≤ 1.2 := by
    rw [← e1]
    have h := rn_err' (σ / sq)
    have b : |σ / sq| ≤ 1.1 := by rw [abs_div, abs_of_pos sq0, div_le_iff₀ sq0]; exact hσ
    have := mul_le_mul_of_nonneg_left b hu.le
    have t := abs_add_le (rn (σ / sq) - σ / sq) (σ / sq)
    rw [sub_add_cancel] at t
    linarith
  have hq : |rn (1 - q)| ≤ 1.2 := by
    have h := rn_err' (R / a)
    rw [e2] at h
    have b : |R / a| ≤ 2.1 := by rw [abs_div, abs_of_pos a0, abs_of_pos hR, div_le_iff₀ a0]; exact hRa
    have b0 : 0 < R / a := by positivity
    have h' := mul_le_mul_of_nonneg_left b hu.le
    have k : |1 - q| ≤ 1.11 := by
      rw [abs_le] at *
      constructor <;> linarith
    have r := rn_err' (1 - q)
    have := mul_le_mul_of_nonneg_left k hu.le
    have t := abs_add_le (rn (1 - q) - (1 - q)) (1 - q)
    rw [sub_add_cancel] at t
    linarith
  obtain ⟨D, hD⟩ := kepDED_attainable hA hs0 hq hDM
  have run : ∀ D, kepDED A D DMc σ sq a R = some (rn (rn (rn (-DMc + D) + rn (s0 * rn (1 - A.cos D))) - rn (rn (1 - q) * A.sin D))) := by
    intro D
    unfold kepDED
    rw [h1, h2, hA.arith.rd]
    rfl
  have rund : ∃ d, d_kepDED A D σ sq a R = some d := by
    unfold d_kepDED
    rw [h1, h2]
    exact ⟨_, rfl⟩
  obtain ⟨d, hd⟩ := rund
  have hex : ∃ E y d, (fun DE => both (kepDED A DE DMc σ sq a R) (d_kepDED A DE σ sq a R)) E = some (y, d) ∧ |y| ≤ 100 * u :=
    ⟨D, _, d, by dsimp only; rw [run, hd]; rfl, hD⟩
  unfold pickDE
  rw [dif_pos hex]
  obtain ⟨y, d', hy, hb⟩ := hex.choose_spec
  refine ⟨_, run _, ?_⟩
  dsimp only at hy
  rw [run] at hy
  cases hd' : d_kepDED A hex.choose σ sq a R with
  | none => rw [hd'] at hy; simp [both] at hy
  | some d2 =>
    rw [hd'] at hy
    have : _ = y := (Prod.ext_iff.1 (Option.some.inj hy)).1
    dsimp only at this
    rw [this]
    exact hb

/-- The hypotheses are met: eccentricity 0.21, 5 units of time, correct rounding. -/
example : ∃ (γ : ℝ → RV ℝ) (y : RV ℝ), TwoBody 1 γ ∧ (γ 0).r = ⟨1, 0, 0⟩ ∧ propagateLagrangianD .rounded pickDE (γ 0) 5 1 = .ok (some y) ∧ norm (y.r - (γ 5).r) ≤ 1 / 10 ^ 10 := by
  have hat : ∀ y x, |Libm.rounded.atan2 y x - atan2 y x| ≤ 4 * u * |atan2 y x| := fun y x => rn_err4 _
  let x : RV ℝ := ⟨⟨1, 0, 0⟩, ⟨0, 1.1, 0⟩⟩
  have hh : angMom x ≠ 0 := by
    intro h
    have := congrArg V3.z h
    norm_num [angMom, V3.cross, x] at this
  have h0 : kepFlow x 1 0 = x := kepFlow_zero one_pos hh
  have n1 : norm x.r = 1 := by simp [x, V3.norm, V3.dot]
  have n2 : norm x.v = 1.1 := by
    have : norm x.v = √(1.1 * 1.1) := by simp [x, V3.norm, V3.dot]
    rw [this, sqrt_mul_self (by norm_num)]
  have hE : energy x 1 = -1 / (2 * (1 / 0.79)) := by
    unfold energy
    rw [n1]
    norm_num [x, V3.dot]
  have hm : √((1 : ℝ) / (1 / 0.79) ^ 3) ≤ 1 := by
    rw [sqrt_le_one]; norm_num
  have hm0 := sqrt_nonneg ((1 : ℝ) / (1 / 0.79) ^ 3)
  obtain ⟨ζ, hζ⟩ : ∃ ζ : ℝ, ζ = (100 * u + (480 + 128 * (√(1 / (1 / 0.79) ^ 3) * |5|)) * (1 / 2 ^ 53) * ((1 / 0.79) / norm x.r)) / (1 - 0.21) := ⟨_, rfl⟩
  have z1 : ζ ≤ 1 / 10 ^ 12 := by
    rw [hζ, n1, abs_of_pos (by norm_num : (0 : ℝ) < 5), div_le_iff₀ (by norm_num)]
    unfold u
    nlinarith
  obtain ⟨y, hy, h1, -⟩ := C97_lagrangian Libm.rounded_double hat pickDE_quick (by have := u_pos; positivity) (pickDE_settles Libm.rounded_double hat) (γ := kepFlow x 1) (mu := 1) (a := 1 / 0.79)
    (e := 0.21) (ζ := ζ) (tof := 5) (tof' := 5) one_pos (kepFlow_twoBody one_pos hh) (by norm_num) (by rw [h0]; exact hE) (by norm_num) (by norm_num) (by rw [h0, n1]; norm_num [x, V3.dot]) (by rw [sub_self, abs_zero]; positivity)
    (by rw [h0]; exact hζ) (by linarith)
  refine ⟨kepFlow x 1, y, kepFlow_twoBody one_pos hh, by rw [h0], hy, h1.trans ?_⟩
  rw [h0, n2]
  have : √((1 : ℝ) / 0.79 / 1) ≤ 1.2 := by
    rw [sqrt_le_left (by norm_num)]; norm_num
  nlinarith [sqrt_nonneg ((1 : ℝ) / 0.79 / 1)]

end Kep3
