import Verif.Kepler.Props90
import Verif.Elements.Props92

/-!
# C93: Kepler's equation in double precision

How far the eccentric anomaly of `m2e` is from the exact one, given what is left of Kepler's equation at the answer of the root finder.
-/

namespace Kep3
open Real Fl

/-- Angles with near cosines and sines are near up to full turns. -/
theorem turn_of_chord {a b δ : ℝ} (hc : |cos a - cos b| ≤ δ) (hs : |sin a - sin b| ≤ δ) : ∃ k : ℤ, |a - b - 2 * π * k| ≤ 2.23 * δ := by
  have δ0 : 0 ≤ δ := (abs_nonneg _).trans hc
  have hpi := pi_pos
  refine ⟨round ((a - b) / (2 * π)), ?_⟩
  set k := round ((a - b) / (2 * π)) with hk
  have h1 := abs_sub_round ((a - b) / (2 * π))
  rw [← hk] at h1
  have hd : |a - b - 2 * π * k| ≤ π := by
    have : a - b - 2 * π * k = ((a - b) / (2 * π) - k) * (2 * π) := by field_simp
    rw [this, abs_mul, abs_of_pos (show 0 < 2 * π by positivity)]
    nlinarith
  set d := a - b - 2 * π * k with hdd
  have hh : |d / 2| ≤ π / 2 := by rw [abs_div, abs_of_pos (show (0 : ℝ) < 2 by norm_num)]; linarith
  have h2 := Real.mul_abs_le_abs_sin hh
  have h3 : (cos a - cos b) ^ 2 + (sin a - sin b) ^ 2 = 4 * sin (d / 2) ^ 2 := by
    have e1 : cos d = cos a * cos b + sin a * sin b := by
      rw [hdd, show a - b - 2 * π * k = a - b - k * (2 * π) by ring, cos_sub_int_mul_two_pi, cos_sub]
    have e2 : cos d = 1 - 2 * sin (d / 2) ^ 2 := by
      have := cos_two_mul (d / 2)
      rw [mul_div_cancel₀ d (two_ne_zero)] at this
      have := sin_sq_add_cos_sq (d / 2)
      linarith
    have := sin_sq_add_cos_sq a
    have := sin_sq_add_cos_sq b
    nlinarith
  have h4 : (cos a - cos b) ^ 2 ≤ δ ^ 2 := by rw [← sq_abs]; exact pow_le_pow_left₀ (abs_nonneg _) hc 2
  have h5 : (sin a - sin b) ^ 2 ≤ δ ^ 2 := by rw [← sq_abs]; exact pow_le_pow_left₀ (abs_nonneg _) hs 2
  have h6 : |sin (d / 2)| ≤ 0.7072 * δ := by
    apply abs_le_of_sq_le_sq _ (by positivity)
    nlinarith [sq_nonneg δ]
  have h7 : |d| = π * (2 / π * |d / 2|) := by rw [abs_div, abs_of_pos (show (0 : ℝ) < 2 by norm_num)]; field_simp
  have h8 := pi_lt_d4
  rw [h7]
  calc π * (2 / π * |d / 2|) ≤ π * (0.7072 * δ) := mul_le_mul_of_nonneg_left (h2.trans h6) hpi.le
    _ ≤ 3.1416 * (0.7072 * δ) := mul_le_mul_of_nonneg_right h8.le (by positivity)
    _ ≤ 2.23 * δ := by linarith

/-- The mean anomaly brought into one turn, include/kep3/core_astro/convert_anomalies.hpp:38-42. -/
theorem wrap_err {A : Libm} (hA : A.Double) (hat : ∀ y x, |A.atan2 y x - atan2 y x| ≤ 4 * u * |atan2 y x|) (M : ℝ) :
    (∃ k : ℤ, |A.atan2 (A.sin M) (A.cos M) - M - 2 * π * k| ≤ 52 * u) ∧ |A.atan2 (A.sin M) (A.cos M)| ≤ 3.15 := by
  have hu := u_pos
  have hus := u_small
  have h1 := sin_err hA M
  have h2 := cos_err hA M
  have h3 := hat (A.sin M) (A.cos M)
  have hm := atan2_mem (A.sin M) (A.cos M)
  have hpi := pi_lt_d4
  have hp3 := pi_gt_three
  set s' := A.sin M
  set c' := A.cos M
  set θ := atan2 s' c' with hθ
  have hθ' : |θ| ≤ π := abs_le.2 ⟨hm.1.le, hm.2⟩
  have cs := sin_sq_add_cos_sq M
  have b1 := abs_sin_le_one M
  have b2 := abs_cos_le_one M
  have q : |c' ^ 2 + s' ^ 2 - 1| ≤ 12.1 * u := by
    have e : c' ^ 2 + s' ^ 2 - 1 = (c' - cos M) * (2 * cos M + (c' - cos M)) + (s' - sin M) * (2 * sin M + (s' - sin M)) := by
      have := cs; ring_nf; ring_nf at this; linarith
    have f1 : |(c' - cos M) * (2 * cos M + (c' - cos M))| ≤ 2 * u * 2.01 := by
      rw [abs_mul]
      refine mul_le_mul h2 ?_ (abs_nonneg _) (by positivity)
      have := abs_add_le (2 * cos M) (c' - cos M)
      rw [abs_mul, abs_of_pos (show (0 : ℝ) < 2 by norm_num)] at this
      linarith
    have f2 : |(s' - sin M) * (2 * sin M + (s' - sin M))| ≤ 4 * u * 2.01 := by
      rw [abs_mul]
      refine mul_le_mul h1 ?_ (abs_nonneg _) (by positivity)
      have := abs_add_le (2 * sin M) (s' - sin M)
      rw [abs_mul, abs_of_pos (show (0 : ℝ) < 2 by norm_num)] at this
      linarith
    rw [e]
    refine (abs_add_le _ _).trans ?_
    linarith
  have q1 := abs_le.1 q
  have hpos : 0 < c' ^ 2 + s' ^ 2 := by linarith
  have hc := atan2_cos hpos
  have hs := atan2_sin hpos
  rw [← hθ] at hc hs
  set ρ := √(c' ^ 2 + s' ^ 2) with hρ
  have ρ0 : 0 ≤ ρ := sqrt_nonneg _
  have ρ2 : ρ ^ 2 = c' ^ 2 + s' ^ 2 := sq_sqrt hpos.le
  have r1 : |ρ - 1| ≤ 12.1 * u := by
    have : |ρ - 1| ≤ |ρ ^ 2 - 1| := by
      rw [show ρ ^ 2 - 1 = (ρ - 1) * (ρ + 1) by ring, abs_mul, abs_of_pos (show 0 < ρ + 1 by linarith)]
      nlinarith [abs_nonneg (ρ - 1)]
    rw [ρ2] at this
    exact this.trans q
  have dd : ∀ {x y : ℝ}, |x| ≤ 1 → ρ * x = y → |x - y| ≤ 12.1 * u := by
    intro x y hx hy
    rw [← hy, show x - ρ * x = -((ρ - 1) * x) by ring, abs_neg, abs_mul]
    calc |ρ - 1| * |x| ≤ 12.1 * u * 1 := mul_le_mul r1 hx (abs_nonneg _) (by positivity)
      _ = _ := mul_one _
  have d1 := dd (abs_cos_le_one θ) hc
  have d2 := dd (abs_sin_le_one θ) hs
  have e1 := abs_add_le (cos θ - c') (c' - cos M)
  have e2 := abs_add_le (sin θ - s') (s' - sin M)
  rw [sub_add_sub_cancel] at e1 e2
  obtain ⟨k, hk⟩ := turn_of_chord (a := θ) (b := M) (δ := 16.1 * u) (by linarith) (by linarith)
  have h4 : 4 * u * |θ| ≤ 4 * u * 3.1416 := mul_le_mul_of_nonneg_left (hθ'.trans hpi.le) (by positivity)
  constructor
  · refine ⟨k, ?_⟩
    have := abs_add_le (A.atan2 s' c' - θ) (θ - M - 2 * π * k)
    rw [show A.atan2 s' c' - θ + (θ - M - 2 * π * k) = A.atan2 s' c' - M - 2 * π * k by ring] at this
    linarith
  · have := abs_add_le (A.atan2 s' c' - θ) θ
    rw [sub_add_cancel] at this
    linarith

/-- What the code leaves of Kepler's equation is what is left of it in exact arithmetic, up to rounding. -/
theorem kepED_err {A : LibmT} (hA : A.Double) {E Mc ecc tol : ℝ} (h0 : 0 ≤ ecc) (h1 : ecc < 1) (hM : |Mc| ≤ 3.15) (ht : tol ≤ 1)
    (hres : |kepED A E Mc ecc| ≤ tol) : |E - ecc * sin E - Mc| ≤ tol + 12 * u := by
  have hu := u_pos
  have hus := u_small
  unfold kepED at hres
  rw [hA.libm.arith.rd] at hres
  have s1 := sin_err hA.libm E
  have s2 := abs_sin_le_one E
  have s3 : |A.sin E| ≤ 1.01 := by have := abs_add_le (A.sin E - sin E) (sin E); rw [sub_add_cancel] at this; linarith
  have e1 := rn_err' (ecc * A.sin E)
  have e2 : |ecc * A.sin E - ecc * sin E| ≤ 4 * u := by
    rw [← mul_sub, abs_mul, abs_of_nonneg h0]
    nlinarith [abs_nonneg (A.sin E - sin E)]
  have e3 : |ecc * A.sin E| ≤ 1.01 := by rw [abs_mul, abs_of_nonneg h0]; nlinarith [abs_nonneg (A.sin E)]
  have e4 := mul_le_mul_of_nonneg_left e3 hu.le
  generalize rn (ecc * A.sin E) = es at *
  have e5 := abs_add_le (es - ecc * A.sin E) (ecc * A.sin E - ecc * sin E)
  rw [sub_add_sub_cancel] at e5
  have g1 := rn_err' (E - es)
  generalize rn (E - es) = d at *
  have g2 := rn_err' (d - Mc)
  generalize rn (d - Mc) = g at *
  have g3 := abs_sub_abs_le_abs_sub (d - Mc) g
  rw [abs_sub_comm (d - Mc) g] at g3
  have g4 : |d - Mc| ≤ tol + 2 * u := by
    have : |d - Mc| ≤ 1.01 := by nlinarith [abs_nonneg (d - Mc)]
    have := mul_le_mul_of_nonneg_left this hu.le
    nlinarith
  have g5 := abs_add_le (d - Mc) Mc
  rw [sub_add_cancel] at g5
  have g6 := abs_sub_abs_le_abs_sub (E - es) d
  rw [abs_sub_comm (E - es) d] at g6
  have g7 : |E - es| ≤ 4.3 := by nlinarith [abs_nonneg (E - es)]
  have g8 := mul_le_mul_of_nonneg_left g7 hu.le
  have t1 := abs_add_le (d - Mc) (-(d - (E - es)))
  have t2 := abs_add_le (d - Mc + -(d - (E - es))) (es - ecc * sin E)
  rw [show d - Mc + -(d - (E - es)) + (es - ecc * sin E) = E - ecc * sin E - Mc by ring] at t2
  rw [abs_neg] at t1
  linarith

/-- Kepler's equation is stable. -/
theorem kepler_stable {e x y δ : ℝ} (h0 : 0 ≤ e) (h1 : e < 1) (h : |x - e * sin x - (y - e * sin y)| ≤ δ) : |x - y| ≤ δ / (1 - e) := by
  rw [le_div_iff₀ (by linarith)]
  have hl : |sin x - sin y| ≤ |x - y| := Real.abs_sin_sub_sin_le x y
  have := abs_sub_abs_le_abs_sub (x - y) (e * (sin x - sin y))
  rw [abs_mul, abs_of_nonneg h0, show x - y - e * (sin x - sin y) = x - e * sin x - (y - e * sin y) by ring] at this
  nlinarith [abs_nonneg (x - y)]

/-- The root finder always ends before the largest number of iterations. -/
def SolverD.Quick (sv : SolverD) : Prop := ∀ f g lo hi, (sv f g lo hi).2 ≠ 100

/-- **C93, eccentric anomaly**: when the root finder leaves at most `tol` of Kepler's equation, as evaluated by the code, the eccentric anomaly is that of
the exact equation up to full turns and up to `(tol + 64 · 2⁻⁵³) / (1 - e)`. -/
theorem C93_m2e {A : LibmT} (hA : A.Double) (hat : ∀ y x, |A.atan2 y x - atan2 y x| ≤ 4 * u * |atan2 y x|) {sv : SolverD} (hq : sv.Quick) {M ecc tol E : ℝ}
    (h0 : 0 ≤ ecc) (h1 : ecc < 1) (ht : tol ≤ 1) (hE : E - ecc * sin E = M)
    (hres : ∀ E', m2eD A sv M ecc = .ok (some E') → |kepED A E' (A.atan2 (A.sin M) (A.cos M)) ecc| ≤ tol) :
    ∃ E', m2eD A sv M ecc = .ok (some E') ∧ ∃ k : ℤ, |E' - E - 2 * π * k| ≤ (tol + 64 * (1 / 2 ^ 53)) / (1 - ecc) := by
  change ∃ E', _ ∧ ∃ k : ℤ, _ ≤ (tol + 64 * u) / (1 - ecc)
  obtain ⟨⟨k, hk⟩, hb⟩ := wrap_err hA.libm hat M
  obtain ⟨E', hr⟩ : ∃ E', m2eD A sv M ecc = .ok (some E') := by
    unfold m2eD
    rw [if_neg h1.not_ge]
    dsimp only
    rw [if_neg (hq _ _ _ _)]
    exact ⟨_, rfl⟩
  refine ⟨E', hr, k, ?_⟩
  have h2 := kepED_err hA h0 h1 hb ht (hres E' hr)
  have hp : sin (E + 2 * π * k) = sin E := by rw [show E + 2 * π * k = E + k * (2 * π) by ring, sin_add_int_mul_two_pi]
  have h3 : |E' - ecc * sin E' - ((E + 2 * π * k) - ecc * sin (E + 2 * π * k))| ≤ tol + 64 * u := by
    rw [hp, show E' - ecc * sin E' - ((E + 2 * π * k) - ecc * sin E) = (E' - ecc * sin E' - A.atan2 (A.sin M) (A.cos M)) +
      (A.atan2 (A.sin M) (A.cos M) - M - 2 * π * k) by rw [← hE]; ring]
    refine (abs_add_le _ _).trans ?_
    linarith
  have := kepler_stable h0 h1 h3
  rwa [show E' - (E + 2 * π * k) = E' - E - 2 * π * k by ring] at this

/-- A solution of Kepler's equation. -/
theorem kepler_root {e : ℝ} (h0 : 0 ≤ e) (h1 : e < 1) (M : ℝ) : ∃ E, E - e * sin E = M ∧ |E| ≤ |M| + 1 := by
  have hc : Continuous fun E : ℝ => E - e * sin E := by fun_prop
  have b : ∀ E : ℝ, |e * sin E| ≤ 1 := fun E => by
    rw [abs_mul, abs_of_nonneg h0]; nlinarith [abs_sin_le_one E, abs_nonneg (sin E)]
  have l := abs_le.1 (b (M - 1))
  have r := abs_le.1 (b (M + 1))
  obtain ⟨E, hE, hE'⟩ := intermediate_value_Icc (show M - 1 ≤ M + 1 by linarith) hc.continuousOn (show M ∈ Set.Icc _ _ from ⟨by linarith, by linarith⟩)
  refine ⟨E, hE', ?_⟩
  have : |E - M| ≤ 1 := abs_le.2 ⟨by linarith [hE.1], by linarith [hE.2]⟩
  have := abs_add_le (E - M) M
  rw [sub_add_cancel] at this
  linarith

/-- The hypothesis on the root finder can be met for all eccentricities and mean anomalies, with a tolerance of 40 units of roundoff. -/
theorem kepED_attainable {A : LibmT} (hA : A.Double) {Mc ecc : ℝ} (h0 : 0 ≤ ecc) (h1 : ecc < 1) (hM : |Mc| ≤ 3.15) :
    ∃ E, Rep E ∧ |kepED A E Mc ecc| ≤ 40 * u := by
  have hu := u_pos
  have hus := u_small
  obtain ⟨E, hE, hb⟩ := kepler_root h0 h1 Mc
  refine ⟨rn E, rep_rn E, ?_⟩
  unfold kepED
  rw [hA.libm.arith.rd]
  have e0 := rn_err' E
  have e0' : u * |E| ≤ u * 4.15 := mul_le_mul_of_nonneg_left (by linarith) hu.le
  generalize rn E = x at *
  have s0 : |sin x - sin E| ≤ |x - E| := Real.abs_sin_sub_sin_le x E
  have s1 := sin_err hA.libm x
  have s2 := abs_sin_le_one E
  have s3 := abs_add_le (A.sin x - sin x) (sin x - sin E)
  rw [sub_add_sub_cancel] at s3
  have s4 := abs_add_le (A.sin x - sin E) (sin E)
  rw [sub_add_cancel] at s4
  have e1 := rn_err' (ecc * A.sin x)
  have e2 : |ecc * A.sin x - ecc * sin E| ≤ 8.2 * u := by
    rw [← mul_sub, abs_mul, abs_of_nonneg h0]
    nlinarith [abs_nonneg (A.sin x - sin E)]
  have e3 : |ecc * A.sin x| ≤ 1.01 := by rw [abs_mul, abs_of_nonneg h0]; nlinarith [abs_nonneg (A.sin x)]
  have e4 := mul_le_mul_of_nonneg_left e3 hu.le
  generalize rn (ecc * A.sin x) = es at *
  have g1 := rn_err' (x - es)
  have t1 := abs_add_le (es - ecc * A.sin x) (ecc * A.sin x - ecc * sin E)
  rw [sub_add_sub_cancel] at t1
  have t2 := abs_add_le (x - E) (-(es - ecc * sin E))
  rw [show x - E + -(es - ecc * sin E) = x - es - Mc by rw [← hE]; ring, abs_neg] at t2
  have t3 := abs_add_le (x - es - Mc) Mc
  rw [sub_add_cancel] at t3
  have g2 : u * |x - es| ≤ u * 3.2 := mul_le_mul_of_nonneg_left (by linarith) hu.le
  generalize rn (x - es) = d at *
  have g3 := rn_err' (d - Mc)
  have t4 := abs_add_le (d - (x - es)) (x - es - Mc)
  rw [show d - (x - es) + (x - es - Mc) = d - Mc by ring] at t4
  have g4 : u * |d - Mc| ≤ u * 1 := mul_le_mul_of_nonneg_left (by linarith) hu.le
  have t5 := abs_add_le (rn (d - Mc) - (d - Mc)) (d - Mc)
  rw [sub_add_cancel] at t5
  linarith

/-- The hypotheses are met with the library of correct roundings and a root finder that leaves 40 units of roundoff, at eccentricity 0.9 and mean anomaly 3. -/
example : ∃ sv : SolverD, sv.Quick ∧ ∀ E', m2eD .rounded sv 3 0.9 = .ok (some E') →
    |kepED .rounded E' (LibmT.rounded.atan2 (LibmT.rounded.sin 3) (LibmT.rounded.cos 3)) 0.9| ≤ 40 * u := by
  have hat : ∀ y x, |LibmT.rounded.atan2 y x - atan2 y x| ≤ 4 * u * |atan2 y x| := fun y x => rn_err4 _
  obtain ⟨E, -, hE⟩ := kepED_attainable LibmT.rounded_double (ecc := 0.9) (by norm_num) (by norm_num) (wrap_err LibmT.rounded_double.libm hat 3).2
  refine ⟨fun _ _ _ _ => (E, 0), fun _ _ _ _ => by simp, fun E' h => ?_⟩
  unfold m2eD at h
  rw [if_neg (by norm_num)] at h
  simp only [OfNat.zero_ne_ofNat, if_false, Res.ok.injEq, Option.some.injEq] at h
  rw [← h]
  exact hE

end Kep3
