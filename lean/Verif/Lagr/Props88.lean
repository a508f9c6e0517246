import Verif.Lagr.UDouble
import Verif.Lagr.URun
import Verif.Flyby.Props84
import Mathlib.Analysis.SpecialFunctions.Trigonometric.Series

/-!
# Universal variables in double precision, near a parabola
-/

namespace Kep3
open Real V3 Fl

/-- What is assumed of the library: accuracy to four units in the last place, and the rounded result for tiny arguments (which
implementations treat apart). -/
structure Libm.Double (A : Libm) : Prop where
  arith : A.toArith.Double
  sin : ∀ x, |A.sin x - Real.sin x| ≤ 4 * u * |Real.sin x|
  sinh : ∀ x, |A.sinh x - Real.sinh x| ≤ 4 * u * |Real.sinh x|
  cosh : ∀ x, |A.cosh x - Real.cosh x| ≤ 4 * u * Real.cosh x
  pow : ∀ x p, 0 < x → |A.pow x p - x ^ p| ≤ 4 * u * x ^ p
  sin_tiny : ∀ x, |x| ≤ 1 / 2 ^ 27 → A.sin x = rn (Real.sin x)
  cos_tiny : ∀ x, |x| ≤ 1 / 2 ^ 27 → A.cos x = rn (Real.cos x)
  sinh_tiny : ∀ x, |x| ≤ 1 / 2 ^ 27 → A.sinh x = rn (Real.sinh x)
  cosh_tiny : ∀ x, |x| ≤ 1 / 2 ^ 27 → A.cosh x = rn (Real.cosh x)
  /-- `std::cos` answers with a double between -1 and 1. -/
  cos_range : ∀ x, Rep (A.cos x) ∧ -1 ≤ A.cos x ∧ A.cos x ≤ 1

/-- A library with correct rounding. -/
noncomputable def Libm.rounded : Libm :=
  ⟨Arith.rounded, fun x => rn (Real.sin x), fun x => rn (Real.sinh x), fun x => rn (Real.cosh x), fun x p => rn (x ^ p),
    fun y x => rn (Kep3.atan2 y x)⟩

theorem Libm.rounded_double : Libm.rounded.Double where
  arith := Arith.rounded_double
  sin x := (rn_err' _).trans (by have := u_pos; have := abs_nonneg (Real.sin x); nlinarith)
  sinh x := (rn_err' _).trans (by have := u_pos; have := abs_nonneg (Real.sinh x); nlinarith)
  cosh x := (rn_err' _).trans (by have := u_pos; have := cosh_pos x; rw [abs_of_pos this]; nlinarith)
  pow x p h := (rn_err' _).trans (by have := u_pos; have := rpow_pos_of_pos h p; rw [abs_of_pos this]; nlinarith)
  sin_tiny _ _ := rfl
  cos_tiny _ _ := rfl
  sinh_tiny _ _ := rfl
  cosh_tiny _ _ := rfl
  cos_range x := by
    have h1 : rn (1 : ℝ) = 1 := rn_rep ⟨1, 0, by norm_num, by simp⟩
    refine ⟨rep_rn _, ?_, ?_⟩
    · have := rn_mono (neg_one_le_cos x); rwa [rn_neg, h1] at this
    · have := rn_mono (cos_le_one x); rwa [h1] at this

/-! ## Rounding next to a double -/

theorem significand {x : ℝ} (hx : 0 < x) (hr : Rep x) : ∃ m e : Int, 2 ^ 52 ≤ m ∧ m < 2 ^ 53 ∧ x = m * (2 : ℝ) ^ e := by
  have x0 := hx.ne'
  have h := rn_rep hr
  unfold rn at h
  rw [if_neg x0] at h
  refine ⟨rhe (x / ulp x), Int.log 2 |x| - 52, ?_, ?_, h.symm⟩
  · have h2 := le_abs x0
    rw [abs_of_pos hx] at h2
    have h3 : (2 ^ 52 : ℝ) * ulp x ≤ rhe (x / ulp x) * ulp x := by rw [h]; exact h2
    have := le_of_mul_le_mul_right h3 (ulp_pos x)
    exact_mod_cast this
  · have h2 := abs_lt' x
    rw [abs_of_pos hx] at h2
    have h3 : (rhe (x / ulp x) : ℝ) * ulp x < 2 ^ 53 * ulp x := by rw [h]; exact h2
    have := lt_of_mul_lt_mul_right h3 (ulp_pos x).le
    exact_mod_cast this

/-- A number within a quarter of a unit in the last place of a double rounds to it. -/
theorem rn_close {x y : ℝ} (hy : 0 < y) (hr : Rep y) (h : |x - y| < y / 2 ^ 54) : rn x = y := by
  obtain ⟨m, e, h1, h2, rfl⟩ := significand hy hr
  have he : (0 : ℝ) < 2 ^ e := by positivity
  have hm1 : (2 ^ 52 : ℝ) ≤ m := by exact_mod_cast h1
  have hm2 : (m : ℝ) ≤ 2 ^ 53 - 1 := by
    have : m ≤ 2 ^ 53 - 1 := by omega
    exact_mod_cast this
  have hq : (m : ℝ) * 2 ^ e / 2 ^ 54 ≤ 2 ^ e / 2 := by
    rw [div_le_iff₀ (by positivity)]; nlinarith
  obtain ⟨a, b⟩ := abs_lt.1 (h.trans_le hq)
  by_cases hc : (2 ^ 52 : ℝ) * 2 ^ e ≤ x
  · have x0 : 0 ≤ x := le_trans (by positivity) hc
    apply rn_eval m e
    · rwa [abs_of_nonneg x0]
    · rw [abs_of_nonneg x0]; nlinarith
    · rw [show (m : ℝ) - x / 2 ^ e = (m * 2 ^ e - x) / 2 ^ e by field_simp, abs_div, abs_of_pos he, div_lt_iff₀ he, abs_lt]
      constructor <;> linarith
  · have hm : m = 2 ^ 52 := by
      by_contra hne
      have : (2 ^ 52 + 1 : ℝ) ≤ m := by
        have : 2 ^ 52 + 1 ≤ m := by omega
        exact_mod_cast this
      apply hc; nlinarith
    subst hm
    push_cast at *
    have he1 : (2 : ℝ) ^ e = 2 * 2 ^ (e - 1) := by rw [zpow_sub₀ (by norm_num)]; norm_num; ring
    have hp : (0 : ℝ) < 2 ^ (e - 1) := by positivity
    obtain ⟨a', b'⟩ := abs_lt.1 h
    rw [he1] at a b a' b' hc ⊢
    have hlt := not_le.1 hc
    have x0 : 0 ≤ x := by nlinarith
    rw [rn_eval (2 ^ 53) (e - 1) (x := x)]
    · rw [show ((2 ^ 53 : ℤ) : ℝ) = 2 * 2 ^ 52 by norm_num]; norm_num; ring
    · rw [abs_of_nonneg x0]; nlinarith
    · rw [abs_of_nonneg x0]; linarith
    · rw [show ((2 ^ 53 : ℤ) : ℝ) - x / 2 ^ (e - 1) = (2 ^ 53 * 2 ^ (e - 1) - x) / 2 ^ (e - 1) by push_cast; field_simp; norm_num; ring, abs_div,
        abs_of_pos hp, div_lt_iff₀ hp, abs_lt]
      constructor <;> linarith

/-! ## The functions at tiny arguments -/

theorem rep_one : Rep (1 : ℝ) := ⟨1, 0, by norm_num, by simp⟩

theorem sq_tiny {y : ℝ} (h0 : 0 ≤ y) (h : y ≤ 1 / 2 ^ 27) : y ^ 2 ≤ 1 / 2 ^ 54 := by
  have : y ^ 2 ≤ (1 / 2 ^ 27) ^ 2 := pow_le_pow_left₀ h0 h 2
  norm_num at *; linarith

theorem cos_rounds {y : ℝ} (h0 : 0 ≤ y) (h : y ≤ 1 / 2 ^ 27) : rn (Real.cos y) = 1 := by
  apply rn_close one_pos rep_one
  have h1 := one_sub_sq_div_two_le_cos (x := y)
  have h2 := cos_le_one y
  have := sq_tiny h0 h
  rw [abs_lt]
  constructor <;> norm_num at * <;> linarith

theorem sin_rounds {y : ℝ} (h0 : 0 < y) (hr : Rep y) (h : y ≤ 1 / 2 ^ 27) : rn (Real.sin y) = y := by
  apply rn_close h0 hr
  have h1 := sin_gt_sub_cube h0
  have h2 := sin_le h0.le
  have h4 := mul_le_mul_of_nonneg_left (sq_tiny h0.le h) h0.le
  have h3 : y ^ 3 / 6 ≤ y / 2 ^ 54 / 6 := by
    have : y ^ 3 = y * y ^ 2 := by ring
    rw [this]; linarith
  have : 0 < y / 2 ^ 54 := by positivity
  rw [abs_lt]
  constructor <;> linarith

theorem cosh_sub_one {y : ℝ} (h : y ^ 2 ≤ 1) : Real.cosh y - 1 ≤ y ^ 2 := by
  have h1 := cosh_le_exp_half_sq y
  have h2 := Real.exp_bound_div_one_sub_of_interval (x := y ^ 2 / 2) (by positivity) (by linarith)
  have h3 : 1 / (1 - y ^ 2 / 2) ≤ 1 + y ^ 2 := by
    rw [div_le_iff₀ (by linarith)]; nlinarith [sq_nonneg y]
  linarith

theorem cosh_sub_one' {y : ℝ} (h0 : 0 ≤ y) (h : y ≤ 1 / 2 ^ 27) : Real.cosh y - 1 < 1 / 2 ^ 54 := by
  have h1 := cosh_le_exp_half_sq y
  have hy := sq_tiny h0 h
  have h2 := Real.exp_bound_div_one_sub_of_interval (x := y ^ 2 / 2) (by positivity) (by norm_num at *; linarith)
  have h3 : 1 / (1 - y ^ 2 / 2) < 1 + 1 / 2 ^ 54 := by
    rw [div_lt_iff₀ (by norm_num at *; linarith)]; norm_num at *; linarith
  linarith

theorem sinh_le_mul_cosh {y : ℝ} (h : 0 ≤ y) : Real.sinh y ≤ y * Real.cosh y := by
  have hm : MonotoneOn (fun y : ℝ => y * Real.cosh y - Real.sinh y) (Set.Ici 0) := by
    apply monotoneOn_of_deriv_nonneg (convex_Ici 0)
    · exact ((continuous_id.mul Real.continuous_cosh).sub Real.continuous_sinh).continuousOn
    · intro y _
      exact (((hasDerivAt_id y).mul (Real.hasDerivAt_cosh y)).sub (Real.hasDerivAt_sinh y)).differentiableAt.differentiableWithinAt
    · intro y hy
      rw [interior_Ici] at hy
      have := (((hasDerivAt_id y).mul (Real.hasDerivAt_cosh y)).sub (Real.hasDerivAt_sinh y)).deriv
      have e : deriv (fun y : ℝ => y * Real.cosh y - Real.sinh y) y = y * Real.sinh y := by
        refine Eq.trans this ?_
        simp
      rw [e]
      exact mul_nonneg hy.le (sinh_nonneg_iff.2 hy.le)
  have := hm (Set.mem_Ici.2 le_rfl) (Set.mem_Ici.2 h) h
  simp at this
  linarith

theorem cosh_rounds {y : ℝ} (h0 : 0 ≤ y) (h : y ≤ 1 / 2 ^ 27) : rn (Real.cosh y) = 1 := by
  apply rn_close one_pos rep_one
  have h1 := cosh_sub_one' h0 h
  have h2 := one_le_cosh y
  have : (0 : ℝ) < 1 / 2 ^ 54 := by positivity
  rw [abs_lt]
  constructor <;> linarith

theorem sinh_rounds {y : ℝ} (h0 : 0 < y) (hr : Rep y) (h : y ≤ 1 / 2 ^ 27) : rn (Real.sinh y) = y := by
  apply rn_close h0 hr
  have h1 := mul_lt_mul_of_pos_left (cosh_sub_one' h0.le h) h0
  have h2 := sinh_le_mul_cosh h0.le
  have h3 : y ≤ Real.sinh y := self_le_sinh_iff.2 h0.le
  have : 0 < y / 2 ^ 54 := by positivity
  rw [abs_lt]
  constructor <;> linarith

theorem root_tiny {x : ℝ} (h0 : 0 < x) (h : x ≤ 1 / 2 ^ 54) : 0 < rn √x ∧ rn √x ≤ 1 / 2 ^ 27 := by
  have hs : √x ≤ 1 / 2 ^ 27 := by
    rw [Real.sqrt_le_left (by positivity)]; norm_num at *; linarith
  have hp := sqrt_pos.2 h0
  constructor
  · have := rn_err' √x
    rw [abs_of_pos hp] at this
    have := (abs_le.1 this).1
    have := u_small
    nlinarith
  · have := rn_mono hs
    rwa [rn_rep (x := 1 / 2 ^ 27) ⟨1, -27, by norm_num, by norm_num⟩] at this

section
variable {A : Libm} (hA : A.Double)
include hA

theorem pow_ne {x : ℝ} (p : ℝ) (hx : 0 < x) : 0 < A.pow x p := by
  have h := hA.pow x p hx
  have hp := rpow_pos_of_pos hx p
  have := (abs_le.1 h).1
  have := u_small
  nlinarith

theorem divD {a b : ℝ} (hb : b ≠ 0) : A.div? a b = some (rn (a / b)) := by
  rw [Arith.div?, div?, if_neg hb, hA.arith.rd]; rfl

theorem stumpff_tiny {x : ℝ} (h0 : x ≠ 0) (h : |x| ≤ 1 / 2 ^ 54) : stumpffCD A x = some 0 ∧ stumpffSD A x = some 0 := by
  unfold stumpffCD stumpffSD
  rw [hA.arith.rd]
  rcases lt_or_gt_of_ne h0 with hx | hx
  · have hx' : 0 < -x := by linarith
    rw [abs_of_neg hx] at h
    obtain ⟨p, q⟩ := root_tiny hx' h
    have ha : |rn √(-x)| ≤ 1 / 2 ^ 27 := by rwa [abs_of_pos p]
    rw [if_neg hx.not_gt, if_pos hx, if_neg hx.not_gt, if_pos hx, hA.cosh_tiny _ ha, hA.sinh_tiny _ ha, cosh_rounds p.le q,
      sinh_rounds p (rep_rn _) q, sub_self, sub_self, rn_zero, divD hA hx'.ne', divD hA (pow_ne hA _ hx').ne', zero_div, zero_div, rn_zero]
    exact ⟨rfl, rfl⟩
  · rw [abs_of_pos hx] at h
    obtain ⟨p, q⟩ := root_tiny hx h
    have ha : |rn √x| ≤ 1 / 2 ^ 27 := by rwa [abs_of_pos p]
    rw [if_pos hx, if_pos hx, hA.cos_tiny _ ha, hA.sin_tiny _ ha, cos_rounds p.le q, sin_rounds p (rep_rn _) q, sub_self, sub_self,
      rn_zero, divD hA hx.ne', divD hA (pow_ne hA _ p).ne', zero_div, zero_div, rn_zero]
    exact ⟨rfl, rfl⟩

/-- **C88, negation**: with the argument that small, the position is on the straight line through the initial position along the initial velocity. -/
theorem C88_no_gravity {r v : V3 ℝ} {R0 alpha mu dt DS : ℝ} {y : RV ℝ} (hr : Rep r.x ∧ Rep r.y ∧ Rep r.z) (hdt : Rep dt)
    (h0 : zD A alpha DS ≠ 0) (h : |zD A alpha DS| ≤ 1 / 2 ^ 54) (hy : uStateD A r v R0 alpha mu dt DS = some y) :
    y.r = ⟨rn (r.x + rn (dt * v.x)), rn (r.y + rn (dt * v.y)), rn (r.z + rn (dt * v.z))⟩ := by
  obtain ⟨hC, hS⟩ := stumpff_tiny hA h0 h
  unfold uStateD at hy
  have h1 : rn (1 : ℝ) = 1 := rn_rep rep_one
  simp only [hC, hS, Option.bind_eq_bind, Option.bind_some, hA.arith.rd, mul_zero, rn_zero, sub_zero, h1, rn_rep hdt, one_mul,
    rn_rep hr.1, rn_rep hr.2.1, rn_rep hr.2.2, Option.bind_eq_some_iff, Option.pure_def, Option.some.injEq] at hy
  obtain ⟨_, -, _, -, _, -, _, -, _, -, rfl⟩ := hy
  rfl

end

theorem cosh_ge_quad (y : ℝ) : y ^ 2 / 2 ≤ Real.cosh y - 1 := by
  have e : Real.cosh y - 1 = 2 * Real.sinh (y / 2) ^ 2 := by
    have := Real.cosh_two_mul (y / 2)
    rw [show 2 * (y / 2) = y by ring] at this
    have := Real.cosh_sq (y / 2)
    linarith
  have h : (y / 2) ^ 2 ≤ Real.sinh (y / 2) ^ 2 := by
    rw [← sq_abs, ← sq_abs (Real.sinh _), abs_sinh]
    exact pow_le_pow_left₀ (abs_nonneg _) (self_le_sinh_iff.2 (abs_nonneg _)) 2
  rw [e]; linarith

theorem sinh_ge_cubic {y : ℝ} (h : 0 ≤ y) : y ^ 3 / 6 ≤ Real.sinh y - y := by
  have hd : ∀ y : ℝ, HasDerivAt (fun y : ℝ => Real.sinh y - y - y ^ 3 / 6) (Real.cosh y - 1 - y ^ 2 / 2) y := by
    intro y
    have := ((Real.hasDerivAt_sinh y).sub (hasDerivAt_id y)).sub (((hasDerivAt_id y).pow 3).div_const 6)
    refine this.congr_deriv ?_
    simp only [id]
    ring
  have hm : Monotone fun y : ℝ => Real.sinh y - y - y ^ 3 / 6 := by
    apply monotone_of_deriv_nonneg (fun y => (hd y).differentiableAt)
    intro y
    rw [(hd y).deriv]
    linarith [cosh_ge_quad y]
  have := hm h
  simp at this
  linarith

/-- The exact values next to 0. -/
theorem stumpff_near_zero {x : ℝ} (h : |x| ≤ 1 / 2 ^ 54) : 0.49 ≤ stumpffC x ∧ 0.16 ≤ stumpffS x := by
  unfold stumpffC stumpffS
  rcases lt_trichotomy x 0 with hx | hx | hx
  · rw [if_neg hx.not_gt, if_pos hx, if_neg hx.not_gt, if_pos hx]
    have hx' : 0 < -x := by linarith
    have hP := rpow_pos_of_pos hx' (3 / 2)
    have hPe : (-x) ^ (3 / 2 : ℝ) = √(-x) ^ 3 := by
      rw [Real.sqrt_eq_rpow, ← Real.rpow_natCast, ← Real.rpow_mul hx'.le]; norm_num
    have hs := sq_sqrt hx'.le
    have h1 := cosh_ge_quad √(-x)
    have h2 := sinh_ge_cubic (sqrt_nonneg (-x))
    rw [le_div_iff₀ hx', le_div_iff₀ hP, hPe]
    have : 0 ≤ √(-x) ^ 3 := by positivity
    constructor <;> linarith
  · subst hx; norm_num
  · rw [if_pos hx, if_pos hx]
    rw [abs_of_pos hx] at h
    have hp := sqrt_pos.2 hx
    have hs := sq_sqrt hx.le
    have hs1 : √x ≤ 1 / 2 ^ 27 := by rw [Real.sqrt_le_left (by positivity)]; norm_num at *; linarith
    have ha : |√x| ≤ 1 := by rw [abs_of_pos hp]; norm_num at *; linarith
    have c1 := (abs_le.1 (cos_bound ha)).2
    have c2 := (abs_le.1 (sin_bound ha)).2
    rw [abs_of_pos hp] at c1 c2
    rw [le_div_iff₀ hx, le_div_iff₀ (by positivity)]
    have e4 : √x ^ 4 = x * x := by rw [show √x ^ 4 = (√x ^ 2) ^ 2 by ring, hs]; ring
    have e3 : √x ^ 5 = √x ^ 3 * x := by rw [show √x ^ 5 = √x ^ 3 * √x ^ 2 by ring, hs]
    have p3 : 0 < √x ^ 3 := by positivity
    have q3 := mul_le_mul_of_nonneg_left h p3.le
    constructor
    · rw [e4, hs] at c1
      have := mul_le_mul_of_nonneg_left h hx.le
      norm_num at *; linarith
    · rw [e3] at c2
      norm_num at *; linarith

/-- **C88, negation**: for every double at most 2^-54 in size, other than zero, both functions answer 0; the values are about 1/2 and
1/6. -/
theorem C88_stumpff_zero {A : Libm} (hA : A.Double) {x : ℝ} (h0 : x ≠ 0) (h : |x| ≤ 1 / 2 ^ 54) :
    stumpffCD A x = some 0 ∧ stumpffSD A x = some 0 ∧ 0.49 ≤ stumpffC x ∧ 0.16 ≤ stumpffS x :=
  ⟨(stumpff_tiny hA h0 h).1, (stumpff_tiny hA h0 h).2, stumpff_near_zero h⟩

/-! ## Accuracy of the functions -/

/-- Error of a rounded quotient. -/
theorem stumpff_quot_err {n N p P k l M : ℝ} (hP : 0 < P) (hp : |p - P| ≤ k * u * P) (hn : |n - N| ≤ l * u * M) (hN : |N| ≤ M)
    (hk0 : 0 ≤ k) (hk : k ≤ 100) (hl0 : 0 ≤ l) (hl : l ≤ 100) : 0 < p ∧ |rn (n / p) - N / P| ≤ (k + l + 1.1) * 1.1 * u * (M / P) := by
  have hu := u_pos
  have hu' := u_small
  have hM : 0 ≤ M := (abs_nonneg _).trans hN
  obtain ⟨p1, p2⟩ := abs_le.1 hp
  have hku : k * u ≤ 1 / 10 ^ 12 := by nlinarith
  have hlu : l * u ≤ 1 / 10 ^ 12 := by nlinarith
  have hku0 : 0 ≤ k * u := by positivity
  have hp0 : P * (1 - 1 / 10 ^ 12) ≤ p := by nlinarith
  have hpp : 0 < p := lt_of_lt_of_le (by nlinarith) hp0
  refine ⟨hpp, ?_⟩
  have hq : |n / p - N / P| ≤ (k + l) * 1.01 * u * (M / P) := by
    have e : n / p - N / P = (n - N) / p - N * (p - P) / (p * P) := by field_simp; ring
    have h1 : |(n - N) / p| ≤ l * 1.01 * u * (M / P) := by
      rw [abs_div, abs_of_pos hpp, div_le_iff₀ hpp]
      have : 1 ≤ 1.01 * (p / P) := by rw [← mul_div_assoc, le_div_iff₀ hP]; norm_num at *; linarith
      calc |n - N| ≤ l * u * M := hn
        _ = l * u * M * 1 := by ring
        _ ≤ l * u * M * (1.01 * (p / P)) := mul_le_mul_of_nonneg_left this (by positivity)
        _ = _ := by ring
    have h2 : |N * (p - P) / (p * P)| ≤ k * 1.01 * u * (M / P) := by
      rw [abs_div, abs_mul, abs_of_pos (mul_pos hpp hP), div_le_iff₀ (mul_pos hpp hP)]
      have : 1 ≤ 1.01 * (p / P) := by rw [← mul_div_assoc, le_div_iff₀ hP]; norm_num at *; linarith
      calc |N| * |p - P| ≤ M * (k * u * P) := mul_le_mul hN hp (abs_nonneg _) hM
        _ = M * (k * u * P) * 1 := by ring
        _ ≤ M * (k * u * P) * (1.01 * (p / P)) := mul_le_mul_of_nonneg_left this (by positivity)
        _ = k * 1.01 * u * (M / P) * (p * P) := by field_simp
    rw [e]
    refine (abs_sub _ _).trans ?_
    linarith
  have hr := rn_err' (n / p)
  have hMP : 0 ≤ M / P := by positivity
  have hb : |n / p| ≤ 1.01 * (M / P) := by
    have h1 : |n / p| ≤ |n / p - N / P| + |N / P| := by have := abs_add_le (n / p - N / P) (N / P); simpa using this
    have h2 : |N / P| ≤ M / P := by rw [abs_div, abs_of_pos hP]; exact div_le_div_of_nonneg_right hN hP.le
    have h3 : (k + l) * 1.01 * u * (M / P) ≤ 0.01 * (M / P) := mul_le_mul_of_nonneg_right (by norm_num at *; linarith) hMP
    linarith
  have h3 : |rn (n / p) - N / P| ≤ |rn (n / p) - n / p| + |n / p - N / P| := abs_sub_le _ _ _
  have h4 : u * |n / p| ≤ u * (1.01 * (M / P)) := mul_le_mul_of_nonneg_left hb hu.le
  have h5 : 0 ≤ u * (M / P) := by positivity
  nlinarith

theorem stumpff_root_err {x : ℝ} (h0 : 0 < x) : |rn √x - √x| ≤ u * √x ∧ 0 < √x ∧ 0 < rn √x ∧ rn √x ≤ 1.01 * √x := by
  have hp := sqrt_pos.2 h0
  have h := rn_err' √x
  rw [abs_of_pos hp] at h
  obtain ⟨a, b⟩ := abs_le.1 h
  have := u_small
  exact ⟨h, hp, by nlinarith, by nlinarith⟩

theorem sinh_small {t : ℝ} (h : |t| ≤ 1) : |Real.sinh t| ≤ 2 * |t| := by
  have e : |Real.sinh t| = Real.sinh |t| := abs_sinh t
  rw [e]
  have h1 := sinh_le_mul_cosh (abs_nonneg t)
  have h2 := cosh_sub_one (y := |t|) (by rw [sq_abs]; rw [← sq_abs]; nlinarith [abs_nonneg t])
  have h3 : |t| ^ 2 ≤ 1 := by nlinarith [abs_nonneg t]
  nlinarith [abs_nonneg t]

section
variable {A : Libm} (hA : A.Double)
include hA

/-- **C88, what holds**: `stumpff_c` away from 0. -/
theorem C88_stumpff_c_partial {x : ℝ} (h0 : x ≠ 0) (h1 : -1 ≤ x) :
    ∃ c, stumpffCD A x = some c ∧ |c - stumpffC x| ≤ 32 * u * (1 + √|x|) / |x| := by
  have hu := u_pos
  have hu' := u_small
  unfold stumpffCD stumpffC
  rcases lt_or_gt_of_ne h0 with hx | hx
  · have hx' : 0 < -x := by linarith
    rw [if_neg hx.not_gt, if_pos hx, if_neg hx.not_gt, if_pos hx, divD hA hx'.ne', abs_of_neg hx, hA.arith.rd]
    obtain ⟨e, y0, r0, -⟩ := stumpff_root_err hx'
    have y1 : √(-x) ≤ 1 := by rw [Real.sqrt_le_left zero_le_one]; linarith
    have r1 : rn √(-x) ≤ 1 := by have := rn_mono y1; rwa [rn_rep rep_one] at this
    generalize √(-x) = y at *
    generalize rn y = w at *
    have hw := cosh_sub_one (y := w) (by nlinarith)
    have hy := cosh_sub_one (y := y) (by nlinarith)
    have hc := hA.cosh w
    have hw1 := one_le_cosh w
    have hy1 := one_le_cosh y
    have hw2 : w ^ 2 ≤ 1 := by nlinarith
    have hy2 : y ^ 2 ≤ 1 := by nlinarith
    have hd : |Real.cosh w - Real.cosh y| ≤ 4 * u := by
      have e1 : Real.cosh w - Real.cosh y = 2 * Real.sinh ((w + y) / 2) * Real.sinh ((w - y) / 2) := by
        rw [show w = (w + y) / 2 + (w - y) / 2 by ring, show y = (w + y) / 2 - (w - y) / 2 by ring]
        rw [Real.cosh_add, Real.cosh_sub]; ring_nf
      have s1 := sinh_small (t := (w + y) / 2) (by rw [abs_le]; constructor <;> linarith)
      have s2 := sinh_small (t := (w - y) / 2) (by rw [abs_le]; constructor <;> linarith)
      have a1 : |(w + y) / 2| ≤ 1 := by rw [abs_le]; constructor <;> linarith
      have a2 : |(w - y) / 2| ≤ u / 2 := by rw [abs_div, abs_two]; nlinarith
      rw [e1, abs_mul, abs_mul, abs_two]
      have := mul_le_mul (s1.trans (by linarith : 2 * |(w + y) / 2| ≤ 2)) (s2.trans (by linarith : 2 * |(w - y) / 2| ≤ u)) (abs_nonneg _) zero_le_two
      linarith
    generalize A.cosh w = c at *
    have hr := rn_err' (c - 1)
    have hc8 : |c - Real.cosh w| ≤ 8 * u := hc.trans (by nlinarith)
    obtain ⟨c1, c2⟩ := abs_le.1 hc8
    obtain ⟨d1, d2⟩ := abs_le.1 hd
    have hcb : |c - 1| ≤ 1.1 := by rw [abs_le]; constructor <;> linarith
    have hr' : |rn (c - 1) - (c - 1)| ≤ 1.1 * u := hr.trans (by nlinarith)
    obtain ⟨r3, r4⟩ := abs_le.1 hr'
    have hn : |rn (c - 1) - (Real.cosh y - 1)| ≤ 6.6 * u * (2 * (1 + y)) := by
      have : 0 ≤ u * y := by positivity
      rw [abs_le]; constructor <;> nlinarith
    obtain ⟨-, h⟩ := stumpff_quot_err (p := -x) hx' (k := 0) (by simp) hn (by rw [abs_le]; constructor <;> nlinarith) le_rfl (by norm_num) (by norm_num) (by norm_num)
    refine ⟨_, rfl, h.trans ?_⟩
    rw [mul_div_assoc', div_le_div_iff_of_pos_right hx']
    have : 0 ≤ u * (1 + y) := by positivity
    nlinarith
  · rw [if_pos hx, if_pos hx, divD hA hx.ne', abs_of_pos hx, hA.arith.rd]
    obtain ⟨e, y0, r0, -⟩ := stumpff_root_err hx
    generalize √x = y at *
    generalize rn y = w at *
    have hc := hA.arith.cos w
    have hd := (abs_cos_sub_cos_le w y).trans e
    have hc' : |A.cos w - Real.cos w| ≤ 2 * u := hc.trans (by unfold u; norm_num)
    have k1 := neg_one_le_cos w
    have k2 := cos_le_one w
    have k3 := neg_one_le_cos y
    have k4 := cos_le_one y
    generalize A.cos w = c at *
    have hr := rn_err' (1 - c)
    obtain ⟨c1, c2⟩ := abs_le.1 hc'
    obtain ⟨d1, d2⟩ := abs_le.1 hd
    have hcb : |1 - c| ≤ 2.1 := by rw [abs_le]; constructor <;> linarith
    have hr' : |rn (1 - c) - (1 - c)| ≤ 2.1 * u := hr.trans (by nlinarith)
    obtain ⟨r3, r4⟩ := abs_le.1 hr'
    have hn : |rn (1 - c) - (1 - Real.cos y)| ≤ 2.1 * u * (2 * (1 + y)) := by
      have : 0 ≤ u * y := by positivity
      rw [abs_le]; constructor <;> nlinarith
    obtain ⟨-, h⟩ := stumpff_quot_err (p := x) hx (k := 0) (by simp) hn (by rw [abs_le]; constructor <;> linarith) le_rfl (by norm_num) (by norm_num) (by norm_num)
    refine ⟨_, rfl, h.trans ?_⟩
    rw [mul_div_assoc', div_le_div_iff_of_pos_right hx]
    have : 0 ≤ u * (1 + y) := by positivity
    nlinarith

/-- **C88, what holds**: `stumpff_s` away from 0. -/
theorem C88_stumpff_s_partial {x : ℝ} (h0 : x ≠ 0) (h1 : -1 ≤ x) :
    ∃ c, stumpffSD A x = some c ∧ |c - stumpffS x| ≤ 64 * u / |x| := by
  have hu := u_pos
  have hu' := u_small
  unfold stumpffSD stumpffS
  rcases lt_or_gt_of_ne h0 with hx | hx
  · have hx' : 0 < -x := by linarith
    have r32 : A.rd (3 / 2) = 3 / 2 := by rw [hA.arith.rd]; exact rn_rep ⟨3, -1, by norm_num, by norm_num⟩
    rw [if_neg hx.not_gt, if_pos hx, if_neg hx.not_gt, if_pos hx, r32, divD hA (pow_ne hA _ hx').ne', abs_of_neg hx, hA.arith.rd]
    have hp := hA.pow (-x) (3 / 2) hx'
    have hP := rpow_pos_of_pos hx' (3 / 2)
    have hPe : (-x) ^ (3 / 2 : ℝ) = √(-x) * (-x) := by
      rw [Real.sqrt_eq_rpow, show (3 / 2 : ℝ) = 1 / 2 + 1 by norm_num, Real.rpow_add hx', Real.rpow_one]
    obtain ⟨e, y0, r0, r01⟩ := stumpff_root_err hx'
    have y1 : √(-x) ≤ 1 := by rw [Real.sqrt_le_left zero_le_one]; linarith
    have r1 : rn √(-x) ≤ 1 := by have := rn_mono y1; rwa [rn_rep rep_one] at this
    generalize √(-x) = y at *
    generalize rn y = w at *
    have hc := hA.sinh w
    have hw := sinh_small (t := w) (by rw [abs_of_pos r0]; exact r1)
    have hy := sinh_small (t := y) (by rw [abs_of_pos y0]; exact y1)
    have hy3 : y ≤ Real.sinh y := self_le_sinh_iff.2 y0.le
    rw [abs_of_pos r0] at hw
    rw [abs_of_pos y0] at hy
    have hy2 := (abs_le.1 hy).2
    obtain ⟨w1, w2⟩ := abs_le.1 hw
    have hd : |Real.sinh w - Real.sinh y| ≤ 4 * u * y := by
      have e1 : Real.sinh w - Real.sinh y = 2 * Real.cosh ((w + y) / 2) * Real.sinh ((w - y) / 2) := by
        rw [show w = (w + y) / 2 + (w - y) / 2 by ring, show y = (w + y) / 2 - (w - y) / 2 by ring]
        rw [Real.sinh_add, Real.sinh_sub]; ring_nf
      have s1 := cosh_sub_one (y := (w + y) / 2) (by nlinarith)
      have s3 : ((w + y) / 2) ^ 2 ≤ 1 := by nlinarith
      have s2 := sinh_small (t := (w - y) / 2) (by rw [abs_le]; constructor <;> linarith)
      have a2 : |(w - y) / 2| ≤ u * y / 2 := by rw [abs_div, abs_two]; linarith
      rw [e1, abs_mul, abs_mul, abs_two, abs_of_pos (cosh_pos _)]
      have := mul_le_mul (by linarith : Real.cosh ((w + y) / 2) ≤ 2) (s2.trans (by linarith : 2 * |(w - y) / 2| ≤ u * y)) (abs_nonneg _) zero_le_two
      linarith
    generalize A.sinh w = c at *
    have hr := rn_err' (c - w)
    have huy : 0 < u * y := by positivity
    have hc8 : |c - Real.sinh w| ≤ 8.1 * u * y := hc.trans (by
      have := mul_le_mul_of_nonneg_left hw (by positivity : 0 ≤ 4 * u)
      have := mul_le_mul_of_nonneg_left r01 hu.le
      linarith)
    have huy' : u * y ≤ 0.001 * y := mul_le_mul_of_nonneg_right (by norm_num at *; linarith) y0.le
    obtain ⟨c1, c2⟩ := abs_le.1 hc8
    obtain ⟨d1, d2⟩ := abs_le.1 hd
    obtain ⟨e1, e2⟩ := abs_le.1 e
    have hcb : |c - w| ≤ 3.1 * y := by rw [abs_le]; constructor <;> linarith
    have hr' : |rn (c - w) - (c - w)| ≤ 3.1 * (u * y) := hr.trans (by have := mul_le_mul_of_nonneg_left hcb hu.le; linarith)
    obtain ⟨r3, r4⟩ := abs_le.1 hr'
    have hn : |rn (c - w) - (Real.sinh y - y)| ≤ 8.2 * u * (2 * y) := by
      rw [abs_le]; constructor <;> linarith
    obtain ⟨-, h⟩ := stumpff_quot_err hP hp hn (by rw [abs_le]; constructor <;> linarith) (by norm_num) (by norm_num) (by norm_num) (by norm_num)
    refine ⟨_, rfl, h.trans ?_⟩
    rw [hPe, show 2 * y / (y * -x) = 2 / (-x) by field_simp, mul_div_assoc', div_le_div_iff_of_pos_right hx']
    linarith
  · rw [if_pos hx, if_pos hx, hA.arith.rd, abs_of_pos hx]
    obtain ⟨e, y0, r0, r01⟩ := stumpff_root_err hx
    have hxy : √x ^ 2 = x := sq_sqrt hx.le
    rw [divD hA (pow_ne hA _ r0).ne']
    generalize √x = y at *
    generalize rn y = w at *
    have hp3 := hA.pow w 3 r0
    have e3 : w ^ (3 : ℝ) = w ^ 3 := by rw [← Real.rpow_natCast]; norm_num
    rw [e3] at hp3
    have hP : 0 < y ^ 3 := by positivity
    have n1 : Near 1 y w := ⟨y0.le, zero_le_one, by norm_num, by linarith⟩
    have n3 : Near (1 + 1 + 0.01 + 1 + 0.01) (y ^ 3) (w ^ 3) := by
      have := (n1.mul n1 (by norm_num)).mul n1 (by norm_num)
      rwa [show y * y * y = y ^ 3 by ring, show w * w * w = w ^ 3 by ring] at this
    have n3 := n3.abs_le
    have hp : |A.pow w 3 - y ^ 3| ≤ 7.1 * u * y ^ 3 := by
      obtain ⟨a1, a2⟩ := abs_le.1 hp3
      obtain ⟨b1, b2⟩ := abs_le.1 n3
      have huP : 0 < u * y ^ 3 := by positivity
      have huP' : u * y ^ 3 ≤ 0.001 * y ^ 3 := mul_le_mul_of_nonneg_right (by norm_num at *; linarith) hP.le
      have hw3 : w ^ 3 ≤ 1.01 * y ^ 3 := by linarith
      have := mul_le_mul_of_nonneg_left hw3 hu.le
      rw [abs_le]; constructor <;> linarith
    have hc := hA.sin w
    have hd : |Real.sin w - Real.sin y| ≤ u * y := (abs_sin_sub_sin_le w y).trans e
    have hs1 : |Real.sin w| ≤ w := by have := abs_sin_le_abs (x := w); rwa [abs_of_pos r0] at this
    have hs2 : |Real.sin y| ≤ y := by have := abs_sin_le_abs (x := y); rwa [abs_of_pos y0] at this
    generalize A.sin w = c at *
    have hr := rn_err' (w - c)
    have huy : 0 < u * y := by positivity
    have huy' : u * y ≤ 0.001 * y := mul_le_mul_of_nonneg_right (by norm_num at *; linarith) y0.le
    have hc8 : |c - Real.sin w| ≤ 4.1 * (u * y) := hc.trans (by
      have := mul_le_mul_of_nonneg_left (hs1.trans r01) (by positivity : 0 ≤ 4 * u)
      linarith)
    obtain ⟨c1, c2⟩ := abs_le.1 hc8
    obtain ⟨d1, d2⟩ := abs_le.1 hd
    obtain ⟨e1, e2⟩ := abs_le.1 e
    obtain ⟨f1, f2⟩ := abs_le.1 hs2
    have hcb : |w - c| ≤ 2.1 * y := by rw [abs_le]; constructor <;> linarith
    have hr' : |rn (w - c) - (w - c)| ≤ 2.1 * (u * y) := hr.trans (by have := mul_le_mul_of_nonneg_left hcb hu.le; linarith)
    obtain ⟨r3, r4⟩ := abs_le.1 hr'
    have hn : |rn (w - c) - (y - Real.sin y)| ≤ 4.2 * u * (2 * y) := by
      rw [abs_le]; constructor <;> linarith
    obtain ⟨-, h⟩ := stumpff_quot_err hP hp hn (by rw [abs_le]; constructor <;> linarith) (by norm_num) (by norm_num) (by norm_num) (by norm_num)
    refine ⟨_, rfl, h.trans ?_⟩
    rw [show 2 * y / y ^ 3 = 2 / x by rw [← hxy]; field_simp, mul_div_assoc', div_le_div_iff_of_pos_right hx]
    linarith

end

/-! ## An ellipse next to a parabola -/

/-- A state on an ellipse of semi-major axis about 2^60, at distance 256. -/
noncomputable def nearPar : RV ℝ := ⟨⟨256, 0, 0⟩, ⟨1 / 16, 1 / 16 * (1 - 1 / 2 ^ 53), 0⟩⟩

theorem nearPar_rep : Rep nearPar.v.y := ⟨2 ^ 53 - 1, -57, by norm_num, by unfold nearPar; push_cast; norm_num⟩

/-- The energy is computed exactly, up to a part in 2^54. -/
theorem nearPar_v2 : rn (rn (rn (nearPar.v.x * nearPar.v.x) + rn (nearPar.v.y * nearPar.v.y)) + rn (nearPar.v.z * nearPar.v.z))
    = 1 / 2 ^ 7 - 1 / 2 ^ 60 := by
  have h1 : rn (nearPar.v.x * nearPar.v.x) = 1 / 2 ^ 8 := by
    rw [show nearPar.v.x * nearPar.v.x = 1 / 2 ^ 8 by unfold nearPar; norm_num]
    exact rn_rep ⟨1, -8, by norm_num, by norm_num⟩
  have h2 : rn (nearPar.v.y * nearPar.v.y) = 1 / 2 ^ 8 - 1 / 2 ^ 60 := by
    rw [rn_eval (2 ^ 53 - 2) (-61)]
    · push_cast; norm_num
    · unfold nearPar; norm_num
    · unfold nearPar; norm_num
    · unfold nearPar; push_cast; norm_num
  have h3 : rn (nearPar.v.z * nearPar.v.z) = 0 := by
    rw [show nearPar.v.z * nearPar.v.z = 0 by unfold nearPar; simp, rn_zero]
  rw [h1, h2, h3, add_zero]
  have : rn (1 / 2 ^ 8 + (1 / 2 ^ 8 - 1 / 2 ^ 60) : ℝ) = 1 / 2 ^ 7 - 1 / 2 ^ 60 := by
    rw [rn_rep ⟨2 ^ 53 - 1, -60, by norm_num, by push_cast; norm_num⟩]; norm_num
  rw [this, rn_rep ⟨2 ^ 53 - 1, -60, by norm_num, by push_cast; norm_num⟩]

theorem nearPar_h : angMom nearPar ≠ 0 := by
  intro h
  have := congrArg V3.z h
  unfold nearPar angMom cross at this
  norm_num at this

theorem nearPar_norm : V3.norm nearPar.r = 256 := by
  unfold V3.norm nearPar
  simp [dot]

theorem nearPar_alpha : 0 < alphaOf nearPar 1 ∧ alphaOf nearPar 1 ≤ 1 / 2 ^ 60 := by
  unfold alphaOf
  rw [nearPar_norm]
  simp only [nearPar, dot]
  norm_num

theorem nearPar_sigma : sigmaOf nearPar 1 = 16 := by
  unfold sigmaOf
  simp [nearPar, dot]
  norm_num

/-- The universal functions of a nearly parabolic orbit. -/
theorem U_bounds {α s : ℝ} (hα : 0 < α) (hα' : α ≤ 1 / 2 ^ 60) (h0 : 0 ≤ s) (h : s ≤ 8) :
    s ^ 2 / 2 - 1 / 10 ^ 9 ≤ U2 α s ∧ U2 α s ≤ s ^ 2 / 2 ∧ 0 ≤ U3 α s ∧ U3 α s ≤ s ^ 3 / 6 := by
  obtain ⟨b, hb, rfl⟩ : ∃ b, 0 < b ∧ α = b ^ 2 := ⟨√α, sqrt_pos.2 hα, (sq_sqrt hα.le).symm⟩
  have hb1 : b ≤ 1 / 2 ^ 30 := by
    by_contra hc
    have := pow_lt_pow_left₀ (not_le.1 hc) (by positivity) (two_ne_zero)
    norm_num at *; linarith
  have ht0 : 0 ≤ b * s := by positivity
  have ht : b * s ≤ 1 := by
    have := mul_le_mul hb1 h h0 (by positivity)
    norm_num at *; linarith
  have hp : 0 < b ^ 2 := by positivity
  have hp3 : 0 < b ^ 3 := by positivity
  rw [U2_pos hb, U3_pos hb]
  refine ⟨?_, ?_, ?_, ?_⟩
  · have hc := (abs_le.1 (cos_bound (x := b * s) (by rwa [abs_of_nonneg ht0]))).2
    rw [abs_of_nonneg ht0] at hc
    rw [le_div_iff₀ hp]
    have h4 : s ^ 4 ≤ 8 ^ 4 := pow_le_pow_left₀ h0 h 4
    have h5 : b ^ 2 * s ^ 4 ≤ 1 / 2 ^ 60 * 8 ^ 4 := mul_le_mul hα' h4 (by positivity) (by positivity)
    have h6 : b ^ 2 * (b ^ 2 * s ^ 4) ≤ b ^ 2 * (1 / 10 ^ 9) := mul_le_mul_of_nonneg_left (h5.trans (by norm_num)) hp.le
    nlinarith
  · rw [div_le_iff₀ hp]
    have := one_sub_sq_div_two_le_cos (x := b * s)
    nlinarith
  · have := sin_le ht0
    exact div_nonneg (by linarith) hp3.le
  · rw [div_le_iff₀ hp3]
    rcases h0.eq_or_lt with rfl | hs
    · simp
    · have := sin_gt_sub_cube (mul_pos hb hs)
      nlinarith

/-- Where the body really is after 1536 units of time. -/
theorem nearPar_true : (kepFlow nearPar 1 1536).r.x < 340 := by
  obtain ⟨hα, hα'⟩ := nearPar_alpha
  have ht := timeU_anomU one_pos nearPar_h 1536
  have hm := timeU_strictMono one_pos nearPar_h
  have s0 := anomU_nonneg one_pos nearPar_h (t := 1536) (by norm_num)
  unfold kepFlow
  generalize anomU nearPar 1 1536 = s at *
  have hs7 : s < 7 := by
    rw [← hm.lt_iff_lt, ht]
    obtain ⟨a1, -, a3, a4⟩ := U_bounds hα hα' (s := 7) (by norm_num) (by norm_num)
    unfold timeU U1
    rw [nearPar_norm, nearPar_sigma, sqrt_one, div_one]
    have := mul_le_mul hα' a4 a3 (by positivity)
    norm_num at *
    linarith
  obtain ⟨a1, a2, a3, a4⟩ := U_bounds hα hα' s0 (by linarith)
  have ht' := ht
  unfold timeU at ht'
  rw [nearPar_norm, nearPar_sigma, sqrt_one, div_one] at ht'
  have hG : GU nearPar 1 s = 1536 - U3 (alphaOf nearPar 1) s := by
    unfold GU; rw [nearPar_norm, nearPar_sigma, sqrt_one, div_one]; linarith
  have hs5 : 5 ≤ s := by
    by_contra hc
    have hc := (not_le.1 hc).le
    have h2 := pow_le_pow_left₀ s0 hc 2
    have h3 := pow_le_pow_left₀ s0 hc 3
    have : 0 ≤ alphaOf nearPar 1 * U3 (alphaOf nearPar 1) s := mul_nonneg hα.le a3
    unfold U1 at ht'
    norm_num at *
    linarith
  have hx : (stateU nearPar 1 s).r.x = 352 - U2 (alphaOf nearPar 1) s - U3 (alphaOf nearPar 1) s / 16 := by
    unfold stateU
    simp only [V3.add_x, V3.smul_x]
    rw [hG]
    unfold FU
    rw [nearPar_norm]
    simp only [nearPar]
    ring
  rw [hx]
  have h2 := pow_le_pow_left₀ (by norm_num) hs5 2
  norm_num at *
  linarith

/-- The root finder answers inside the bracket it was given. -/
def SolverD.Inside (sv : SolverD) : Prop := ∀ f g lo hi, lo ≤ hi → lo ≤ (sv f g lo hi).1 ∧ (sv f g lo hi).1 ≤ hi

theorem rn_le_two {x c : ℝ} (h : |x| ≤ c) : |rn x| ≤ c * (1 + u) := by
  have h1 := rn_err' x
  have h2 : |rn x| ≤ |rn x - x| + |x| := by have := abs_add_le (rn x - x) x; simpa using this
  have := u_pos
  nlinarith

/-- The call, up to the answer of the root finder. -/
theorem nearPar_run {A : Libm} (hA : A.Double) {sv : SolverD} (hs : sv.Inside) :
    propagateLagrangianUD A sv nearPar 1536 1 = .err .domainError ∨ ∃ DS, |DS| ≤ 7 ∧
      propagateLagrangianUD A sv nearPar 1536 1 = .ok (uStateD A nearPar.r nearPar.v 256 (1 / 2 ^ 60) 1 1536 DS) := by
  have r256 : rn (256 : ℝ) = 256 := rn_rep ⟨1, 8, by norm_num, by norm_num⟩
  have r1 : rn (1 : ℝ) = 1 := rn_rep rep_one
  have hd : ∀ a b, b ≠ 0 → A.div? a b = some (rn (a / b)) := fun a b h => divD hA h
  have hR : A.rd √(A.dot nearPar.r nearPar.r) = 256 := by
    have e : A.dot nearPar.r nearPar.r = 256 * 256 := by
      unfold Arith.dot
      rw [hA.arith.rd]
      have : rn (256 * 256 : ℝ) = 256 * 256 := rn_rep ⟨1, 16, by norm_num, by norm_num⟩
      simp only [nearPar, mul_zero, rn_zero, add_zero, this]
    rw [e, Real.sqrt_mul_self (by norm_num), hA.arith.rd, r256]
  have hα : alphaD A ⟨nearPar.r, nearPar.v⟩ 1 = some (1 / 2 ^ 60) := by
    have e : A.dot nearPar.v nearPar.v = 1 / 2 ^ 7 - 1 / 2 ^ 60 := by
      unfold Arith.dot; rw [hA.arith.rd]; exact nearPar_v2
    have e1 : rn (2 / 256 : ℝ) = 1 / 2 ^ 7 := by
      rw [rn_rep ⟨1, -7, by norm_num, by norm_num⟩]; norm_num
    have e2 : rn ((1 / 2 ^ 7 - 1 / 2 ^ 60) / 1 : ℝ) = 1 / 2 ^ 7 - 1 / 2 ^ 60 := by
      rw [rn_rep ⟨2 ^ 53 - 1, -60, by norm_num, by push_cast; norm_num⟩]; norm_num
    have e3 : rn (1 / 2 ^ 7 - (1 / 2 ^ 7 - 1 / 2 ^ 60) : ℝ) = 1 / 2 ^ 60 := by
      rw [rn_rep ⟨1, -60, by norm_num, by norm_num⟩]; norm_num
    unfold alphaD
    rw [hR, e, hd _ _ (by norm_num), hd _ _ one_ne_zero, e1, e2]
    simp only [Option.bind_eq_bind, Option.bind_some, Option.pure_def]
    rw [hA.arith.rd, e3]
  have r1536 : rn (1536 : ℝ) = 1536 := rn_rep ⟨1536, 0, by norm_num, by norm_num⟩
  have hIG : rn (1536 * |1 / 2 ^ 60| : ℝ) = 1536 / 2 ^ 60 := by
    rw [abs_of_pos (by positivity), rn_rep ⟨1536, -60, by norm_num, by norm_num⟩]; norm_num
  have hπ : |rn (2 * rn π)| ≤ 6.4 := by
    have h1 : |π| ≤ 3.1416 := by rw [abs_of_pos pi_pos]; exact pi_lt_d4.le
    have h2 := rn_le_two h1
    have h3 : |2 * rn π| ≤ 2 * (3.1416 * (1 + u)) := by rw [abs_mul, abs_two]; linarith
    have h4 := rn_le_two h3
    have := u_small
    have := u_pos
    refine h4.trans ?_
    nlinarith
  have hπ0 : 0 ≤ rn (2 * rn π) := rn_nonneg (mul_nonneg zero_le_two (rn_nonneg pi_pos.le))
  unfold propagateLagrangianUD
  dsimp only
  have n1 : ¬ ((1536 : ℝ) < 0) := by norm_num
  have n2 : ¬ ((1 : ℝ) ≤ 0) := by norm_num
  simp only [n1, n2, if_false]
  rw [hR, hα, hd _ _ (by norm_num : (256 : ℝ) ≠ 0)]
  dsimp only
  rw [if_pos (show (0 : ℝ) < 1 / 2 ^ 60 by positivity), sqrt_one, hA.arith.rd, r1, one_mul, r1536, hIG]
  have hin := hs (fun DS => both (kepDSD A DS 1536 256 (rn (A.dot nearPar.r nearPar.v / 256)) (1 / 2 ^ 60) 1)
    (d_kepDSD A DS 256 (rn (A.dot nearPar.r nearPar.v / 256)) (1 / 2 ^ 60) 1)) (1536 / 2 ^ 60)
    (rn (1536 / 2 ^ 60 - rn (2 * rn π))) (rn (1536 / 2 ^ 60 + rn (2 * rn π))) (rn_mono (by linarith))
  generalize sv _ _ _ _ = s at hin ⊢
  split
  · exact .inl rfl
  refine .inr ⟨s.1, ?_, by simp only [Option.map_id']⟩
  generalize s.1 = DS at *
  have hp := abs_le.1 hπ
  have h1 : |(1536 / 2 ^ 60 - rn (2 * rn π) : ℝ)| ≤ 6.5 := by
    rw [abs_le]; constructor <;> norm_num at * <;> linarith
  have h2 : |(1536 / 2 ^ 60 + rn (2 * rn π) : ℝ)| ≤ 6.5 := by
    rw [abs_le]; constructor <;> norm_num at * <;> linarith
  have h1 := abs_le.1 (rn_le_two h1)
  have h2 := abs_le.1 (rn_le_two h2)
  have := u_small
  rw [abs_le]
  constructor <;> linarith [hin.1, hin.2]

/-- A state is returned when the distance is not 0. -/
theorem uStateD_some {A : Libm} (hA : A.Double) {r v : V3 ℝ} {R0 alpha mu dt DS S C : ℝ} (hR : R0 ≠ 0) (hmu : rn √mu ≠ 0)
    (hS : stumpffSD A (zD A alpha DS) = some S) (hC : stumpffCD A (zD A alpha DS) = some C)
    (hF : rn (1 - rn (rn (rn (DS * DS) / R0) * C)) = 1)
    (hG : rn (dt - rn (rn (rn (rn (rn (1 / rn √mu) * DS) * DS) * DS) * S)) = dt)
    (hr : rn (rn r.x + rn (dt * v.x)) ≠ 0) :
    ∃ y, uStateD A r v R0 alpha mu dt DS = some y ∧ y.r.x = rn (rn r.x + rn (dt * v.x)) := by
  have hd : ∀ a b, b ≠ 0 → A.div? a b = some (rn (a / b)) := fun a b h => divD hA h
  unfold uStateD
  simp only [hS, hC, Option.bind_eq_bind, Option.bind_some, hA.arith.rd, hd _ _ hR, hd _ _ hmu, hF, hG, one_mul]
  have hn := near_dot hA.arith ⟨rn (rn r.x + rn (dt * v.x)), rn (rn r.y + rn (dt * v.y)), rn (rn r.z + rn (dt * v.z))⟩
  have hpos : rn √(A.dot ⟨rn (rn r.x + rn (dt * v.x)), rn (rn r.y + rn (dt * v.y)), rn (rn r.z + rn (dt * v.z))⟩
      ⟨rn (rn r.x + rn (dt * v.x)), rn (rn r.y + rn (dt * v.y)), rn (rn r.z + rn (dt * v.z))⟩) ≠ 0 := by
    refine (stumpff_root_err (hn.pos ?_)).2.2.1.ne'
    unfold V3.dot
    have := mul_self_pos.2 hr
    dsimp only
    nlinarith [mul_self_nonneg (rn (rn r.y + rn (dt * v.y))), mul_self_nonneg (rn (rn r.z + rn (dt * v.z)))]
  simp only [hd _ _ hpos, Option.bind_some, Option.pure_def, Option.some.injEq]
  exact ⟨_, rfl, rfl⟩

/-- What is returned for an answer of the root finder. -/
theorem nearPar_state {A : Libm} (hA : A.Double) {DS : ℝ} (hb : |DS| ≤ 7) :
    ∃ y, uStateD A nearPar.r nearPar.v 256 (1 / 2 ^ 60) 1 1536 DS = some y ∧ y.r.x = 352 := by
  have r256 : rn (256 : ℝ) = 256 := rn_rep ⟨1, 8, by norm_num, by norm_num⟩
  have r1 : rn (1 : ℝ) = 1 := rn_rep rep_one
  have r1536 : rn (1536 : ℝ) = 1536 := rn_rep ⟨1536, 0, by norm_num, by norm_num⟩
  have hz : |zD A (1 / 2 ^ 60) DS| ≤ 1 / 2 ^ 54 := by
    unfold zD
    rw [hA.arith.rd]
    have h1 : |1 / 2 ^ 60 * DS| ≤ 7 / 2 ^ 60 := by
      rw [abs_mul, abs_of_pos (by positivity)]; norm_num at *; linarith
    have h2 := rn_le_two h1
    have h3 : |rn (1 / 2 ^ 60 * DS) * DS| ≤ 7 / 2 ^ 60 * (1 + u) * 7 := by
      rw [abs_mul]; exact mul_le_mul h2 hb (abs_nonneg _) ((abs_nonneg _).trans h2)
    refine (rn_le_two h3).trans ?_
    have := u_small
    have := u_pos
    have : (1 + u) * (1 + u) ≤ 1.1 := by nlinarith
    calc 7 / 2 ^ 60 * (1 + u) * 7 * (1 + u) = 49 / 2 ^ 60 * ((1 + u) * (1 + u)) := by ring
      _ ≤ 49 / 2 ^ 60 * 1.1 := mul_le_mul_of_nonneg_left this (by positivity)
      _ ≤ _ := by norm_num
  have e96 : rn (1536 * (1 / 16) : ℝ) = 96 := by
    rw [rn_rep ⟨96, 0, by norm_num, by norm_num⟩]; norm_num
  have e352 : rn (256 + 96 : ℝ) = 352 := by
    rw [rn_rep ⟨352, 0, by norm_num, by norm_num⟩]; norm_num
  have e : rn (rn nearPar.r.x + rn (1536 * nearPar.v.x)) = 352 := by simp only [nearPar, r256, e96, e352]
  obtain ⟨S, C, hS, hC, hF, hG⟩ : ∃ S C, stumpffSD A (zD A (1 / 2 ^ 60) DS) = some S ∧ stumpffCD A (zD A (1 / 2 ^ 60) DS) = some C ∧
      rn (1 - rn (rn (rn (DS * DS) / 256) * C)) = 1 ∧
      rn (1536 - rn (rn (rn (rn (rn (1 / rn √1) * DS) * DS) * DS) * S)) = 1536 := by
    by_cases h0 : zD A (1 / 2 ^ 60) DS = 0
    · have hDS0 : DS = 0 := by
        have hnz : ∀ t : ℝ, rn t = 0 → t = 0 := by
          intro t ht
          have := rn_err' t
          rw [ht, zero_sub, abs_neg] at this
          have := u_small
          have := abs_nonneg t
          apply abs_eq_zero.1
          nlinarith
        unfold zD at h0
        rw [hA.arith.rd] at h0
        rcases mul_eq_zero.1 (hnz _ h0) with h | h
        · rcases mul_eq_zero.1 (hnz _ h) with h | h
          · norm_num at h
          · exact h
        · exact h
      rw [h0, hDS0]
      refine ⟨rn (1 / 6), 1 / 2, ?_, ?_, ?_, ?_⟩
      · unfold stumpffSD; rw [if_neg (lt_irrefl _), if_neg (lt_irrefl _), divD hA (by norm_num)]
      · unfold stumpffCD; rw [if_neg (lt_irrefl _), if_neg (lt_irrefl _)]
      · simp [rn_zero, r1]
      · simp [rn_zero, r1536]
    · obtain ⟨hC, hS⟩ := stumpff_tiny hA h0 hz
      exact ⟨0, 0, hS, hC, by simp [rn_zero, r1], by simp [rn_zero, r1536]⟩
  obtain ⟨y, h, hy⟩ := uStateD_some hA (r := nearPar.r) (v := nearPar.v) (by norm_num) (by rw [sqrt_one, r1]; exact one_ne_zero) hS hC hF hG
    (by rw [e]; norm_num)
  exact ⟨y, h, by rw [hy, e]⟩

/-- **C88, negation**: whatever root finder is used, the position returned after 1536 units of time has moved along a straight line, and
is more than 12 away (at a distance of about 350) from where the body is. -/
theorem C88_near_parabola {A : Libm} (hA : A.Double) {sv : SolverD} (hs : sv.Inside) :
    propagateLagrangianUD A sv nearPar 1536 1 = .err .domainError ∨ ∃ y, propagateLagrangianUD A sv nearPar 1536 1 = .ok (some y) ∧
      y.r.x = nearPar.r.x + nearPar.v.x * 1536 ∧ (kepFlow nearPar 1 1536).r.x + 12 < y.r.x := by
  rcases nearPar_run hA hs with h | ⟨DS, hb, h⟩
  · exact .inl h
  · obtain ⟨y, hy, hx⟩ := nearPar_state hA hb
    refine .inr ⟨y, by rw [h, hy], ?_, ?_⟩
    · rw [hx]; unfold nearPar; norm_num
    · rw [hx]; linarith [nearPar_true]

/-! ## Concrete cases -/

/-- A root finder as assumed: in the case of `C88_near_parabola` it answers 6, which is an exact root of the computed function, in
10 iterations. -/
noncomputable def clipSolverD : SolverD := fun _ _ lo hi => (max lo (min 6 hi), 10)

theorem clipSolverD_inside : clipSolverD.Inside := fun _ _ lo hi h => ⟨le_max_left _ _, max_le h (min_le_right _ _)⟩

/-- The computed equation, at its root. -/
example {A : Libm} (hA : A.Double) : kepDSD A 6 1536 256 (1 / 16) (1 / 2 ^ 60) 1 = some 0 := by
  have hz : zD A (1 / 2 ^ 60) 6 = 36 / 2 ^ 60 := by
    unfold zD
    rw [hA.arith.rd, rn_rep (x := 1 / 2 ^ 60 * 6) ⟨6, -60, by norm_num, by norm_num⟩, rn_rep ⟨36, -60, by norm_num, by norm_num⟩]
    norm_num
  obtain ⟨hC, hS⟩ := stumpff_tiny hA (x := 36 / 2 ^ 60) (by norm_num) (by rw [abs_of_pos (by positivity)]; norm_num)
  have r1 : rn (1 : ℝ) = 1 := rn_rep rep_one
  have r2 : rn (-1536 : ℝ) = -1536 := rn_rep ⟨-1536, 0, by norm_num, by norm_num⟩
  have r3 : rn (256 * 6 : ℝ) = 1536 := by rw [rn_rep ⟨1536, 0, by norm_num, by norm_num⟩]; norm_num
  unfold kepDSD
  rw [hz, hS, hC]
  simp only [Option.bind_eq_bind, Option.bind_some, hA.arith.rd, mul_zero, rn_zero, sqrt_one, r1, divD hA one_ne_zero, zero_div,
    Option.pure_def, add_zero, r2, r3, neg_mul, one_mul, neg_add_cancel]

example : Libm.rounded.Double ∧ clipSolverD.Inside ∧ ∃ y, propagateLagrangianUD Libm.rounded clipSolverD nearPar 1536 1 = .ok (some y) := by
  refine ⟨Libm.rounded_double, clipSolverD_inside, ?_⟩
  rcases C88_near_parabola Libm.rounded_double clipSolverD_inside with h | ⟨y, h, -⟩
  · exfalso
    unfold propagateLagrangianUD at h
    dsimp only at h
    split at h
    · rw [if_neg (by unfold clipSolverD; norm_num)] at h
      exact nomatch h
    · exact nomatch h
  · exact ⟨y, h⟩

/-- An argument meeting the hypotheses of `C88_stumpff_zero`, and one meeting those of the accuracy bounds, with the bound they give. -/
example : (1 / 2 ^ 60 : ℝ) ≠ 0 ∧ |(1 / 2 ^ 60 : ℝ)| ≤ 1 / 2 ^ 54 ∧ (-1 : ℝ) ≤ -1 / 4 ∧ 64 * u / |(-1 / 4 : ℝ)| ≤ 1 / 10 ^ 12 := by
  refine ⟨by norm_num, by rw [abs_of_pos (by positivity)]; norm_num, by norm_num, ?_⟩
  have := u_small
  rw [abs_of_neg (by norm_num), div_le_iff₀ (by norm_num)]
  norm_num at *; linarith

end Kep3
