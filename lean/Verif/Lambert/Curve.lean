import Verif.Lambert.Tof
import Mathlib.Analysis.SpecialFunctions.Pow.Real

/-!
# The formulas of the code for the time of flight

The formulas of Lagrange and of Lancaster and Blanchard are exact; the one of Battin is a truncated series.
-/

namespace Kep3
open Real V3

namespace Lambert
section
variable {l x : ℝ}

theorem yOf_arg' (l x : ℝ) : 1 + l * l * (x * x - 1) = 1 - l ^ 2 + l ^ 2 * x ^ 2 := by ring

theorem sqrt?_y (hl : l ^ 2 < 1) (x : ℝ) : sqrt? (1 + l * l * (x * x - 1)) = some (yOf l x) := by
  rw [yOf_arg', sqrt?_ok (yOf_arg hl x).le]; rfl

theorem cosE_le (hl : l ^ 2 < 1) (h1 : -1 < x) (h2 : x < 1) :
    -1 ≤ x * yOf l x - l * (x * x - 1) ∧ x * yOf l x - l * (x * x - 1) ≤ 1 := by
  have := (angE_facts hl h1 h2).2.1
  rw [show x * yOf l x - l * (x * x - 1) = cos (angE l x) by rw [this]; ring]
  exact ⟨neg_one_le_cos _, cos_le_one _⟩

/-- Lancaster and Blanchard's form, on ellipses. -/
theorem lancaster_ell (hl : l ^ 2 < 1) (h1 : -1 < x) (h2 : x < 1) (N : ℕ) :
    x2tofLancaster l x N = some (tofX l x N) := by
  have hw : 0 < 1 - x ^ 2 := by nlinarith
  have hE : x * x - 1 < 0 := by nlinarith
  obtain ⟨-, hc, p1, p2⟩ := angE_facts hl h1 h2
  unfold x2tofLancaster
  simp only
  rw [sqrt?_y hl]
  simp only [Option.bind_eq_bind, Option.bind_some]
  rw [if_pos hE, acos?_ok (cosE_le hl h1 h2), abs_of_neg hE]
  simp only [Option.map_some, Option.bind_some]
  rw [show x * yOf l x - l * (x * x - 1) = cos (angE l x) by rw [hc]; ring, arccos_cos p1.le p2.le,
    show -(x * x - 1) = 1 - x ^ 2 by ring, div?_ok (sqrt_pos.2 hw).ne']
  simp only [Option.bind_some]
  rw [div?_ok hE.ne]
  unfold tofX tofE
  rw [if_pos h2, show x * x - 1 = -(1 - x ^ 2) by ring, div_neg, ← neg_div]
  congr 2
  ring

/-- Lancaster and Blanchard's form, on hyperbolas. -/
theorem lancaster_hyp (hl : l ^ 2 < 1) (h2 : 1 < x) (N : ℕ) : x2tofLancaster l x N = some (tofX l x N) := by
  have hE : 0 < x * x - 1 := by nlinarith
  have hs := (angH_facts (l := l) h2).1
  have hc := (angH_facts (l := l) h2).2
  unfold x2tofLancaster
  simp only
  rw [sqrt?_y hl]
  simp only [Option.bind_eq_bind, Option.bind_some]
  rw [if_neg hE.not_gt, abs_of_pos hE]
  have e : √(x * x - 1) * (yOf l x - l * x) + (x * yOf l x - l * (x * x - 1)) = exp (angH l x) := by
    rw [← cosh_add_sinh, hs, hc, show x ^ 2 - 1 = x * x - 1 by ring]; ring
  unfold log?
  rw [e, if_pos (exp_pos _), log_exp]
  simp only [Option.bind_some]
  rw [div?_ok (sqrt_pos.2 hE).ne']
  simp only [Option.bind_some]
  rw [div?_ok hE.ne']
  unfold tofX tofH
  rw [if_neg h2.not_gt, if_neg h2.ne', show x ^ 2 - 1 = x * x - 1 by ring]

/-- At and below -1 the form has no value. -/
theorem lancaster_none (hl : l ^ 2 < 1) (h1 : x ≤ -1) (N : ℕ) : x2tofLancaster l x N = none := by
  have hE : 0 ≤ x * x - 1 := by nlinarith
  unfold x2tofLancaster
  simp only
  rw [sqrt?_y hl]
  simp only [Option.bind_eq_bind, Option.bind_some]
  rw [if_neg hE.not_gt, abs_of_nonneg hE]
  have hv := sq_sqrt hE
  have hv0 := sqrt_nonneg (x * x - 1)
  have hy := yOf_sq hl x
  have hyp := yOf_pos hl x
  generalize √(x * x - 1) = v at *
  generalize yOf l x = y at *
  have e : v * (y - l * x) + (x * y - l * (x * x - 1)) = (x + v) * (y - l * v) := by
    rw [← hv]; ring
  have a1 : x + v < 0 := by nlinarith
  have a2 : 0 < y - l * v := by
    have : |l * v| < y := by
      apply abs_lt_of_sq_lt_sq _ hyp.le
      rw [hy, mul_pow, hv]; nlinarith
    linarith [(abs_lt.1 this).2]
  unfold log?
  rw [e, if_neg (by nlinarith)]
  rfl

/-- Lagrange's form. -/
theorem lagrange_ell (hl : l ^ 2 < 1) (h1 : -1 < x) (h2 : x < 1) (N : ℕ) : x2tof2 l x N = some (tofX l x N) := by
  have hw : 0 < 1 - x ^ 2 := by nlinarith
  have hw' : 1 - x * x = 1 - x ^ 2 := by ring
  have hlt := lw_lt hl h1 h2
  have hab := abs_lt.1 ((sq_lt_one_iff_abs_lt_one _).1 hlt)
  have hcB : cos (arcsin (l * √(1 - x ^ 2))) = yOf l x := by
    rw [cos_arcsin, mul_pow, sq_sqrt hw.le]; unfold yOf; congr 1; ring
  have hsB : sin (arcsin (l * √(1 - x ^ 2))) = l * √(1 - x ^ 2) := sin_arcsin hab.1.le hab.2.le
  have hsA := sin_arccos x
  have hcA := cos_arccos h1.le h2.le
  unfold x2tof2
  rw [hw', div?_ok hw.ne']
  simp only [Option.bind_eq_bind, Option.bind_some]
  rw [if_pos (by positivity), acos?_ok ⟨h1.le, h2.le⟩]
  simp only [Option.bind_some]
  have e1 : l * l / (1 / (1 - x ^ 2)) = (l * √(1 - x ^ 2)) ^ 2 := by rw [mul_pow, sq_sqrt hw.le]; field_simp
  rw [e1, sqrt?_ok (sq_nonneg _), sqrt_sq_eq_abs]
  simp only [Option.bind_some]
  have hab' : |l * √(1 - x ^ 2)| ≤ 1 := abs_le.2 ⟨hab.1.le, hab.2.le⟩
  rw [asin?_ok ⟨by linarith [abs_nonneg (l * √(1 - x ^ 2))], hab'⟩]
  simp only [Option.bind_some, Option.pure_def]
  have hW := sqrt_pos.2 hw
  have hbeta : (if l < 0 then -(2 * arcsin |l * √(1 - x ^ 2)|) else 2 * arcsin |l * √(1 - x ^ 2)|)
      = 2 * arcsin (l * √(1 - x ^ 2)) := by
    split_ifs with h
    · rw [abs_of_neg (mul_neg_of_neg_of_pos h hW), arcsin_neg]; ring
    · rw [abs_of_nonneg (mul_nonneg (not_lt.1 h) hW.le)]
  rw [hbeta, sin_two_mul, sin_two_mul, hsA, hcA, hsB, hcB]
  unfold tofX tofE angE
  rw [if_pos h2]
  have hsa : √(1 / (1 - x ^ 2)) = 1 / √(1 - x ^ 2) := by rw [sqrt_div zero_le_one, sqrt_one]
  rw [hsa]
  have hW2 := sq_sqrt hw.le
  generalize arcsin (l * √(1 - x ^ 2)) = B
  generalize arccos x = A
  generalize yOf l x = y
  generalize √(1 - x ^ 2) = W at *
  rw [← hW2]
  congr 1
  field_simp
  ring

theorem lagrange_hyp (h2 : 1 < x) (N : ℕ) : x2tof2 l x N = some (tofX l x N) := by
  have hw : 0 < x ^ 2 - 1 := by nlinarith
  have hw' : 1 - x * x = -(x ^ 2 - 1) := by ring
  have hcB : cosh (arsinh (l * √(x ^ 2 - 1))) = yOf l x := by
    rw [cosh_arsinh, mul_pow, sq_sqrt hw.le]; unfold yOf; congr 1; ring
  have hsB := sinh_arsinh (l * √(x ^ 2 - 1))
  have hsA := sinh_arcosh h2.le
  have hcA := cosh_arcosh h2.le
  unfold x2tof2
  rw [hw', div?_ok (by linarith)]
  simp only [Option.bind_eq_bind, Option.bind_some]
  have hneg : 1 / -(x ^ 2 - 1) = -(1 / (x ^ 2 - 1)) := by rw [div_neg]
  have hpos : 0 < 1 / (x ^ 2 - 1) := by positivity
  rw [hneg, if_neg (by linarith)]
  unfold acosh?
  rw [if_pos h2.le]
  simp only [Option.bind_some]
  have e1 : -l * l / -(1 / (x ^ 2 - 1)) = (l * √(x ^ 2 - 1)) ^ 2 := by rw [mul_pow, sq_sqrt hw.le]; field_simp
  rw [e1, sqrt?_ok (sq_nonneg _), sqrt_sq_eq_abs, neg_neg, sqrt?_ok hpos.le]
  simp only [Option.bind_some, Option.pure_def]
  have hW := sqrt_pos.2 hw
  have hbeta : (if l < 0 then -(2 * arsinh |l * √(x ^ 2 - 1)|) else 2 * arsinh |l * √(x ^ 2 - 1)|)
      = 2 * arsinh (l * √(x ^ 2 - 1)) := by
    split_ifs with h
    · rw [abs_of_neg (mul_neg_of_neg_of_pos h hW), arsinh_neg]; ring
    · rw [abs_of_nonneg (mul_nonneg (not_lt.1 h) hW.le)]
  rw [hbeta, sinh_two_mul, sinh_two_mul, hsA, hcA, hsB, hcB]
  unfold tofX tofH angH
  rw [if_neg h2.not_gt, if_neg h2.ne']
  have hsa : √(1 / (x ^ 2 - 1)) = 1 / √(x ^ 2 - 1) := by rw [sqrt_div zero_le_one, sqrt_one]
  rw [hsa]
  have hW2 := sq_sqrt hw.le
  generalize arsinh (l * √(x ^ 2 - 1)) = B
  generalize arcosh x = A
  generalize yOf l x = y
  generalize √(x ^ 2 - 1) = W at *
  rw [← hW2]
  congr 1
  field_simp
  ring

/-- Away from the parabola the code evaluates the exact time of flight; it has no value at and below -1. -/
theorem x2tof_exact (hl : l ^ 2 < 1) (hx : 0.01 ≤ |x - 1|) (N : ℕ) :
    x2tof l x N = if -1 < x then some (tofX l x N) else none := by
  have hne : x ≠ 1 := by rintro rfl; norm_num at hx
  unfold x2tof
  by_cases h1 : -1 < x
  · rw [if_pos h1]
    simp only
    rw [if_neg (not_lt.2 hx)]
    rcases lt_or_gt_of_ne hne with h | h
    · rw [lancaster_ell hl h1 h, lagrange_ell hl h1 h, ite_self]
    · rw [lancaster_hyp hl h, lagrange_hyp h, ite_self]
  · rw [if_neg h1]
    simp only
    have : 2 ≤ |x - 1| := by rw [abs_of_neg (by linarith)]; linarith
    rw [if_neg (by rintro ⟨h, -⟩; norm_num at h; linarith), if_neg (not_lt.2 hx), lancaster_none hl (not_lt.1 h1)]
end
end Lambert
end Kep3
