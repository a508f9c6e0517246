import Verif.Kepler.Double
import Verif.Lagr.Props89
import Mathlib.Analysis.Real.Pi.Bounds
import Mathlib.Analysis.SpecialFunctions.Artanh
import Mathlib.Analysis.Real.Pi.Irrational
import Mathlib.Analysis.SpecialFunctions.Trigonometric.ArctanDeriv

/-!
# The anomaly conversions in double precision
-/

namespace Kep3
open Real Fl

/-- What is assumed of the library: accuracy to four units in the last place, and the range of `std::atan`. -/
structure LibmT.Double (A : LibmT) : Prop where
  libm : A.toLibm.Double
  tan : ∀ x, |A.tan x - Real.tan x| ≤ 4 * u * |Real.tan x|
  atan : ∀ x, |A.atan x - arctan x| ≤ 4 * u * |arctan x|
  tanh : ∀ x, |A.tanh x - Real.tanh x| ≤ 4 * u * |Real.tanh x|
  atanh : ∀ x, -1 < x → x < 1 → |A.atanh x - artanh x| ≤ 4 * u * |artanh x|
  atan_range : ∀ x, Rep (A.atan x) ∧ |A.atan x| ≤ rn (π / 2)

/-- A library with correct rounding. -/
noncomputable def LibmT.rounded : LibmT :=
  ⟨Libm.rounded, fun x => rn (Real.tan x), fun x => rn (arctan x), fun x => rn (Real.tanh x), fun x => rn (artanh x)⟩

theorem rn_err4 (x : ℝ) : |rn x - x| ≤ 4 * u * |x| := (rn_err' x).trans (by have := u_pos; have := abs_nonneg x; nlinarith)

theorem LibmT.rounded_double : LibmT.rounded.Double where
  libm := Libm.rounded_double
  tan _ := rn_err4 _
  atan _ := rn_err4 _
  tanh _ := rn_err4 _
  atanh _ _ _ := rn_err4 _
  atan_range x := by
    refine ⟨rep_rn _, ?_⟩
    rw [abs_le, ← rn_neg]
    exact ⟨rn_mono (neg_pi_div_two_lt_arctan x).le, rn_mono (arctan_lt_pi_div_two x).le⟩

/-! ## Relative errors -/

/-- `y` is `x` up to `k` units of roundoff. -/
def Rel (k x y : ℝ) : Prop := |y - x| ≤ k * u * |x|

namespace Rel
variable {j k x y z w : ℝ}

theorem abs_le' (h : Rel k x y) (hk : k ≤ 100) : |y| ≤ 1.01 * |x| := by
  unfold Rel at h
  have h1 := abs_add_le (y - x) x
  rw [sub_add_cancel] at h1
  have : k * u ≤ 0.01 := by nlinarith [u_pos, u_small]
  have := mul_le_mul_of_nonneg_right this (abs_nonneg x)
  linarith

theorem trans (h : Rel j x y) (g : Rel k y z) (hj : j ≤ 100) (hk : 0 ≤ k) : Rel (j + 1.01 * k) x z := by
  have h1 := h.abs_le' hj
  unfold Rel at *
  have h2 := abs_add_le (z - y) (y - x)
  rw [sub_add_sub_cancel] at h2
  have := mul_le_mul_of_nonneg_left h1 (mul_nonneg hk u_pos.le)
  nlinarith

theorem rn (h : Rel k x y) (hk : k ≤ 100) : Rel (k + 1.01) x (Fl.rn y) := by
  have : Rel 1 y (Fl.rn y) := by unfold Rel; rw [one_mul]; exact rn_err' y
  simpa using h.trans this hk zero_le_one

theorem of_near (h : Near k x y) : Rel k x y := by
  have := h.abs_le
  unfold Rel
  rwa [abs_of_nonneg h.1]

theorem mul (h : Rel j x y) (g : Rel k z w) (hj0 : 0 ≤ j) (hk0 : 0 ≤ k) (hj : j ≤ 100) : Rel (j + 1.01 * k) (x * z) (y * w) := by
  have h1 := h.abs_le' hj
  unfold Rel at *
  have e : y * w - x * z = y * (w - z) + (y - x) * z := by ring
  rw [e, abs_mul x z]
  refine (abs_add_le _ _).trans ?_
  rw [abs_mul, abs_mul]
  have a1 : |y| * |w - z| ≤ 1.01 * |x| * (k * u * |z|) := mul_le_mul h1 g (abs_nonneg _) (by positivity)
  have a2 : |y - x| * |z| ≤ j * u * |x| * |z| := mul_le_mul_of_nonneg_right h (abs_nonneg _)
  linarith

theorem const (c : ℝ) (h : Rel k x y) : Rel k (c * x) (c * y) := by
  unfold Rel at *
  rw [← mul_sub, abs_mul, abs_mul]
  have := mul_le_mul_of_nonneg_left h (abs_nonneg c)
  linarith

theorem mono (h : Rel j x y) (hk : j ≤ k) : Rel k x y :=
  le_trans h (mul_le_mul_of_nonneg_right (mul_le_mul_of_nonneg_right hk u_pos.le) (abs_nonneg _))

end Rel

/-- The mean value theorem for the arctangent. -/
theorem arctan_step {x y : ℝ} (h : x < y) : ∃ c, x < c ∧ c < y ∧ arctan y - arctan x = (y - x) / (1 + c ^ 2) := by
  obtain ⟨c, ⟨h1, h2⟩, hc⟩ := exists_hasDerivAt_eq_slope arctan (fun c => 1 / (1 + c ^ 2)) h continuous_arctan.continuousOn
    fun c _ => hasDerivAt_arctan c
  refine ⟨c, h1, h2, ?_⟩
  have : y - x ≠ 0 := by linarith
  field_simp at hc ⊢
  linarith

theorem arctan_ge {x : ℝ} (h : 0 ≤ x) : x / (1 + x ^ 2) ≤ arctan x := by
  rcases h.eq_or_lt with rfl | h
  · simp
  obtain ⟨c, h1, h2, e⟩ := arctan_step h
  rw [arctan_zero, sub_zero, sub_zero] at e
  rw [e]
  exact div_le_div_of_nonneg_left h.le (by positivity) (by nlinarith)

/-- The arctangent keeps relative accuracy. -/
theorem arctan_rel_pos {x y d : ℝ} (hx : 0 < x) (hd0 : 0 ≤ d) (hd : d ≤ 1 / 2) (h : |y - x| ≤ d * x) :
    |arctan y - arctan x| ≤ d / (1 - d) * arctan x := by
  obtain ⟨h1, h2⟩ := abs_le.1 h
  have hy : 0 < y := by nlinarith
  have ha : 0 < arctan x := by rw [← arctan_zero]; exact arctan_strictMono hx
  have hle : d ≤ d / (1 - d) := by rw [le_div_iff₀ (by linarith)]; nlinarith
  rcases lt_trichotomy x y with hxy | rfl | hxy
  · obtain ⟨c, c1, c2, e⟩ := arctan_step hxy
    rw [abs_of_pos (by have := arctan_strictMono hxy; linarith), e]
    calc (y - x) / (1 + c ^ 2) ≤ (d * x) / (1 + x ^ 2) := div_le_div₀ (by positivity) h2 (by positivity) (by nlinarith)
      _ = d * (x / (1 + x ^ 2)) := by ring
      _ ≤ d * arctan x := mul_le_mul_of_nonneg_left (arctan_ge hx.le) hd0
      _ ≤ _ := mul_le_mul_of_nonneg_right hle ha.le
  · simp only [sub_self, abs_zero]
    exact mul_nonneg (div_nonneg hd0 (by linarith)) ha.le
  · obtain ⟨c, c1, c2, e⟩ := arctan_step hxy
    have hm := arctan_strictMono hxy
    rw [abs_sub_comm, abs_of_pos (by linarith), e]
    have hx' : (1 - d) * x ≤ y := by linarith
    calc (x - y) / (1 + c ^ 2) ≤ (d * x) / (1 + y ^ 2) := div_le_div₀ (by positivity) (by linarith) (by positivity) (by nlinarith)
      _ ≤ (d / (1 - d) * y) / (1 + y ^ 2) := by
          rw [div_le_div_iff_of_pos_right (by positivity), div_mul_eq_mul_div, le_div_iff₀ (by linarith)]
          nlinarith
      _ = d / (1 - d) * (y / (1 + y ^ 2)) := by ring
      _ ≤ d / (1 - d) * arctan x := mul_le_mul_of_nonneg_left ((arctan_ge hy.le).trans hm.le) (div_nonneg hd0 (by linarith))

theorem Rel.arctan {k x y : ℝ} (h : Rel k x y) (h0 : 0 ≤ k) (hk : k ≤ 100) : Rel (1.01 * k) (Real.arctan x) (Real.arctan y) := by
  have hu := u_pos
  have hu' := u_small
  have hd : k * u ≤ 1 / 1000 := by nlinarith
  have hd0 : 0 ≤ k * u := by positivity
  have hq : k * u / (1 - k * u) ≤ 1.01 * k * u := by
    rw [div_le_iff₀ (by linarith)]; nlinarith
  unfold Rel at *
  rcases lt_trichotomy x 0 with hx | rfl | hx
  · have := arctan_rel_pos (x := -x) (y := -y) (d := k * u) (by linarith) hd0 (by linarith)
      (by rw [abs_of_neg hx] at h; rwa [show -y - -x = -(y - x) by ring, abs_neg])
    rw [arctan_neg, arctan_neg, show -Real.arctan y - -Real.arctan x = -(Real.arctan y - Real.arctan x) by ring, abs_neg] at this
    have ha : Real.arctan x < 0 := by rw [← arctan_zero]; exact arctan_strictMono hx
    rw [abs_of_neg ha]
    exact this.trans (mul_le_mul_of_nonneg_right hq (by linarith))
  · have : y = 0 := by simpa using h
    subst this; simp
  · have := arctan_rel_pos (x := x) (y := y) (d := k * u) hx hd0 (by linarith) (by rwa [abs_of_pos hx] at h)
    have ha : 0 < Real.arctan x := by rw [← arctan_zero]; exact arctan_strictMono hx
    rw [abs_of_pos ha]
    exact this.trans (mul_le_mul_of_nonneg_right hq ha.le)

/-! ## Doubles are not at the apocentre -/

theorem rep_rat {x : ℝ} (h : Rep x) : ∃ q : ℚ, x = q := by
  obtain ⟨m, e, -, rfl⟩ := h
  exact ⟨(m : ℚ) * 2 ^ e, by push_cast; rfl⟩

/-- No double is an odd multiple of pi. -/
theorem cos_half_rep {x : ℝ} (h : Rep x) : cos (x / 2) ≠ 0 := by
  intro hc
  obtain ⟨q, rfl⟩ := rep_rat h
  rw [cos_eq_zero_iff] at hc
  obtain ⟨k, hk⟩ := hc
  have hk' : ((2 * k + 1 : ℤ) : ℝ) ≠ 0 := by
    have : (2 * k + 1 : ℤ) ≠ 0 := by omega
    exact_mod_cast this
  have hp : π = ((q / ((2 * k + 1 : ℤ) : ℚ) : ℚ) : ℝ) := by
    push_cast at hk' ⊢
    field_simp
    linarith
  exact irrational_pi ⟨_, hp.symm⟩

/-! ## The conversions -/

section
variable {A : LibmT} (hA : A.Double)

theorem anom_root {num den : ℝ} (hn : 0 ≤ num) (hd : 0 < den) : Near 4.06 √(num / den) (rn √(rn (rn num / rn den))) := by
  have h1 : Near 1.01 num (rn num) := ((Near.exact hn).rn (by norm_num)).mono (by norm_num)
  have h2 : Near 1.01 den (rn den) := ((Near.exact hd.le).rn (by norm_num)).mono (by norm_num)
  have h3 := h1.mul (h2.inv hd (by norm_num)) (by norm_num)
  rw [mul_one_div, mul_one_div] at h3
  exact ((h3.rn (by norm_num)).sqrt.rn (by norm_num)).mono (by norm_num)

include hA

theorem divT {a b : ℝ} (hb : b ≠ 0) : A.div? a b = some (rn (a / b)) := divD hA.libm hb

theorem sqrtT {a : ℝ} (ha : 0 ≤ a) : A.sqrt? a = some (rn √a) := by
  unfold Arith.sqrt? sqrt?
  rw [if_neg (not_lt.2 ha), hA.libm.arith.rd]; rfl

/-- The formula that all conversions have in common. -/
theorem conv_rel {num den t t' : ℝ} (hn : 0 ≤ num) (hd : 0 < den) (ht : Rel 4 t t') :
    Rel 15 (2 * arctan (√(num / den) * t)) (rn (2 * A.atan (rn (rn √(rn (rn num / rn den)) * t')))) := by
  have h1 := ((Rel.of_near (anom_root hn hd)).mul ht (by norm_num) (by norm_num) (by norm_num)).rn (by norm_num)
  have h2 := h1.arctan (by norm_num) (by norm_num)
  have h3 : Rel 4 (arctan (rn (rn √(rn (rn num / rn den)) * t'))) (A.atan (rn (rn √(rn (rn num / rn den)) * t'))) := hA.atan _
  exact (((h2.trans h3 (by norm_num) (by norm_num)).const 2).rn (by norm_num)).mono (by norm_num)

/-- The result is between -pi and pi, and a double. -/
theorem conv_range (x : ℝ) : Rep (rn (2 * A.atan x)) ∧ -π < rn (2 * A.atan x) ∧ rn (2 * A.atan x) < π := by
  obtain ⟨hr, h⟩ := hA.atan_range x
  obtain ⟨h1, h2⟩ := abs_le.1 h
  have e : rn (π / 2) = 7074237752028440 / 2 ^ 52 := by
    have a := pi_gt_d20
    have b := pi_lt_d20
    rw [rn_eval 7074237752028440 (-52)]
    · push_cast; norm_num
    · rw [abs_of_pos (by positivity)]; norm_num at *; linarith
    · rw [abs_of_pos (by positivity)]; norm_num at *; linarith
    · rw [abs_lt]; push_cast; constructor <;> norm_num at * <;> linarith
  have e2 : rn (2 * A.atan x) = 2 * A.atan x := by
    have := rn_rep (rep_scale hr 1)
    rwa [zpow_one, mul_comm] at this
  refine ⟨rep_rn _, ?_⟩
  rw [e2]
  rw [e] at h1 h2
  have a := pi_gt_d20
  constructor <;> norm_num at * <;> linarith

/-- The four conversions with a tangent in them. -/
theorem conv_tan {num den x : ℝ} (hx : Rep x) (hn : 0 ≤ num) (hd : 0 < den) :
    ∃ y, (do let q ← A.div? (A.rd num) (A.rd den)
             let s ← A.sqrt? q
             return A.rd (2 * A.atan (A.rd (s * A.tan (A.rd (x / 2)))))) = some y ∧
      Rel 15 (2 * arctan (√(num / den) * Real.tan (x / 2))) y ∧ Rep y ∧ -π < y ∧ y < π := by
  have e : rn (x / 2) = x / 2 := by
    have := rn_rep (rep_scale hx (-1))
    rwa [zpow_neg_one, ← div_eq_mul_inv] at this
  have h0 : rn den ≠ 0 := ((Near.exact hd.le).rn (by norm_num)).pos hd |>.ne'
  have h1 : 0 ≤ rn (rn num / rn den) := rn_nonneg (div_nonneg (rn_nonneg hn) (rn_nonneg hd.le))
  rw [hA.libm.arith.rd, divT hA h0]
  simp only [Option.bind_eq_bind, Option.bind_some]
  rw [sqrtT hA h1, e]
  simp only [Option.bind_some, Option.pure_def]
  exact ⟨_, rfl, conv_rel hA hn hd (hA.tan _), conv_range hA _⟩

/-- **C90, ellipses**: eccentric to true anomaly and back. For every double and every eccentricity of an ellipse there is a number in
exact arithmetic (no double is at the apocentre), the code returns it up to 15 units of roundoff, and in (-pi, pi). -/
theorem C90_ellipse {x ecc : ℝ} (hx : Rep x) (h0 : 0 ≤ ecc) (h1 : ecc < 1) :
    (∃ f f', e2f x ecc = some f ∧ e2fD A x ecc = some f' ∧ |f' - f| ≤ 15 * u * |f| ∧ -π < f' ∧ f' < π) ∧
    (∃ E E', f2e x ecc = some E ∧ f2eD A x ecc = some E' ∧ |E' - E| ≤ 15 * u * |E| ∧ -π < E' ∧ E' < π) := by
  have hc := cos_half_rep hx
  have ht : tan? (x / 2) = some (Real.tan (x / 2)) := if_neg hc
  constructor
  · obtain ⟨y, hy, hr, -, hy1, hy2⟩ := conv_tan hA hx (num := 1 + ecc) (den := 1 - ecc) (by linarith) (by linarith)
    refine ⟨_, y, ?_, by unfold e2fD; rw [if_neg h1.not_ge]; exact hy, hr, hy1, hy2⟩
    unfold e2f div? sqrt?
    rw [if_neg h1.not_ge, if_neg (by linarith : 1 - ecc ≠ 0), ht]
    simp only [Option.bind_eq_bind, Option.bind_some]
    rw [if_neg (not_lt.2 (div_nonneg (by linarith) (by linarith)))]
    rfl
  · obtain ⟨y, hy, hr, -, hy1, hy2⟩ := conv_tan hA hx (num := 1 - ecc) (den := 1 + ecc) (by linarith) (by linarith)
    refine ⟨_, y, ?_, by unfold f2eD; rw [if_neg h1.not_ge]; exact hy, hr, hy1, hy2⟩
    unfold f2e div? sqrt?
    rw [if_neg h1.not_ge, if_neg (by linarith : 1 + ecc ≠ 0), ht]
    simp only [Option.bind_eq_bind, Option.bind_some]
    rw [if_neg (not_lt.2 (div_nonneg (by linarith) (by linarith)))]
    rfl

/-- **C90, hyperbolas**: Gudermannian to true anomaly and back, and hyperbolic to true anomaly. -/
theorem C90_hyperbola {x ecc : ℝ} (hx : Rep x) (h1 : 1 < ecc) :
    (∃ f f', zeta2f x ecc = some f ∧ zeta2fD A x ecc = some f' ∧ |f' - f| ≤ 15 * u * |f| ∧ -π < f' ∧ f' < π) ∧
    (∃ z z', f2zeta x ecc = some z ∧ f2zetaD A x ecc = some z' ∧ |z' - z| ≤ 15 * u * |z| ∧ -π < z' ∧ z' < π) ∧
    (∃ f f', h2f x ecc = some f ∧ h2fD A x ecc = some f' ∧ |f' - f| ≤ 15 * u * |f| ∧ -π < f' ∧ f' < π) := by
  have hc := cos_half_rep hx
  have ht : tan? (x / 2) = some (Real.tan (x / 2)) := if_neg hc
  refine ⟨?_, ?_, ?_⟩
  · obtain ⟨y, hy, hr, -, hy1, hy2⟩ := conv_tan hA hx (num := 1 + ecc) (den := ecc - 1) (by linarith) (by linarith)
    refine ⟨_, y, ?_, by unfold zeta2fD; rw [if_neg h1.not_ge]; exact hy, hr, hy1, hy2⟩
    unfold zeta2f div? sqrt?
    rw [if_neg h1.not_ge, if_neg (by linarith : ecc - 1 ≠ 0), ht]
    simp only [Option.bind_eq_bind, Option.bind_some]
    rw [if_neg (not_lt.2 (div_nonneg (by linarith) (by linarith)))]
    rfl
  · obtain ⟨y, hy, hr, -, hy1, hy2⟩ := conv_tan hA hx (num := ecc - 1) (den := 1 + ecc) (by linarith) (by linarith)
    refine ⟨_, y, ?_, by unfold f2zetaD; rw [if_neg h1.not_ge]; exact hy, hr, hy1, hy2⟩
    unfold f2zeta div? sqrt?
    rw [if_neg h1.not_ge, if_neg (by linarith : 1 + ecc ≠ 0), ht]
    simp only [Option.bind_eq_bind, Option.bind_some]
    rw [if_neg (not_lt.2 (div_nonneg (by linarith) (by linarith)))]
    rfl
  · have hd : 0 < ecc - 1 := by linarith
    have hn : 0 ≤ 1 + ecc := by linarith
    have e : rn (x / 2) = x / 2 := by
      have := rn_rep (rep_scale hx (-1))
      rwa [zpow_neg_one, ← div_eq_mul_inv] at this
    have h0 : rn (ecc - 1) ≠ 0 := ((Near.exact hd.le).rn (by norm_num)).pos hd |>.ne'
    have h2 : 0 ≤ rn (rn (1 + ecc) / rn (ecc - 1)) := rn_nonneg (div_nonneg (rn_nonneg hn) (rn_nonneg hd.le))
    refine ⟨_, _, ?_, ?_, conv_rel hA hn hd (hA.tanh (x / 2)), (conv_range hA _).2⟩
    · unfold h2f div? sqrt?
      rw [if_neg h1.not_ge, if_neg hd.ne']
      simp only [Option.bind_eq_bind, Option.bind_some]
      rw [if_neg (not_lt.2 (div_nonneg hn hd.le))]
      rfl
    · unfold h2fD
      rw [if_neg h1.not_ge, hA.libm.arith.rd, divT hA h0]
      simp only [Option.bind_eq_bind, Option.bind_some]
      rw [sqrtT hA h2, e]
      rfl

/-- **C90, mean anomaly**: the mean anomaly has an absolute error of some units of roundoff of the eccentric anomaly. -/
theorem C90_mean {x ecc : ℝ} (hx : Rep x) (h0 : 0 ≤ ecc) (h1 : ecc < 1) :
    (∃ M M', e2m x ecc = some M ∧ e2mD A x ecc = some M' ∧ |M' - M| ≤ 8 * u * |x|) ∧
    (∃ E M M', f2e x ecc = some E ∧ f2m x ecc = some M ∧ f2mD A x ecc = some M' ∧ |M' - M| ≤ 40 * u * |E|) := by
  have hu := u_pos
  have hu' := u_small
  have key : ∀ y : ℝ, |A.rd (y - A.rd (ecc * A.sin y)) - (y - ecc * Real.sin y)| ≤ 8 * u * |y| := by
    intro y
    rw [hA.libm.arith.rd]
    have h2 : Rel 4 (Real.sin y) (A.sin y) := hA.libm.sin y
    have h3 := (h2.const ecc).rn (by norm_num)
    have hs : |ecc * Real.sin y| ≤ |y| := by
      rw [abs_mul, abs_of_nonneg h0]
      have := abs_sin_le_abs (x := y)
      nlinarith [abs_nonneg (Real.sin y)]
    unfold Rel at h3
    have h4 : |rn (ecc * A.sin y) - ecc * Real.sin y| ≤ 5.01 * u * |y| :=
      h3.trans (by have := mul_le_mul_of_nonneg_left hs hu.le; norm_num at *; linarith)
    generalize rn (ecc * A.sin y) = t at *
    generalize ecc * Real.sin y = w at *
    have h5 := rn_err' (y - t)
    have hy := abs_nonneg y
    have h6 : |y - t| ≤ 2.1 * |y| := by
      have a := abs_sub (y - w) (t - w)
      have b := abs_sub y w
      rw [sub_sub_sub_cancel_right] at a
      have : 5.01 * u * |y| ≤ 0.1 * |y| := mul_le_mul_of_nonneg_right (by linarith) hy
      linarith
    have h7 := abs_add_le (rn (y - t) - (y - t)) (w - t)
    rw [abs_sub_comm w] at h7
    rw [show rn (y - t) - (y - w) = rn (y - t) - (y - t) + (w - t) by ring]
    have := mul_le_mul_of_nonneg_left h6 hu.le
    nlinarith
  constructor
  · refine ⟨_, _, if_neg h1.not_ge, if_neg h1.not_ge, key x⟩
  · obtain ⟨-, E, E', hE, hE', hr, -, -⟩ := C90_ellipse hA hx h0 h1
    refine ⟨E, E - ecc * Real.sin E, A.rd (E' - A.rd (ecc * A.sin E')), hE, ?_, ?_, ?_⟩
    · unfold f2m e2m; rw [if_neg h1.not_ge, hE, Option.bind_some, if_neg h1.not_ge]
    · unfold f2mD e2mD; rw [if_neg h1.not_ge, hE', Option.bind_some, if_neg h1.not_ge]
    · have k := key E'
      have hb : |E'| ≤ 1.01 * |E| := Rel.abs_le' (k := 15) hr (by norm_num)
      have hs := abs_sin_sub_sin_le E' E
      have h2 := abs_add_three (A.rd (E' - A.rd (ecc * A.sin E')) - (E' - ecc * Real.sin E')) (E' - E) (ecc * (Real.sin E - Real.sin E'))
      rw [abs_mul, abs_of_nonneg h0, abs_sub_comm (Real.sin E)] at h2
      rw [show A.rd (E' - A.rd (ecc * A.sin E')) - (E - ecc * Real.sin E) = A.rd (E' - A.rd (ecc * A.sin E')) - (E' - ecc * Real.sin E')
        + (E' - E) + ecc * (Real.sin E - Real.sin E') by ring]
      have h3 : ecc * |Real.sin E' - Real.sin E| ≤ |E' - E| := by nlinarith [abs_nonneg (Real.sin E' - Real.sin E)]
      have := mul_le_mul_of_nonneg_left hb hu.le
      nlinarith [mul_nonneg hu.le (abs_nonneg E)]

/-- **C90, hyperbolic mean anomaly**: an absolute error of some units of roundoff of its larger term. -/
theorem C90_mean_hyperbolic {H ecc : ℝ} (h1 : 1 < ecc) :
    ∃ N N', h2n H ecc = some N ∧ h2nD A H ecc = some N' ∧ |N' - N| ≤ 8 * u * (ecc * |sinh H|) := by
  have hu := u_pos
  have hu' := u_small
  refine ⟨_, _, if_neg h1.not_ge, if_neg h1.not_ge, ?_⟩
  rw [hA.libm.arith.rd]
  have h2 : Rel 4 (sinh H) (A.sinh H) := hA.libm.sinh H
  have h3 := (h2.const ecc).rn (by norm_num)
  have hs : |H| ≤ |ecc * sinh H| := by
    rw [abs_mul, abs_of_pos (show 0 < ecc by linarith), Real.abs_sinh]
    have := Real.self_le_sinh_iff.2 (abs_nonneg H)
    nlinarith [abs_nonneg H]
  rw [show ecc * |sinh H| = |ecc * sinh H| by rw [abs_mul, abs_of_pos (show 0 < ecc by linarith)]]
  unfold Rel at h3
  generalize rn (ecc * A.sinh H) = t at *
  generalize ecc * sinh H = w at *
  have h5 := rn_err' (t - H)
  have hy := abs_nonneg w
  have h4 : |t - w| ≤ 5.01 * u * |w| := h3.trans (by norm_num)
  have h6 : |t - H| ≤ 2.1 * |w| := by
    have a := abs_add_le (w - H) (t - w)
    rw [sub_add_sub_comm, add_comm w, sub_add_eq_sub_sub_swap, add_sub_cancel_right] at a
    have b := abs_sub w H
    have : 5.01 * u * |w| ≤ 0.1 * |w| := mul_le_mul_of_nonneg_right (by linarith) hy
    linarith
  have h7 := abs_add_le (rn (t - H) - (t - H)) (t - w)
  rw [show rn (t - H) - (w - H) = rn (t - H) - (t - H) + (t - w) by ring]
  have := mul_le_mul_of_nonneg_left h6 hu.le
  nlinarith

omit hA in
theorem artanh_step {x y : ℝ} (hx : -1 < x) (hxy : x ≤ y) (hy : y < 1) : artanh y - artanh x ≤ (y - x) / ((1 - y) * (1 + x)) := by
  have p1 : 0 < 1 + x := by linarith
  have p2 : 0 < 1 - y := by linarith
  have p3 : 0 < 1 + y := by linarith
  have p4 : 0 < 1 - x := by linarith
  rw [artanh_eq_half_log ⟨by linarith, hy.le⟩, artanh_eq_half_log ⟨hx.le, by linarith⟩]
  rw [← mul_sub, ← Real.log_div (by positivity) (by positivity)]
  have h := Real.log_le_sub_one_of_pos (x := (1 + y) / (1 - y) / ((1 + x) / (1 - x))) (by positivity)
  have e : (1 + y) / (1 - y) / ((1 + x) / (1 - x)) - 1 = 2 * ((y - x) / ((1 - y) * (1 + x))) := by
    field_simp; ring
  rw [e] at h
  linarith

omit hA in
theorem artanh_odd (x : ℝ) (h1 : -1 < x) (h2 : x < 1) : artanh (-x) = -artanh x := by
  rw [artanh_eq_half_log ⟨by linarith, by linarith⟩, artanh_eq_half_log ⟨by linarith, by linarith⟩, sub_neg_eq_add, ← sub_eq_add_neg,
    ← inv_div (1 + x) (1 - x), Real.log_inv]
  ring

omit hA in
/-- How the hyperbolic arctangent enlarges errors, next to the asymptotes above all. -/
theorem artanh_err_pos {x y : ℝ} (hx : 0 ≤ x) (hx1 : x ≤ 1 - 32 * u) (h : |y - x| ≤ 9.12 * u * x) :
    |artanh y - artanh x| ≤ 12.8 * u * (x / (1 - x)) ∧ |artanh x| ≤ x / (1 - x) ∧ |y| < 1 := by
  have hu := u_pos
  have hu' := u_small
  obtain ⟨h1, h2⟩ := abs_le.1 h
  have hy0 : 0 ≤ y := by nlinarith
  have hux : u * x ≤ u := by nlinarith
  have hd : 0 < 1 - x := by linarith
  have hy1 : 0.715 * (1 - x) ≤ 1 - y := by linarith
  have hy : y < 1 := by linarith
  refine ⟨?_, ?_, by rw [abs_of_nonneg hy0]; exact hy⟩
  · have hb : 9.12 * u * x / (0.715 * (1 - x)) ≤ 12.8 * u * (x / (1 - x)) := by
      rw [← mul_div_assoc, div_le_div_iff₀ (by linarith) hd]
      have : 0 ≤ u * x * (1 - x) := by positivity
      nlinarith
    refine le_trans ?_ hb
    rcases le_total x y with hxy | hxy
    · have := artanh_step (by linarith) hxy hy
      have hm := artanh_le_artanh (by linarith) hy hxy
      rw [abs_of_nonneg (by linarith)]
      refine this.trans (div_le_div₀ (by positivity) h2 (by positivity) ?_)
      nlinarith
    · have := artanh_step (by linarith) hxy (by linarith)
      have hm := artanh_le_artanh (x := y) (y := x) (by linarith) (by linarith) hxy
      rw [abs_sub_comm, abs_of_nonneg (by linarith)]
      refine this.trans (div_le_div₀ (by positivity) (by linarith) (by positivity) ?_)
      nlinarith
  · have := artanh_step (x := 0) (y := x) (by norm_num) hx (by linarith)
    rw [artanh_zero, sub_zero, sub_zero, add_zero, mul_one] at this
    rwa [abs_of_nonneg (artanh_nonneg hx)]

omit hA in
theorem artanh_err {x y : ℝ} (hx1 : |x| ≤ 1 - 32 * u) (h : |y - x| ≤ 9.12 * u * |x|) :
    |artanh y - artanh x| ≤ 12.8 * u * (|x| / (1 - |x|)) ∧ |artanh x| ≤ |x| / (1 - |x|) ∧ |y| < 1 := by
  have hu := u_pos
  rcases le_total 0 x with hx | hx
  · rw [abs_of_nonneg hx] at *; exact artanh_err_pos hx hx1 h
  · rw [abs_of_nonpos hx] at *
    obtain ⟨a, b, c⟩ := artanh_err_pos (x := -x) (y := -y) (by linarith) hx1 (by rwa [show -y - -x = -(y - x) by ring, abs_neg])
    rw [abs_neg] at c
    obtain ⟨c1, c2⟩ := abs_lt.1 c
    rw [artanh_odd x (by linarith) (by linarith)] at a b
    rw [artanh_odd y c1 c2] at a
    rw [abs_neg] at b
    rw [show -artanh y - -artanh x = -(artanh y - artanh x) by ring, abs_neg] at a
    exact ⟨a, b, c⟩

/-- **C90, true to hyperbolic anomaly**: a number, and accurate up to the condition of the problem, unless within rounding of the
asymptotes. -/
theorem C90_f2h {f ecc : ℝ} (hf : Rep f) (h1 : 1 < ecc) (hin : |√((ecc - 1) / (1 + ecc)) * Real.tan (f / 2)| ≤ 1 - 32 * u) :
    ∃ H H', f2h f ecc = some H ∧ f2hD A f ecc = some H' ∧ |H' - H| ≤ 40 * u *
      (|√((ecc - 1) / (1 + ecc)) * Real.tan (f / 2)| / (1 - |√((ecc - 1) / (1 + ecc)) * Real.tan (f / 2)|)) := by
  have hu := u_pos
  have hu' := u_small
  have hd : 0 < 1 + ecc := by linarith
  have hn : 0 ≤ ecc - 1 := by linarith
  have e : rn (f / 2) = f / 2 := by
    have := rn_rep (rep_scale hf (-1))
    rwa [zpow_neg_one, ← div_eq_mul_inv] at this
  have h0 : rn (1 + ecc) ≠ 0 := ((Near.exact hd.le).rn (by norm_num)).pos hd |>.ne'
  have h2 : 0 ≤ rn (rn (ecc - 1) / rn (1 + ecc)) := rn_nonneg (div_nonneg (rn_nonneg hn) (rn_nonneg hd.le))
  have ht : Rel 4 (Real.tan (f / 2)) (A.tan (f / 2)) := hA.tan _
  have hr := (((Rel.of_near (anom_root hn hd)).mul ht (by norm_num) (by norm_num) (by norm_num)).rn (by norm_num)).mono
    (show (4.06 + 1.01 * 4 + 1.01 : ℝ) ≤ 9.12 by norm_num)
  have htan : tan? (f / 2) = some (Real.tan (f / 2)) := if_neg (cos_half_rep hf)
  have e1 : f2h f ecc = (atanh? (√((ecc - 1) / (1 + ecc)) * Real.tan (f / 2))).map fun y => 2 * y := by
    unfold f2h div? sqrt?
    rw [if_neg h1.not_ge, if_neg hd.ne', htan]
    simp only [Option.bind_eq_bind, Option.bind_some]
    rw [if_neg (not_lt.2 (div_nonneg hn hd.le))]
    rw [Option.bind_some]
    generalize √((ecc - 1) / (1 + ecc)) * Real.tan (f / 2) = x
    cases atanh? x <;> rfl
  have e2 : f2hD A f ecc = (A.atanh? (rn (rn √(rn (rn (ecc - 1) / rn (1 + ecc))) * A.tan (f / 2)))).map fun y => rn (2 * y) := by
    unfold f2hD
    rw [if_neg h1.not_ge, hA.libm.arith.rd, divT hA h0]
    simp only [Option.bind_eq_bind, Option.bind_some]
    rw [sqrtT hA h2, e]
    simp only [Option.bind_some]
    cases A.atanh? (rn (rn √(rn (rn (ecc - 1) / rn (1 + ecc))) * A.tan (f / 2))) <;> rfl
  rw [e1, e2]
  generalize √((ecc - 1) / (1 + ecc)) * Real.tan (f / 2) = x at *
  generalize rn (rn √(rn (rn (ecc - 1) / rn (1 + ecc))) * A.tan (f / 2)) = y at *
  obtain ⟨a, b, c⟩ := artanh_err hin hr
  obtain ⟨c1, c2⟩ := abs_lt.1 c
  have hx := abs_le.1 hin
  have hat := hA.atanh y c1 c2
  rw [atanh?_ok ⟨by linarith, by linarith⟩, LibmT.atanh?, if_pos ⟨c1, c2⟩]
  refine ⟨_, _, rfl, rfl, ?_⟩
  have hK : 0 ≤ |x| / (1 - |x|) := (abs_nonneg _).trans b
  generalize |x| / (1 - |x|) = K at *
  generalize A.atanh y = w at *
  generalize artanh y = p at *
  generalize artanh x = q at *
  have huK : 0 ≤ u * K := by positivity
  have hs : u * (u * K) ≤ 0.001 * (u * K) := mul_le_mul_of_nonneg_right (by linarith) huK
  have hp : |p| ≤ 1.01 * K := by
    have := abs_add_le (p - q) q
    rw [sub_add_cancel] at this
    nlinarith
  have hw : |w - q| ≤ 16.9 * (u * K) := by
    have := abs_add_le (w - p) (p - q)
    rw [sub_add_sub_cancel] at this
    nlinarith
  have hw' : |w| ≤ 1.02 * K := by
    have := abs_add_le (w - q) q
    rw [sub_add_cancel] at this
    nlinarith
  have h5 := rn_err' (2 * w)
  rw [abs_mul, abs_two] at h5
  have h6 := abs_add_le (rn (2 * w) - 2 * w) (2 * (w - q))
  rw [abs_mul, abs_two] at h6
  rw [show rn (2 * w) - 2 * q = rn (2 * w) - 2 * w + 2 * (w - q) by ring]
  nlinarith

omit hA in
/-- The eccentric anomaly moves at most `1 / s` times as fast as the true one. -/
theorem conv_lipschitz {s a b : ℝ} (hs : 0 < s) (hs1 : s ≤ 1) (ha : -π < a) (hb : b < π) (hab : a < b) :
    |2 * arctan (s * Real.tan (b / 2)) - 2 * arctan (s * Real.tan (a / 2))| ≤ 1 / s * |b - a| := by
  have hcos : ∀ c, a ≤ c → c ≤ b → Real.cos (c / 2) ≠ 0 := fun c h1 h2 => cos_half_ne (by linarith) (by linarith)
  have hder : ∀ c, a ≤ c → c ≤ b → HasDerivAt (fun c => 2 * arctan (s * Real.tan (c / 2)))
      (2 * (1 / (1 + (s * Real.tan (c / 2)) ^ 2) * (s * (1 / Real.cos (c / 2) ^ 2 * (1 / 2))))) c := by
    intro c h1 h2
    have h := ((Real.hasDerivAt_tan (hcos c h1 h2)).comp c ((hasDerivAt_id c).div_const 2)).const_mul s
    exact (h.arctan).const_mul 2
  obtain ⟨c, ⟨h1, h2⟩, hc⟩ := exists_hasDerivAt_eq_slope _ _ hab
    (fun c hc => (hder c hc.1 hc.2).continuousAt.continuousWithinAt) fun c hc => hder c hc.1.le hc.2.le
  have hba : 0 < b - a := by linarith
  rw [eq_div_iff hba.ne'] at hc
  rw [← hc, abs_mul]
  refine mul_le_mul_of_nonneg_right ?_ (abs_nonneg _)
  have hcc := hcos c h1.le h2.le
  have e : 2 * (1 / (1 + (s * Real.tan (c / 2)) ^ 2) * (s * (1 / Real.cos (c / 2) ^ 2 * (1 / 2))))
      = s / (Real.cos (c / 2) ^ 2 + s ^ 2 * Real.sin (c / 2) ^ 2) := by
    rw [Real.tan_eq_sin_div_cos]; field_simp
  have hss := Real.sin_sq_add_cos_sq (c / 2)
  have hge : s ^ 2 ≤ Real.cos (c / 2) ^ 2 + s ^ 2 * Real.sin (c / 2) ^ 2 := by
    have h3 : s ^ 2 ≤ 1 := by nlinarith
    have h4 := mul_le_mul_of_nonneg_right h3 (sq_nonneg (Real.cos (c / 2)))
    nlinarith
  rw [e, abs_of_nonneg (div_nonneg hs.le (le_trans (sq_nonneg s) hge)), div_le_div_iff₀ (lt_of_lt_of_le (by positivity) hge) hs]
  nlinarith

/-- **C90, round trip**: eccentric to true anomaly and back to eccentric, in doubles. -/
theorem C90_round_trip {E ecc : ℝ} (hE : Rep E) (hE1 : -π < E) (hE2 : E < π) (h0 : 0 ≤ ecc) (h1 : ecc < 1) :
    ∃ f E', e2fD A E ecc = some f ∧ f2eD A f ecc = some E' ∧ |E' - E| ≤ 48 * u * (1 + √((1 + ecc) / (1 - ecc))) := by
  have hu := u_pos
  obtain ⟨⟨f, f', hf, hf', hr, hf1, hf2⟩, -⟩ := C90_ellipse hA hE h0 h1
  have hrep : Rep f' := by
    obtain ⟨y, hy, -, hyr, -⟩ := conv_tan hA hE (num := 1 + ecc) (den := 1 - ecc) (by linarith) (by linarith)
    have : e2fD A E ecc = some y := by unfold e2fD; rw [if_neg h1.not_ge]; exact hy
    rw [hf'] at this
    rwa [Option.some.inj this]
  obtain ⟨-, E1, E', hE1', hE', hr', -, -⟩ := C90_ellipse hA hrep h0 h1
  refine ⟨f', E', hf', hE', ?_⟩
  obtain ⟨g, hg, hg1, hg2, hback, -⟩ := (C12_ellipse h0 h1).1 E hE1 hE2
  rw [hf] at hg
  obtain rfl := Option.some.inj hg
  have p1 : 0 < 1 - ecc := by linarith
  have p2 : 0 < 1 + ecc := by linarith
  have run : ∀ {t y}, -π < t → t < π → f2e t ecc = some y → y = 2 * arctan (√((1 - ecc) / (1 + ecc)) * Real.tan (t / 2)) := by
    intro t y t1 t2 hy
    rw [f2e_run h0 h1 (cos_half_ne t1 t2)] at hy
    exact (Option.some.inj hy).symm
  have eE := run hg1 hg2 hback
  have eE1 := run hf1 hf2 hE1'
  have hs : 0 < √((1 - ecc) / (1 + ecc)) := sqrt_pos.2 (by positivity)
  have hs1 : √((1 - ecc) / (1 + ecc)) ≤ 1 := by
    rw [Real.sqrt_le_left zero_le_one, one_pow, div_le_one p2]; linarith
  have hinv : 1 / √((1 - ecc) / (1 + ecc)) = √((1 + ecc) / (1 - ecc)) := by
    rw [one_div, ← Real.sqrt_inv, inv_div]
  have hL : |E1 - E| ≤ √((1 + ecc) / (1 - ecc)) * |f' - f| := by
    rw [eE, eE1, ← hinv]
    rcases lt_trichotomy f f' with h | h | h
    · exact conv_lipschitz hs hs1 hg1 hf2 h
    · rw [h]; simp
    · rw [abs_sub_comm, abs_sub_comm f' f]
      exact conv_lipschitz hs hs1 hf1 hg2 h
  have hb1 : |E1| ≤ π := by
    rw [eE1]
    have := two_arctan_mem (√((1 - ecc) / (1 + ecc)) * Real.tan (f' / 2))
    rw [abs_le]; exact ⟨this.1.le, this.2.le⟩
  have hb2 : |f| ≤ π := by rw [abs_le]; exact ⟨hg1.le, hg2.le⟩
  have hpi := pi_lt_d2
  have hS : 0 ≤ √((1 + ecc) / (1 - ecc)) := sqrt_nonneg _
  generalize √((1 + ecc) / (1 - ecc)) = S at *
  have a1 : |f' - f| ≤ 48 * u := hr.trans (by nlinarith)
  have a2 : |E' - E1| ≤ 48 * u := hr'.trans (by nlinarith)
  have a3 := mul_le_mul_of_nonneg_left a1 hS
  have a4 := abs_add_le (E' - E1) (E1 - E)
  rw [sub_add_sub_cancel] at a4
  linarith

end

/-! ## Concrete cases -/

/-- The eccentric anomaly 1 on an ellipse of eccentricity 1/2, and an anomaly well inside the asymptotes of a hyperbola. -/
example : LibmT.rounded.Double ∧ Rep (1 : ℝ) ∧ -π < (1 : ℝ) ∧ (1 : ℝ) < π ∧ (0 : ℝ) ≤ 1 / 2 ∧ (1 / 2 : ℝ) < 1 ∧
    |√((3 - 1) / (1 + 3)) * Real.tan (1 / 2)| ≤ 1 - 32 * u := by
  have h3 := pi_gt_three
  have hu := u_small
  refine ⟨LibmT.rounded_double, rep_one, by linarith, by linarith, by norm_num, by norm_num, ?_⟩
  have ht0 : 0 < Real.tan (1 / 2) := tan_pos_of_pos_of_lt_pi_div_two (by norm_num) (by linarith)
  have ht1 : Real.tan (1 / 2) < 1 := by
    refine lt_of_lt_of_eq ?_ tan_pi_div_four
    exact tan_lt_tan_of_lt_of_lt_pi_div_two (by linarith) (by linarith) (by linarith)
  have hs : √((3 - 1) / (1 + 3) : ℝ) ≤ 0.75 := by
    rw [Real.sqrt_le_left (by norm_num)]; norm_num
  rw [abs_of_nonneg (mul_nonneg (sqrt_nonneg _) ht0.le)]
  nlinarith [sqrt_nonneg ((3 - 1) / (1 + 3) : ℝ)]

end Kep3
