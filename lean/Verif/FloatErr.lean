import Verif.Float
import Verif.RealOps
import Mathlib.Analysis.Real.Pi.Bounds

/-!
# Propagation of rounding errors

`Near k x y`: the computed value `y` is within `k` half-units in the last place (relative to `x`) of the exact non-negative value `x`.
Used where the model follows the double arithmetic of the code.
-/

namespace Kep3.Fl
open Real

/-- The unit roundoff of doubles. -/
noncomputable def u : ℝ := 1 / 2 ^ 53

theorem u_pos : 0 < u := by unfold u; positivity
theorem u_small : u ≤ 1 / 10 ^ 15 := by unfold u; norm_num

theorem rn_err' (x : ℝ) : |rn x - x| ≤ u * |x| := by
  have := rn_err x
  unfold u
  linarith

/-- `y` is within `k` units of roundoff of the non-negative number `x`. -/
def Near (k x y : ℝ) : Prop := 0 ≤ x ∧ 0 ≤ k ∧ k ≤ 100 ∧ |y - x| ≤ k * u * x

namespace Near
variable {j k x y z w : ℝ}

theorem mono (h : Near j x y) (hk : j ≤ k) (h100 : k ≤ 100 := by norm_num) : Near k x y := by
  obtain ⟨h1, h2, h3, h4⟩ := h
  refine ⟨h1, h2.trans hk, h100, h4.trans ?_⟩
  exact mul_le_mul_of_nonneg_right (mul_le_mul_of_nonneg_right hk u_pos.le) h1

theorem exact (h : 0 ≤ x) : Near 0 x x := ⟨h, le_rfl, by norm_num, by simp⟩

theorem nonneg (h : Near k x y) : 0 ≤ y := by
  obtain ⟨h1, h2, h3, h4⟩ := h
  have := (abs_le.1 h4).1
  have hk : k * u ≤ 1 := by nlinarith [u_pos, u_small]
  nlinarith

theorem pos (h : Near k x y) (hx : 0 < x) : 0 < y := by
  obtain ⟨h1, h2, h3, h4⟩ := h
  have := (abs_le.1 h4).1
  have hk : k * u ≤ 1 / 2 := by nlinarith [u_pos, u_small]
  nlinarith

theorem rn (h : Near k x y) (hk : k ≤ 98) : Near (k + 1.01) x (Fl.rn y) := by
  obtain ⟨h1, h2, h3, h4⟩ := h
  refine ⟨h1, by linarith, by linarith, ?_⟩
  have e := rn_err' y
  have hy : |y| ≤ x + k * u * x := by
    calc |y| = |x + (y - x)| := by ring_nf
      _ ≤ |x| + |y - x| := abs_add_le _ _
      _ ≤ _ := by rw [abs_of_nonneg h1]; linarith
  have hk1 : k * u ≤ 0.01 := by nlinarith [u_pos, u_small]
  have h5 : k * u * x ≤ 0.01 * x := mul_le_mul_of_nonneg_right hk1 h1
  calc |Fl.rn y - x| = |(Fl.rn y - y) + (y - x)| := by ring_nf
    _ ≤ |Fl.rn y - y| + |y - x| := abs_add_le _ _
    _ ≤ u * (x + 0.01 * x) + k * u * x := by
        have := mul_le_mul_of_nonneg_left (hy.trans (by linarith : x + k * u * x ≤ x + 0.01 * x)) u_pos.le
        linarith
    _ = (k + 1.01) * u * x := by ring

theorem mul (h : Near j x y) (g : Near k z w) (hjk : j + k ≤ 99) : Near (j + k + 0.01) (x * z) (y * w) := by
  obtain ⟨h1, h2, h3, h4⟩ := h
  obtain ⟨g1, g2, g3, g4⟩ := g
  have hu := u_pos
  have hxz := mul_nonneg h1 g1
  refine ⟨hxz, by linarith, by linarith, ?_⟩
  have e : y * w - x * z = (y - x) * (w - z) + x * (w - z) + (y - x) * z := by ring
  have a1 : |(y - x) * (w - z)| ≤ (j * u * x) * (k * u * z) := by
    rw [abs_mul]; exact mul_le_mul h4 g4 (abs_nonneg _) (by positivity)
  have a2 : |x * (w - z)| ≤ x * (k * u * z) := by
    rw [abs_mul, abs_of_nonneg h1]; exact mul_le_mul_of_nonneg_left g4 h1
  have a3 : |(y - x) * z| ≤ (j * u * x) * z := by
    rw [abs_mul, abs_of_nonneg g1]; exact mul_le_mul_of_nonneg_right h4 g1
  have a4 : j * k * u ≤ 0.01 := by
    have : j * k ≤ 100 * 100 := mul_le_mul h3 g3 g2 (by norm_num)
    nlinarith [u_small]
  have a5 : (j * u * x) * (k * u * z) ≤ 0.01 * u * (x * z) := by
    calc (j * u * x) * (k * u * z) = (j * k * u) * (u * (x * z)) := by ring
      _ ≤ 0.01 * (u * (x * z)) := mul_le_mul_of_nonneg_right a4 (by positivity)
      _ = _ := by ring
  rw [e]
  calc _ ≤ |(y - x) * (w - z)| + |x * (w - z)| + |(y - x) * z| := abs_add_three _ _ _
    _ ≤ 0.01 * u * (x * z) + x * (k * u * z) + (j * u * x) * z := by linarith
    _ = _ := by ring

theorem add (h : Near k x y) (g : Near k z w) : Near k (x + z) (y + w) := by
  obtain ⟨h1, h2, h3, h4⟩ := h
  obtain ⟨g1, g2, g3, g4⟩ := g
  refine ⟨by linarith, h2, h3, ?_⟩
  calc |y + w - (x + z)| = |(y - x) + (w - z)| := by ring_nf
    _ ≤ |y - x| + |w - z| := abs_add_le _ _
    _ ≤ _ := by linarith

theorem inv (h : Near k x y) (hx : 0 < x) (hk : k ≤ 99) : Near (k + 0.01) (1 / x) (1 / y) := by
  have hy := h.pos hx
  obtain ⟨h1, h2, h3, h4⟩ := h
  have hu := u_pos
  refine ⟨by positivity, by linarith, by linarith, ?_⟩
  have e : 1 / y - 1 / x = (x - y) / (x * y) := by field_simp
  have hk1 : k * u ≤ 1 / 10 ^ 12 := by nlinarith [u_small]
  have hy2 : (1 - k * u) * x ≤ y := by have := (abs_le.1 h4).1; linarith
  rw [e, abs_div, abs_sub_comm, abs_of_pos (mul_pos hx hy), div_le_iff₀ (by positivity)]
  calc |y - x| ≤ k * u * x := h4
    _ ≤ (k + 0.01) * u * ((1 - k * u) * x) := by
        have : k * u ≤ (k + 0.01) * u * (1 - k * u) := by
          have : k * (k + 0.01) * u ≤ 0.01 := by nlinarith [u_small]
          nlinarith
        nlinarith
    _ ≤ (k + 0.01) * u * y := mul_le_mul_of_nonneg_left hy2 (by positivity)
    _ = _ := by field_simp

theorem sqrt (h : Near k x y) : Near k (√x) (√y) := by
  have hy := h.nonneg
  obtain ⟨h1, h2, h3, h4⟩ := h
  refine ⟨sqrt_nonneg _, h2, h3, ?_⟩
  rcases h1.eq_or_lt with hx | hx
  · rw [← hx] at h4 ⊢
    have : y = 0 := by simpa using h4
    simp [this]
  · have s1 : 0 < √x := sqrt_pos.2 hx
    have s2 := sqrt_nonneg y
    have e : (√y - √x) * (√y + √x) = y - x := by
      have := mul_self_sqrt hy; have := mul_self_sqrt hx.le; linarith
    have e2 : |√y - √x| * (√y + √x) = |y - x| := by
      rw [← e, abs_mul, abs_of_nonneg (by linarith : 0 ≤ √y + √x)]
    have e3 : |√y - √x| * √x ≤ k * u * √x * √x := by
      calc |√y - √x| * √x ≤ |√y - √x| * (√y + √x) := mul_le_mul_of_nonneg_left (by linarith) (abs_nonneg _)
        _ ≤ k * u * x := by rw [e2]; exact h4
        _ = _ := by rw [mul_assoc (k * u), mul_self_sqrt hx.le]
    exact le_of_mul_le_mul_right e3 s1

theorem abs_le (h : Near k x y) : |y - x| ≤ k * u * x := h.2.2.2

end Near

/-- The square root undoes the squaring of a double. -/
theorem rn_sqrt_sq {x : ℝ} (hx : 0 < x) (hr : Rep x) : rn √(rn (x * x)) = x := by
  have hu := u_pos
  have x0 : x ≠ 0 := hx.ne'
  -- the integer significand
  obtain ⟨m, e, hm1, hm2, rfl⟩ : ∃ m e : Int, 2 ^ 52 ≤ m ∧ m < 2 ^ 53 ∧ x = m * (2 : ℝ) ^ e := by
    have h := rn_rep hr
    unfold rn at h
    rw [if_neg x0] at h
    refine ⟨rhe (x / ulp x), Int.log 2 |x| - 52, ?_, ?_, h.symm⟩
    · have h2 := le_abs x0
      rw [abs_of_pos hx] at h2
      have h3 : (2 ^ 52 : ℝ) * ulp x ≤ rhe (x / ulp x) * ulp x := by rw [h]; exact h2
      have := le_of_mul_le_mul_right h3 (ulp_pos x)
      exact_mod_cast this
    · have h2 := abs_lt' x
      rw [abs_of_pos hx] at h2
      have h3 : (rhe (x / ulp x) : ℝ) * ulp x < 2 ^ 53 * ulp x := by rw [h]; exact h2
      have := lt_of_mul_lt_mul_right h3 (ulp_pos x).le
      exact_mod_cast this
  have he : (0 : ℝ) < 2 ^ e := by positivity
  have hm : (2 ^ 52 : ℝ) ≤ m := by exact_mod_cast hm1
  have hm' : (m : ℝ) ≤ 2 ^ 53 - 1 := by
    have : m ≤ 2 ^ 53 - 1 := by omega
    exact_mod_cast this
  set x := (m : ℝ) * 2 ^ e with hxd
  have h1 := rn_err' (x * x)
  rw [abs_of_nonneg (by positivity : 0 ≤ x * x)] at h1
  obtain ⟨l1, l2⟩ := abs_le.1 h1
  have lo : (2 ^ 52 * 2 ^ e) * (2 ^ 52 * 2 ^ e) ≤ rn (x * x) := by
    have hrep : Rep ((2 ^ 52 * 2 ^ e) * (2 ^ 52 * 2 ^ e) : ℝ) := by
      refine ⟨1, 104 + e + e, by norm_num, ?_⟩
      rw [zpow_add₀ (by norm_num), zpow_add₀ (by norm_num)]; push_cast; ring_nf
    rw [← rn_rep hrep]
    apply rn_mono
    have : 2 ^ 52 * 2 ^ e ≤ x := mul_le_mul_of_nonneg_right hm he.le
    exact mul_le_mul this this (by positivity) hx.le
  have hR : 0 ≤ rn (x * x) := le_trans (by positivity) lo
  have hs := sqrt_nonneg (rn (x * x))
  have b1 : 2 ^ 52 * 2 ^ e ≤ √(rn (x * x)) := by
    apply Real.le_sqrt_of_sq_le; rw [sq]; exact lo
  have b2 : √(rn (x * x)) < x + 2 ^ e / 2 := by
    rw [Real.sqrt_lt' (by positivity)]
    have : u * (x * x) < x * 2 ^ e := by
      have : u * x < 2 ^ e := by rw [hxd]; unfold u; nlinarith
      nlinarith
    nlinarith
  have b3 : x - 2 ^ e / 2 < √(rn (x * x)) := by
    apply Real.lt_sqrt_of_sq_lt
    have h3 : (x - 2 ^ e / 2) ^ 2 = x * x - x * 2 ^ e + 2 ^ e * 2 ^ e / 4 := by ring
    have h4 : u * (x * x) ≤ x * 2 ^ e * (1 - u) := by
      have : u * x ≤ 2 ^ e * (1 - u) := by
        rw [hxd]; unfold u; nlinarith
      nlinarith
    have h5 : 2 ^ e * 2 ^ e / 4 < u * (x * 2 ^ e) := by
      have : 2 ^ e / 4 < u * x := by rw [hxd]; unfold u; nlinarith
      nlinarith
    linarith
  apply rn_eval m e
  · rw [abs_of_nonneg hs]; exact b1
  · rw [abs_of_nonneg hs]
    have : x + 2 ^ e / 2 ≤ 2 ^ 53 * 2 ^ e := by rw [hxd]; nlinarith
    linarith
  · rw [show (m : ℝ) - √(rn (x * x)) / 2 ^ e = (x - √(rn (x * x))) / 2 ^ e by rw [hxd]; field_simp, abs_div, abs_of_pos he,
      div_lt_iff₀ he, abs_lt]
    constructor <;> linarith

/-- `arccos` is Hölder continuous with exponent 1/2. -/
theorem arccos_holder {x y : ℝ} (hx : -1 ≤ x ∧ x ≤ 1) (hy : -1 ≤ y ∧ y ≤ 1) : |arccos x - arccos y| ≤ π * √(|x - y| / 2) := by
  wlog h : arccos y ≤ arccos x generalizing x y
  · rw [abs_sub_comm, abs_sub_comm x]; exact this hy hx (le_of_not_ge h)
  rw [abs_of_nonneg (by linarith)]
  set a := arccos x
  set b := arccos y
  have a1 := arccos_le_pi x
  have b0 := arccos_nonneg y
  have hca : cos a = x := cos_arccos hx.1 hx.2
  have hcb : cos b = y := cos_arccos hy.1 hy.2
  set d := (a - b) / 2 with hd
  set s := (a + b) / 2 with hs
  have d0 : 0 ≤ d := by rw [hd]; linarith
  have dpi : d ≤ π / 2 := by rw [hd]; change arccos x ≤ π at a1; change 0 ≤ arccos y at b0; simp only [a, b]; linarith
  have e : y - x = 2 * sin s * sin d := by
    rw [← hca, ← hcb, show a = s + d by rw [hs, hd]; ring, show b = s - d by rw [hs, hd]; ring, cos_add, cos_sub]; ring
  have hsd : sin d ≤ sin s := by
    rcases le_total s (π / 2) with h2 | h2
    · exact sin_le_sin_of_le_of_le_pi_div_two (by linarith [pi_pos]) h2 (by rw [hs, hd]; linarith)
    · rw [← sin_pi_sub s]
      exact sin_le_sin_of_le_of_le_pi_div_two (by linarith [pi_pos]) (by linarith) (by rw [hs, hd]; linarith)
  have hj : 2 / π * d ≤ sin d := mul_le_sin d0 dpi
  have hsin0 : 0 ≤ sin d := sin_nonneg_of_nonneg_of_le_pi d0 (by linarith [pi_pos])
  have hxy : |x - y| / 2 = sin s * sin d := by
    rw [abs_sub_comm, e, abs_of_nonneg (by have := hsin0.trans hsd; positivity)]; ring
  have : sin d ≤ √(|x - y| / 2) := by
    apply Real.le_sqrt_of_sq_le; rw [hxy, sq]; exact mul_le_mul_of_nonneg_right hsd hsin0
  calc a - b = π * (2 / π * d) := by rw [hd]; field_simp
    _ ≤ _ := mul_le_mul_of_nonneg_left (hj.trans this) pi_pos.le

end Kep3.Fl
