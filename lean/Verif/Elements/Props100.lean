import Verif.Elements.EqParDouble
import Verif.Kepler.Props93

/-!
# C100: equinoctial and classical elements into each other in double precision
-/

namespace Kep3
open Real Fl

/-! ## Angles -/

/-- The angle of a vector near the unit circle. -/
theorem atan2_pert {W s c δ : ℝ} (hs : |s - sin W| ≤ δ) (hc : |c - cos W| ≤ δ) (hδ : δ ≤ 0.001) : ∃ k : ℤ, |atan2 s c - W - 2 * π * k| ≤ 11.3 * δ := by
  have δ0 : 0 ≤ δ := (abs_nonneg _).trans hs
  have cs := sin_sq_add_cos_sq W
  have b1 := abs_sin_le_one W
  have b2 := abs_cos_le_one W
  have part : ∀ x x0 : ℝ, |x0| ≤ 1 → |x - x0| ≤ δ → |x ^ 2 - x0 ^ 2| ≤ 2.01 * δ := by
    intro x x0 h0 h
    rw [show x ^ 2 - x0 ^ 2 = (x - x0) * (2 * x0 + (x - x0)) by ring, abs_mul]
    have t := abs_add_le (2 * x0) (x - x0)
    rw [abs_mul, abs_of_pos (show (0 : ℝ) < 2 by norm_num)] at t
    calc |x - x0| * |2 * x0 + (x - x0)| ≤ δ * 2.01 := mul_le_mul h (by linarith) (abs_nonneg _) δ0
      _ = _ := by ring
  have q : |c ^ 2 + s ^ 2 - 1| ≤ 4.02 * δ := by
    have p1 := part s _ b1 hs
    have p2 := part c _ b2 hc
    have t := abs_add_le (c ^ 2 - cos W ^ 2) (s ^ 2 - sin W ^ 2)
    rw [show c ^ 2 - cos W ^ 2 + (s ^ 2 - sin W ^ 2) = c ^ 2 + s ^ 2 - 1 by linarith] at t
    linarith
  have hpos : 0 < c ^ 2 + s ^ 2 := by linarith [(abs_le.1 q).1]
  have ec := atan2_cos hpos
  have es := atan2_sin hpos
  generalize atan2 s c = θ at *
  have ρ0 : 0 ≤ √(c ^ 2 + s ^ 2) := sqrt_nonneg _
  have ρ2 : √(c ^ 2 + s ^ 2) ^ 2 = c ^ 2 + s ^ 2 := sq_sqrt hpos.le
  generalize √(c ^ 2 + s ^ 2) = ρ at *
  have r1 : |ρ - 1| ≤ 4.02 * δ := by
    have : |ρ - 1| ≤ |ρ ^ 2 - 1| := by
      rw [show ρ ^ 2 - 1 = (ρ - 1) * (ρ + 1) by ring, abs_mul, abs_of_pos (show 0 < ρ + 1 by linarith)]
      nlinarith [abs_nonneg (ρ - 1)]
    rw [ρ2] at this
    exact this.trans q
  have dd : ∀ {x y : ℝ}, |x| ≤ 1 → ρ * x = y → |x - y| ≤ 4.02 * δ := by
    intro x y hx hy
    rw [← hy, show x - ρ * x = -((ρ - 1) * x) by ring, abs_neg, abs_mul]
    calc |ρ - 1| * |x| ≤ 4.02 * δ * 1 := mul_le_mul r1 hx (abs_nonneg _) (by positivity)
      _ = _ := mul_one _
  have d1 := dd (abs_cos_le_one θ) ec
  have d2 := dd (abs_sin_le_one θ) es
  have e1 := abs_add_le (cos θ - c) (c - cos W)
  have e2 := abs_add_le (sin θ - s) (s - sin W)
  rw [sub_add_sub_cancel] at e1 e2
  obtain ⟨k, hk⟩ := turn_of_chord (a := θ) (b := W) (δ := 5.02 * δ) (by linarith) (by linarith)
  exact ⟨k, hk.trans (by linarith)⟩

/-- The double `2 * pi`. -/
theorem two_pi_err : |rn (2 * rn π) - 2 * π| ≤ 12.8 * u ∧ rn (2 * rn π) ≤ 6.2833 ∧ 6.28 ≤ rn (2 * rn π) := by
  have hu := u_pos
  have hus := u_small
  have hpi := pi_lt_d4
  have hp3 := pi_gt_d4
  have w : Within 0 (2 : ℝ) 2 := by unfold Within; simp
  have w1 := (w.mul (show Within u π (rn π) from rn_err' _) (by norm_num)).rn (by linarith)
  have e1 := w1.mono (show _ ≤ 2.03 * u by linarith)
  unfold Within at e1
  rw [abs_of_pos (show 0 < 2 * π by linarith)] at e1
  have e2 : |rn (2 * rn π) - 2 * π| ≤ 12.8 * u := e1.trans (by nlinarith)
  have := abs_le.1 e2
  exact ⟨e2, by linarith, by linarith⟩

/-- Adding a turn to negative angles. -/
theorem wrapNegD_err {A : Libm} (hA : A.Double) {t : ℝ} (ht : |t| ≤ 3.15) :
    (∃ k : ℤ, |wrapNegD A t - t - 2 * π * k| ≤ 19.2 * u) ∧ 0 ≤ wrapNegD A t ∧ wrapNegD A t ≤ rn (2 * rn π) := by
  have hu := u_pos
  obtain ⟨p1, p2, p3⟩ := two_pi_err
  have h1 := abs_le.1 ht
  unfold wrapNegD
  split_ifs with hneg
  · rw [hA.arith.rd]
    have hr : rn (t + rn (2 * rn π)) ≤ rn (2 * rn π) := by
      have := rn_mono (show t + rn (2 * rn π) ≤ rn (2 * rn π) by linarith)
      rwa [rn_rep (rep_rn _)] at this
    have h0 : 0 ≤ rn (t + rn (2 * rn π)) := rn_nonneg (by linarith)
    refine ⟨⟨1, ?_⟩, h0, hr⟩
    generalize rn (2 * rn π) = p at *
    have e3 := rn_err' (t + p)
    have e4 : |t + p| ≤ 6.31 := by rw [abs_le]; constructor <;> linarith
    have e5 := mul_le_mul_of_nonneg_left e4 hu.le
    have t1 := abs_add_le (rn (t + p) - (t + p)) (p - 2 * π)
    rw [show rn (t + p) - (t + p) + (p - 2 * π) = rn (t + p) - t - 2 * π * ((1 : ℤ) : ℝ) by push_cast; ring] at t1
    exact t1.trans (by linarith)
  · refine ⟨⟨0, ?_⟩, not_lt.1 hneg, by linarith⟩
    simp only [sub_self, Int.cast_zero, mul_zero, abs_zero]
    linarith

/-- Bringing an angle within two turns into one. -/
theorem wrapBothD_err {A : LibmT} (hA : A.Double) {t : ℝ} (ht : |t| ≤ 12.6) :
    (∃ k : ℤ, |wrapBothD A t - t - 2 * π * k| ≤ 19.3 * u) ∧ |wrapBothD A t| ≤ 6.4 := by
  have hu := u_pos
  have hus := u_small
  obtain ⟨p1, p2, p3⟩ := two_pi_err
  have h1 := abs_le.1 ht
  unfold wrapBothD
  rw [hA.libm.arith.rd]
  generalize rn (2 * rn π) = p at *
  have main : ∀ s : ℝ, |s| ≤ 6.32 → |rn s - s| ≤ 6.32 * u ∧ |rn s| ≤ 6.4 := by
    intro s hs
    have := rn_err' s
    have := mul_le_mul_of_nonneg_left hs hu.le
    have t := abs_add_le (rn s - s) s
    rw [sub_add_cancel] at t
    constructor <;> linarith
  split_ifs with h2 h3
  · obtain ⟨m1, m2⟩ := main (t + p) (by rw [abs_le]; constructor <;> linarith)
    refine ⟨⟨1, ?_⟩, m2⟩
    have t1 := abs_add_le (rn (t + p) - (t + p)) (p - 2 * π)
    rw [show rn (t + p) - (t + p) + (p - 2 * π) = rn (t + p) - t - 2 * π * ((1 : ℤ) : ℝ) by push_cast; ring] at t1
    exact t1.trans (by linarith)
  · obtain ⟨m1, m2⟩ := main (t - p) (by rw [abs_le]; constructor <;> linarith)
    refine ⟨⟨-1, ?_⟩, m2⟩
    have t1 := abs_sub (rn (t - p) - (t - p)) (p - 2 * π)
    rw [show rn (t - p) - (t - p) - (p - 2 * π) = rn (t - p) - t - 2 * π * ((-1 : ℤ) : ℝ) by push_cast; ring] at t1
    exact t1.trans (by linarith)
  · refine ⟨⟨0, ?_⟩, ?_⟩
    · simp only [sub_self, Int.cast_zero, mul_zero, abs_zero]
      linarith
    · rw [abs_le]; constructor <;> linarith

theorem hyp_near {A : LibmT} (hA : A.Double) (x y : ℝ) : Near 3.03 √(x * x + y * y) (hypD A x y) := by
  have sq : ∀ t : ℝ, Near 1.01 (t * t) (rn (t * t)) := fun t => ((Near.exact (mul_self_nonneg t)).rn (by norm_num)).mono (by norm_num)
  unfold hypD
  rw [hA.libm.arith.rd]
  exact ((((sq x).add (sq y)).rn (by norm_num)).sqrt.rn (by norm_num)).mono (by norm_num)

/-- The computed longitude of a vector `(x, y)`. -/
theorem longitude_err {A : LibmT} (hA : A.Double) (hat : ∀ y x, |A.atan2 y x - atan2 y x| ≤ 4 * u * |atan2 y x|) {x y W : ℝ} (h0 : 0 < x * x + y * y)
    (hx : x = √(x * x + y * y) * cos W) (hy : y = √(x * x + y * y) * sin W) :
    ∃ s c, A.div? y (hypD A x y) = some s ∧ A.div? x (hypD A x y) = some c ∧
      (∃ k : ℤ, |wrapNegD A.toLibm (A.atan2 s c) - W - 2 * π * k| ≤ 79 * u) ∧
      0 ≤ wrapNegD A.toLibm (A.atan2 s c) ∧ wrapNegD A.toLibm (A.atan2 s c) ≤ 6.2833 := by
  have hu := u_pos
  have hus := u_small
  have n := hyp_near hA x y
  have hr : 0 < √(x * x + y * y) := sqrt_pos.2 h0
  have n0 := n.pos hr
  have run : ∀ z, A.div? z (hypD A x y) = some (rn (z / hypD A x y)) := by
    intro z
    unfold Arith.div? Kep3.div?
    rw [if_neg n0.ne', hA.libm.arith.rd]
    rfl
  refine ⟨_, _, run y, run x, ?_⟩
  generalize hypD A x y = d at *
  have comp : ∀ z w : ℝ, |w| ≤ 1 → z = √(x * x + y * y) * w → |rn (z / d) - w| ≤ 4.1 * u := by
    intro z w hw hz
    have r1 : Rel 3.04 (1 / √(x * x + y * y)) (1 / d) := (Rel.of_near (n.inv hr (by norm_num))).mono (by norm_num)
    have r2 := (r1.const z).rn (by norm_num)
    rw [mul_one_div, mul_one_div] at r2
    have e : z / √(x * x + y * y) = w := by rw [hz, mul_div_cancel_left₀ _ hr.ne']
    rw [e] at r2
    unfold Rel at r2
    have := mul_le_mul_of_nonneg_left hw (by positivity : 0 ≤ (3.04 + 1.01) * u)
    linarith
  have hs := comp y (sin W) (abs_sin_le_one W) hy
  have hc := comp x (cos W) (abs_cos_le_one W) hx
  generalize rn (y / d) = s at *
  generalize rn (x / d) = c at *
  obtain ⟨k, hk⟩ := atan2_pert hs hc (by linarith)
  have hm := atan2_mem s c
  have hp := pi_lt_d4
  have ha := hat s c
  have hb : |atan2 s c| ≤ 3.1416 := abs_le.2 ⟨by linarith [hm.1], by linarith [hm.2]⟩
  have hb' := mul_le_mul_of_nonneg_left hb (by positivity : 0 ≤ 4 * u)
  have hbig : |A.atan2 s c| ≤ 3.15 := by
    have t := abs_add_le (A.atan2 s c - atan2 s c) (atan2 s c)
    rw [sub_add_cancel] at t
    linarith
  obtain ⟨⟨j, hj⟩, w1, w2⟩ := wrapNegD_err hA.libm hbig
  refine ⟨⟨j + k, ?_⟩, w1, w2.trans two_pi_err.2.1⟩
  have t := abs_add_three (wrapNegD A.toLibm (A.atan2 s c) - A.atan2 s c - 2 * π * j) (A.atan2 s c - atan2 s c) (atan2 s c - W - 2 * π * k)
  rw [show wrapNegD A.toLibm (A.atan2 s c) - A.atan2 s c - 2 * π * j + (A.atan2 s c - atan2 s c) + (atan2 s c - W - 2 * π * k) =
    wrapNegD A.toLibm (A.atan2 s c) - W - 2 * π * ((j + k : ℤ) : ℝ) by push_cast; ring] at t
  linarith

/-! ## From equinoctial to classical elements -/

theorem sgnI_abs (b : Bool) (x : ℝ) : |sgnI b * x| = |x| := by unfold sgnI; cases b <;> simp

theorem sgnI_eq (b : Bool) : sgnI b = 1 ∨ sgnI b = -1 := by unfold sgnI; cases b <;> simp

/-- The inclination. -/
theorem inc_err {A : LibmT} (hA : A.Double) (b : Bool) {t t' : ℝ} (h : Near 3.03 t t') :
    |A.rd (A.rd (A.rd (π / 2) * (1 - sgnI b)) + A.rd (2 * sgnI b * A.atan t')) - (π / 2 * (1 - sgnI b) + 2 * sgnI b * arctan t)| ≤ 42 * u := by
  have hu := u_pos
  have hus := u_small
  have hp := pi_lt_d4
  have hp3 := pi_gt_three
  rw [hA.libm.arith.rd]
  have t0 := h.1
  have ad : |arctan t' - arctan t| ≤ 4 * u * arctan t := by
    rcases t0.eq_or_lt with rfl | t0
    · have := h.abs_le
      rw [mul_zero, sub_zero] at this
      have : t' = 0 := abs_eq_zero.1 (le_antisymm this (abs_nonneg _))
      simp [this]
    · refine (arctan_rel_pos t0 (d := 3.03 * u) (by positivity) (by linarith) h.abs_le).trans ?_
      refine mul_le_mul_of_nonneg_right ?_ (arctan_nonneg.2 t0.le)
      rw [div_le_iff₀ (by linarith)]
      nlinarith
  have a1 : arctan t ≤ 1.5708 := by linarith [arctan_lt_pi_div_two t]
  have a0 : 0 ≤ arctan t := arctan_nonneg.2 t0
  have b1 : |arctan t'| ≤ 1.571 := by
    have := abs_lt.2 ⟨neg_pi_div_two_lt_arctan t', arctan_lt_pi_div_two t'⟩
    linarith
  have c1 := hA.atan t'
  have c2 := mul_le_mul_of_nonneg_left b1 (by positivity : 0 ≤ 4 * u)
  have c3 := mul_le_mul_of_nonneg_left a1 (by positivity : 0 ≤ 4 * u)
  have d1 : |A.atan t' - arctan t| ≤ 12.6 * u := by
    have t := abs_add_le (A.atan t' - arctan t') (arctan t' - arctan t)
    rw [sub_add_sub_cancel] at t
    linarith
  generalize A.atan t' = z at *
  generalize arctan t = w at *
  have hpi2 := rn_err' (π / 2)
  rw [abs_of_pos (show 0 < π / 2 by linarith)] at hpi2
  have hz : |z| ≤ 1.58 := by
    have t := abs_add_le (z - w) w
    rw [sub_add_cancel, abs_of_nonneg a0] at t
    linarith
  have hz2 := abs_le.1 hz
  have e1 := rn_err' (2 * sgnI b * z)
  have hq : |2 * sgnI b * z| ≤ 3.16 := by
    rw [mul_assoc, abs_mul, sgnI_abs, abs_of_pos (show (0 : ℝ) < 2 by norm_num)]
    linarith
  have e1' := mul_le_mul_of_nonneg_left hq hu.le
  have e2 : |2 * sgnI b * z - 2 * sgnI b * w| ≤ 25.2 * u := by
    rw [← mul_sub, mul_assoc, abs_mul, sgnI_abs, abs_of_pos (show (0 : ℝ) < 2 by norm_num)]
    linarith
  have e3 : |rn (rn (π / 2) * (1 - sgnI b)) - π / 2 * (1 - sgnI b)| ≤ 6.4 * u ∧ |π / 2 * (1 - sgnI b)| ≤ 3.1416 := by
    rcases sgnI_eq b with hb | hb
    · rw [hb]; simp only [sub_self, mul_zero, rn_zero, abs_zero]
      constructor
      · positivity
      · norm_num
    · rw [hb, show (1 : ℝ) - -1 = 2 by norm_num]
      have f := rn_err' (rn (π / 2) * 2)
      have g := abs_le.1 hpi2
      have g2 : |rn (π / 2) * 2| ≤ 3.15 := by
        rw [abs_le]; constructor <;> nlinarith
      have f2 := mul_le_mul_of_nonneg_left g2 hu.le
      have t := abs_add_le (rn (rn (π / 2) * 2) - rn (π / 2) * 2) (rn (π / 2) * 2 - π / 2 * 2)
      rw [sub_add_sub_cancel, ← sub_mul, abs_mul, abs_of_pos (show (0 : ℝ) < 2 by norm_num)] at t
      constructor
      · nlinarith
      · rw [abs_of_pos (by linarith)]; linarith
  obtain ⟨e3, e4⟩ := e3
  generalize rn (rn (π / 2) * (1 - sgnI b)) = X at *
  generalize π / 2 * (1 - sgnI b) = X0 at *
  generalize 2 * sgnI b * z = Z at *
  generalize 2 * sgnI b * w = Z0 at *
  have e5 := rn_err' (X + rn Z)
  have e6 : |X + rn Z| ≤ 6.4 := by
    have t1 := abs_add_le X (rn Z)
    have t2 := abs_add_le (X - X0) X0
    have t3 := abs_add_le (rn Z - Z) Z
    rw [sub_add_cancel] at t2 t3
    linarith
  have e7 := mul_le_mul_of_nonneg_left e6 hu.le
  have t := abs_add_three (rn (X + rn Z) - (X + rn Z)) (X - X0) ((rn Z - Z) + (Z - Z0))
  have t' := abs_add_le (rn Z - Z) (Z - Z0)
  rw [show rn (X + rn Z) - (X + rn Z) + (X - X0) + (rn Z - Z + (Z - Z0)) = rn (X + rn Z) - (X0 + Z0) by ring] at t
  linarith

/-- The semi-major axis from the computed eccentricity. -/
theorem sma_err {p e e' K : ℝ} (h : Near 3.03 e e') (h1 : 1 + e ≤ K * |1 - e|) (hK : K ≤ 2 ^ 40) :
    1 - e * e ≠ 0 ∧ rn (1 - rn (e' * e')) ≠ 0 ∧ Within (12 * K * u) (p / (1 - e * e)) (rn (p / rn (1 - rn (e' * e')))) := by
  have hu := u_pos
  have hus := u_small
  have he := h.1
  have hd : 0 ≤ |1 - e| := abs_nonneg _
  have hK1 : 1 ≤ K := by
    by_contra hc
    have : |1 - e| ≤ 1 + e := abs_le.2 ⟨by linarith, by linarith⟩
    rcases hd.eq_or_lt with h | h
    · rw [← h] at h1; linarith
    · have := mul_lt_of_lt_one_left h (not_le.1 hc); linarith
  have hKu : K * u ≤ 1 / 8000 := by unfold u; rw [mul_one_div, div_le_div_iff₀ (by positivity) (by norm_num)]; norm_num at hK ⊢; linarith
  have hne : (1 - e) ≠ 0 := by
    intro h0
    rw [h0, abs_zero, mul_zero] at h1
    linarith
  have hne2 : 1 - e * e ≠ 0 := by
    rw [show 1 - e * e = (1 - e) * (1 + e) by ring]
    exact mul_ne_zero hne (by linarith)
  have n2 := (((h.mul h (by norm_num)).rn (by norm_num)).mono (k := 7.08) (by norm_num)).abs_le
  have e1 : Within (7.08 * (K * u)) (1 - e * e) (1 - rn (e' * e')) := by
    unfold Within
    rw [show 1 - rn (e' * e') - (1 - e * e) = -(rn (e' * e') - e * e) by ring, abs_neg]
    refine n2.trans ?_
    rw [show 1 - e * e = (1 - e) * (1 + e) by ring, abs_mul, abs_of_pos (show 0 < 1 + e by linarith)]
    have : e * e ≤ K * |1 - e| * (1 + e) := mul_le_mul (by linarith) (by linarith) he (by positivity)
    nlinarith
  have hKu1 : u ≤ K * u := le_mul_of_one_le_left hu.le hK1
  have e2 := (e1.rn (by linarith)).mono (b := 8.1 * (K * u)) (by linarith)
  have ne3 : rn (1 - rn (e' * e')) ≠ 0 := by
    intro h0
    unfold Within at e2
    rw [h0, zero_sub, abs_neg] at e2
    have := abs_pos.2 hne2
    nlinarith
  refine ⟨hne2, ne3, ?_⟩
  have e3 : Within (8.3 * (K * u)) (1 - e * e)⁻¹ (rn (1 - rn (e' * e')))⁻¹ := by
    generalize rn (1 - rn (e' * e')) = y at *
    generalize 1 - e * e = x at *
    unfold Within at *
    rw [show y⁻¹ - x⁻¹ = -((y - x) * (x⁻¹ * y⁻¹)) by field_simp; ring, abs_neg, abs_mul, abs_mul]
    have hx := abs_pos.2 hne2
    have hy : 0.99 * |x| ≤ |y| := by
      have t := abs_sub_abs_le_abs_sub x y
      rw [abs_sub_comm] at t
      nlinarith
    have hxi : 0 < |x⁻¹| := abs_pos.2 (inv_ne_zero hne2)
    have hyi : |x| * |y⁻¹| ≤ 1.0102 := by
      rw [abs_inv, ← div_eq_mul_inv, div_le_iff₀ (abs_pos.2 ne3)]
      linarith
    calc |y - x| * (|x⁻¹| * |y⁻¹|) ≤ 8.1 * (K * u) * |x| * (|x⁻¹| * |y⁻¹|) := mul_le_mul_of_nonneg_right e2 (by positivity)
      _ = 8.1 * (K * u) * |x⁻¹| * (|x| * |y⁻¹|) := by ring
      _ ≤ 8.1 * (K * u) * |x⁻¹| * 1.0102 := mul_le_mul_of_nonneg_left hyi (by positivity)
      _ ≤ _ := by nlinarith [mul_pos (show 0 < K * u by linarith) hxi]
  have e4 : Within (8.3 * (K * u)) (p / (1 - e * e)) (p / rn (1 - rn (e' * e'))) := by
    unfold Within at *
    rw [div_eq_mul_inv, div_eq_mul_inv, ← mul_sub, abs_mul, abs_mul]
    have := mul_le_mul_of_nonneg_left e3 (abs_nonneg p)
    linarith
  exact (e4.rn (by linarith)).mono (by linarith)

/-- The argument of the periapsis and the true anomaly from the longitudes. -/
theorem angles_err {A : LibmT} (hA : A.Double) (b : Bool) {z O L : ℝ} (hz0 : 0 ≤ z) (hz : z ≤ 6.2833) (hO0 : 0 ≤ O) (hO : O ≤ 6.2833) {om : ℝ}
    (hom : om = wrapBothD A (A.rd (z - sgnI b * O))) :
    (∃ k : ℤ, |om + sgnI b * O - z - 2 * π * k| ≤ 32 * u) ∧ |om| ≤ 6.4 ∧
      |A.rd (A.rd (L - sgnI b * O) - om) + om + sgnI b * O - L| ≤ 2.1 * u * |L| + 20 * u := by
  have hu := u_pos
  have hus := u_small
  rw [hA.libm.arith.rd] at hom ⊢
  have hI : |sgnI b * O| ≤ 6.2833 := by rw [sgnI_abs, abs_of_nonneg hO0]; exact hO
  generalize sgnI b * O = P at *
  have hP := abs_le.1 hI
  have h1 : |z - P| ≤ 12.5666 := abs_le.2 ⟨by linarith, by linarith⟩
  have e1 := rn_err' (z - P)
  have e2 := mul_le_mul_of_nonneg_left h1 hu.le
  have h2 : |rn (z - P)| ≤ 12.6 := by
    have t := abs_add_le (rn (z - P) - (z - P)) (z - P)
    rw [sub_add_cancel] at t
    linarith
  obtain ⟨⟨k, hk⟩, hb⟩ := wrapBothD_err hA h2
  rw [← hom] at hk hb
  refine ⟨⟨k, ?_⟩, hb, ?_⟩
  · have t := abs_add_le (om - rn (z - P) - 2 * π * k) (rn (z - P) - (z - P))
    rw [show om - rn (z - P) - 2 * π * k + (rn (z - P) - (z - P)) = om + P - z - 2 * π * k by ring] at t
    linarith
  · have hL := abs_nonneg L
    have f1 := rn_err' (L - P)
    have f2 := abs_sub L P
    have f3 := mul_le_mul_of_nonneg_left (f2.trans (add_le_add_right hI |L|)) hu.le
    have f4 := rn_err' (rn (L - P) - om)
    have f5 := abs_sub (rn (L - P)) om
    have f6 := abs_add_le (rn (L - P) - (L - P)) (L - P)
    rw [sub_add_cancel] at f6
    have f7 : |rn (L - P) - om| ≤ 1.01 * |L| + 12.8 := by nlinarith
    have f8 := mul_le_mul_of_nonneg_left f7 hu.le
    have t := abs_add_le (rn (rn (L - P) - om) - (rn (L - P) - om)) (rn (L - P) - (L - P))
    rw [show rn (rn (L - P) - om) - (rn (L - P) - om) + (rn (L - P) - (L - P)) = rn (rn (L - P) - om) + om + P - L by ring] at t
    nlinarith [mul_nonneg hu.le hL]

/-- C100, `eq2par` in double precision, for elements that are neither circular nor equatorial: no division by zero, and each of the six numbers is near
the mathematical one. The semi-major axis loses accuracy near the parabola only (`K` is `(1 + e) / |1 - e|`), the inclination and the angles never do:
the node is right up to whole turns and 79 units of roundoff, the longitude of the periapsis up to 111 units of roundoff, and the true longitude is kept up to
the rounding of `L` itself. -/
theorem C100_eq2par {A : LibmT} (hA : A.Double) (hat : ∀ y x, |A.atan2 y x - atan2 y x| ≤ 4 * u * |atan2 y x|) (b : Bool) (q : Meq) {K e t Ω ζ : ℝ}
    (e0 : 0 < e) (t0 : 0 < t) (hf : q.f = e * cos ζ) (hg : q.g = e * sin ζ) (hh : q.h = t * cos Ω) (hk : q.k = t * sin Ω)
    (hK : 1 + e ≤ K * |1 - e|) (hK' : K ≤ 2 ^ 40) :
    ∃ r, eq2parD A q b = some r ∧ |r.e - e| ≤ 4 * u * e ∧ |r.a - q.p / (1 - e ^ 2)| ≤ 12 * K * u * |q.p / (1 - e ^ 2)| ∧
      |r.i - (if b then π - 2 * arctan t else 2 * arctan t)| ≤ 42 * u ∧
      (∃ n : ℤ, |r.Om - Ω - 2 * π * n| ≤ 79 * u) ∧ 0 ≤ r.Om ∧ r.Om ≤ 6.2833 ∧
      (∃ n : ℤ, |r.om + (if b then -1 else 1) * r.Om - ζ - 2 * π * n| ≤ 111 * u) ∧ |r.om| ≤ 6.4 ∧
      |r.f + r.om + (if b then -1 else 1) * r.Om - q.L| ≤ 2.1 * u * |q.L| + 20 * u := by
  have hu := u_pos
  have pol : ∀ {m x y w : ℝ}, 0 < m → x = m * cos w → y = m * sin w → √(x * x + y * y) = m := by
    intro m x y w hm hx hy
    have := sin_sq_add_cos_sq w
    rw [hx, hy, show m * cos w * (m * cos w) + m * sin w * (m * sin w) = m ^ 2 * (sin w ^ 2 + cos w ^ 2) by ring, this, mul_one, sqrt_sq hm.le]
  have re := pol e0 hf hg
  have rt := pol t0 hh hk
  have pe : 0 < q.f * q.f + q.g * q.g := sqrt_pos.1 (by rw [re]; exact e0)
  have pt : 0 < q.h * q.h + q.k * q.k := sqrt_pos.1 (by rw [rt]; exact t0)
  obtain ⟨s1, c1, z1, z2, ⟨n1, z3⟩, z4, z5⟩ := longitude_err hA hat pe (by rw [re]; exact hf) (by rw [re]; exact hg)
  obtain ⟨s2, c2, o1, o2, ⟨n2, o3⟩, o4, o5⟩ := longitude_err hA hat pt (by rw [rt]; exact hh) (by rw [rt]; exact hk)
  have ne := hyp_near hA q.f q.g
  have nt := hyp_near hA q.h q.k
  rw [re] at ne
  rw [rt] at nt
  unfold eq2parD
  simp only [z1, z2, o1, o2, Option.bind_eq_bind, Option.bind_some]
  generalize wrapNegD A.toLibm (A.atan2 s1 c1) = z at *
  generalize wrapNegD A.toLibm (A.atan2 s2 c2) = O at *
  have hi := inc_err hA b nt
  obtain ⟨om, hom⟩ : ∃ om, om = wrapBothD A (A.rd (z - sgnI b * O)) := ⟨_, rfl⟩
  obtain ⟨⟨n3, g1⟩, g2, g3⟩ := angles_err (L := q.L) hA b z4 z5 o4 o5 hom
  rw [← hom]
  generalize hypD A q.f q.g = e' at *
  generalize hypD A q.h q.k = t' at *
  obtain ⟨_, m2, m3⟩ := sma_err (p := q.p) ne hK hK'
  have dv : A.div? q.p (A.rd (1 - A.rd (e' * e'))) = some (rn (q.p / rn (1 - rn (e' * e')))) := by
    rw [hA.libm.arith.rd]
    unfold Arith.div? Kep3.div?
    rw [if_neg m2, hA.libm.arith.rd]
    rfl
  rw [dv]
  refine ⟨_, rfl, ?_, ?_, ?_, ⟨n2, o3⟩, o4, o5, ⟨n3 + n1, ?_⟩, g2, g3⟩
  · have := ne.abs_le
    nlinarith [mul_pos hu e0]
  · rw [sq]; exact m3
  · have : (if b then π - 2 * arctan t else 2 * arctan t) = π / 2 * (1 - sgnI b) + 2 * sgnI b * arctan t := by
      unfold sgnI
      cases b <;> simp <;> ring
    rw [this]; exact hi
  · have t1 := abs_add_le (om + sgnI b * O - z - 2 * π * n3) (z - ζ - 2 * π * n1)
    rw [show om + sgnI b * O - z - 2 * π * n3 + (z - ζ - 2 * π * n1) = om + sgnI b * O - ζ - 2 * π * ((n3 + n1 : ℤ) : ℝ) by push_cast; ring] at t1
    exact t1.trans (by linarith)

/-! ## From classical to equinoctial elements -/

theorem rep_half {x : ℝ} (h : Rep x) : Rep (x / 2) := by
  obtain ⟨m, f, h1, h2⟩ := h
  exact ⟨m, f - 1, h1, by rw [h2, zpow_sub₀ two_ne_zero, zpow_one]; ring⟩

/-- A rounded product of two perturbed factors, one of them a sine or a cosine. -/
theorem trig_prod_err {x x' c c' α β : ℝ} (hx : 0 ≤ x) (h1 : |x' - x| ≤ α * u * x) (h2 : |c' - c| ≤ β) (hc : |c| ≤ 1) (α0 : 0 ≤ α) (hα : α ≤ 10) (hβ : β ≤ 1 / 100) :
    |rn (x' * c') - x * c| ≤ (β + (1.05 * α + 1.05) * u) * x := by
  have hu := u_pos
  have hus := u_small
  have β0 := (abs_nonneg _).trans h2
  have hc' : |c'| ≤ 1.01 := by
    have t := abs_add_le (c' - c) c
    rw [sub_add_cancel] at t
    linarith
  have hx' : |x'| ≤ 1.001 * x := by
    have t := abs_add_le (x' - x) x
    rw [sub_add_cancel, abs_of_nonneg hx] at t
    have := mul_le_mul_of_nonneg_right (show α * u ≤ 0.001 by nlinarith) hx
    linarith
  have e1 := rn_err' (x' * c')
  rw [abs_mul] at e1
  have e2 : |x'| * |c'| ≤ 1.001 * x * 1.01 := mul_le_mul hx' hc' (abs_nonneg _) (by positivity)
  have e3 : |(x' - x) * c'| ≤ α * u * x * 1.01 := by
    rw [abs_mul]; exact mul_le_mul h1 hc' (abs_nonneg _) (by positivity)
  have e4 : |x * (c' - c)| ≤ x * β := by
    rw [abs_mul, abs_of_nonneg hx]; exact mul_le_mul_of_nonneg_left h2 hx
  have t := abs_add_three (rn (x' * c') - x' * c') ((x' - x) * c') (x * (c' - c))
  rw [show rn (x' * c') - x' * c' + (x' - x) * c' + x * (c' - c) = rn (x' * c') - x * c by ring] at t
  have e5 := mul_le_mul_of_nonneg_left e2 hu.le
  have : 0 ≤ u * x := by positivity
  have : 0 ≤ α * (u * x) := by positivity
  nlinarith

/-- C100, `par2eq` in double precision, for inclinations strictly between 0 and `π`: no division by zero, and the six numbers are near the mathematical ones.
The errors of the eccentricity vector grow with the size of the angles that are handed over, because their sum is rounded before the sine and the cosine; those of
`h`, `k` are relative even next to `π`, where the tangent is large. -/
theorem C100_par2eq {A : LibmT} (hA : A.Double) (b : Bool) (q : Par) {K : ℝ} (e0 : 0 ≤ q.e) (hK : 1 + q.e ≤ K * |1 - q.e|) (hK' : K ≤ 2 ^ 40) (hi : Rep q.i) (i0 : 0 < q.i) (i1 : q.i < π)
    (hS : |q.om| + |q.Om| ≤ 2 ^ 40) {I T : ℝ} (hI : I = if b then -1 else 1) (hT : T = if b then 1 / tan (q.i / 2) else tan (q.i / 2)) :
    ∃ r, par2eqD A q b = some r ∧ |r.p - q.a * (1 - q.e ^ 2)| ≤ 3.2 * K * u * |q.a * (1 - q.e ^ 2)| ∧
      |r.f - q.e * cos (q.om + I * q.Om)| ≤ (|q.om| + |q.Om| + 4) * u * q.e ∧ |r.g - q.e * sin (q.om + I * q.Om)| ≤ (|q.om| + |q.Om| + 6) * u * q.e ∧
      |r.h - T * cos q.Om| ≤ 9 * u * T ∧ |r.k - T * sin q.Om| ≤ 11 * u * T ∧
      |r.L - (q.f + q.om + I * q.Om)| ≤ 2.01 * u * (|q.f| + |q.om| + |q.Om|) := by
  have hu := u_pos
  have hus := u_small
  have hsg : I = sgnI b := hI
  have t0 : 0 < tan (q.i / 2) := tan_pos_of_pos_of_lt_pi_div_two (by linarith) (by linarith)
  have ht := hA.tan (q.i / 2)
  rw [abs_of_pos t0] at ht
  have run : ∃ t', (if b then A.div? 1 (A.tan (A.rd (q.i / 2))) else some (A.tan (A.rd (q.i / 2)))) = some t' ∧ 0 < T ∧ |t' - T| ≤ 5.2 * u * T := by
    rw [hA.libm.arith.rd, rn_rep (rep_half hi)]
    generalize A.tan (q.i / 2) = y at *
    generalize tan (q.i / 2) = x at *
    cases b
    · rw [hT]
      exact ⟨y, rfl, t0, by simp only [Bool.false_eq_true, if_false]; nlinarith [mul_pos hu t0]⟩
    · have y0 : 0 < y := by nlinarith [(abs_le.1 ht).1]
      have w : Within (4 * u) x y := by unfold Within; rw [abs_of_pos t0]; exact ht
      rw [hT]
      refine ⟨rn (1 / y), ?_, one_div_pos.2 t0, ?_⟩
      · unfold Arith.div? Kep3.div?
        rw [if_pos rfl, if_neg y0.ne', hA.libm.arith.rd]
        rfl
      · have m := ht
        have e1 : |1 / y - 1 / x| ≤ 4.1 * u * (1 / x) := by
          rw [show 1 / y - 1 / x = -((y - x) * (1 / x) * (1 / y)) by field_simp; ring, abs_neg, abs_mul, abs_mul, abs_of_pos (one_div_pos.2 t0), abs_of_pos (one_div_pos.2 y0)]
          have e2 : x * (1 / y) ≤ 1.02 := by
            rw [mul_one_div, div_le_iff₀ y0]
            nlinarith [(abs_le.1 ht).1]
          calc |y - x| * (1 / x) * (1 / y) ≤ 4 * u * x * (1 / x) * (1 / y) := by
                have := one_div_pos.2 t0
                have := one_div_pos.2 y0
                gcongr
            _ = 4 * u * (1 / x) * (x * (1 / y)) := by ring
            _ ≤ 4 * u * (1 / x) * 1.02 := mul_le_mul_of_nonneg_left e2 (by have := one_div_pos.2 t0; positivity)
            _ ≤ _ := by have := mul_pos hu (one_div_pos.2 t0); nlinarith
        have e3 := rn_err' (1 / y)
        rw [abs_of_pos (one_div_pos.2 y0)] at e3
        have e4 := (abs_le.1 e1).2
        have x1 := mul_pos hu (one_div_pos.2 t0)
        have t := abs_add_le (rn (1 / y) - 1 / y) (1 / y - 1 / x)
        rw [sub_add_sub_cancel] at t
        simp only [if_true]
        nlinarith
  obtain ⟨t', r1, T0, r2⟩ := run
  have key : par2eqD A q b = (if b then A.div? 1 (A.tan (A.rd (q.i / 2))) else some (A.tan (A.rd (q.i / 2)))).bind fun t =>
      some ⟨A.rd (q.a * A.rd (1 - A.rd (q.e * q.e))), A.rd (q.e * A.cos (A.rd (q.om + sgnI b * q.Om))), A.rd (q.e * A.sin (A.rd (q.om + sgnI b * q.Om))),
        A.rd (t * A.cos q.Om), A.rd (t * A.sin q.Om), A.rd (A.rd (q.f + q.om) + sgnI b * q.Om)⟩ := by
    unfold par2eqD; cases b <;> rfl
  rw [key, r1, Option.bind_some, ← hsg]
  refine ⟨_, rfl, ?_⟩
  simp only [hA.libm.arith.rd]
  have hIO : |I * q.Om| = |q.Om| := by rw [hsg, sgnI_abs]
  have harg : |rn (q.om + I * q.Om) - (q.om + I * q.Om)| ≤ u * (|q.om| + |q.Om|) := by
    have t := abs_add_le q.om (I * q.Om)
    rw [hIO] at t
    exact (rn_err' _).trans (mul_le_mul_of_nonneg_left t hu.le)
  have hSu : u * (|q.om| + |q.Om|) ≤ 1 / 8000 := by
    have := mul_le_mul_of_nonneg_left hS hu.le
    refine this.trans ?_
    unfold u; norm_num
  obtain ⟨S, hSd⟩ : ∃ S, S = |q.om| + |q.Om| := ⟨_, rfl⟩
  rw [← hSd] at harg hSu ⊢
  generalize rn (q.om + I * q.Om) = w' at *
  have cl := cos_err hA.libm
  have sl := sin_err hA.libm
  have fc : |A.cos w' - cos (q.om + I * q.Om)| ≤ 2 * u + u * S := by
    have t := abs_add_le (A.cos w' - cos w') (cos w' - cos (q.om + I * q.Om))
    rw [sub_add_sub_cancel] at t
    have t2 := (abs_cos_sub_cos_le w' (q.om + I * q.Om))
    linarith [cl w']
  have fs : |A.sin w' - sin (q.om + I * q.Om)| ≤ 4 * u + u * S := by
    have t := abs_add_le (A.sin w' - sin w') (sin w' - sin (q.om + I * q.Om))
    rw [sub_add_sub_cancel] at t
    have t2 := (abs_sin_sub_sin_le w' (q.om + I * q.Om))
    linarith [sl w']
  have z0 : |q.e - q.e| ≤ 0 * u * q.e := by simp
  have ue := mul_nonneg hu.le e0
  have uT := mul_pos hu T0
  refine ⟨?_, ?_, ?_, ?_, ?_, ?_⟩
  · rw [sq]; exact latus_err e0 hK hK'
  · refine (trig_prod_err e0 z0 fc (abs_cos_le_one _) le_rfl (by norm_num) (by linarith)).trans ?_
    nlinarith
  · refine (trig_prod_err e0 z0 fs (abs_sin_le_one _) le_rfl (by norm_num) (by linarith)).trans ?_
    nlinarith
  · refine (trig_prod_err T0.le r2 (cl q.Om) (abs_cos_le_one _) (by norm_num) (by norm_num) (by linarith)).trans ?_
    nlinarith
  · refine (trig_prod_err T0.le r2 (sl q.Om) (abs_sin_le_one _) (by norm_num) (by norm_num) (by linarith)).trans ?_
    nlinarith
  · have e1 := rn_err' (q.f + q.om)
    have e2 := rn_err' (rn (q.f + q.om) + I * q.Om)
    have e3 := abs_add_le q.f q.om
    have e4 := abs_add_le (rn (q.f + q.om)) (I * q.Om)
    have e5 := abs_add_le (rn (q.f + q.om) - (q.f + q.om)) (q.f + q.om)
    rw [sub_add_cancel] at e5
    rw [hIO] at e4
    have t := abs_add_le (rn (rn (q.f + q.om) + I * q.Om) - (rn (q.f + q.om) + I * q.Om)) (rn (q.f + q.om) - (q.f + q.om))
    rw [show rn (rn (q.f + q.om) + I * q.Om) - (rn (q.f + q.om) + I * q.Om) + (rn (q.f + q.om) - (q.f + q.om)) = rn (rn (q.f + q.om) + I * q.Om) - (q.f + q.om + I * q.Om) by ring] at t
    have p1 := mul_le_mul_of_nonneg_left e3 hu.le
    have a1 := abs_nonneg q.f
    have a2 := abs_nonneg q.om
    have a3 := abs_nonneg q.Om
    have p3 : |rn (q.f + q.om)| ≤ 1.005 * (|q.f| + |q.om|) := by nlinarith
    have p2 := mul_le_mul_of_nonneg_left (e4.trans (add_le_add_left p3 _)) hu.le
    linarith [mul_nonneg hu.le a1, mul_nonneg hu.le a2, mul_nonneg hu.le a3]

/-- The hypotheses are met by an orbit of eccentricity 1/2 and inclination 2, with node at 1 and periapsis at 3, both ways and for both signs. -/
example (b : Bool) : ∃ r s, par2eqD .rounded ⟨7, 1 / 2, 2, 1, 3, 5⟩ b = some r ∧ |r.L - (8 + (if b then -1 else 1) * 1)| ≤ 1 / 10 ^ 12 ∧
    eq2parD .rounded ⟨5, 1 / 2 * cos 4, 1 / 2 * sin 4, 3 * cos 1, 3 * sin 1, 9⟩ b = some s ∧ |s.a - 20 / 3| ≤ 1 / 10 ^ 12 ∧ |s.e - 1 / 2| ≤ 1 / 10 ^ 12 := by
  have hat : ∀ y x, |LibmT.rounded.atan2 y x - atan2 y x| ≤ 4 * u * |atan2 y x| := fun y x => rn_err4 _
  have hu := u_pos
  have hus := u_small
  have r2 : Rep (2 : ℝ) := ⟨1, 1, by norm_num, by norm_num⟩
  obtain ⟨r, h1, -, -, -, -, -, h2⟩ := C100_par2eq LibmT.rounded_double b ⟨7, 1 / 2, 2, 1, 3, 5⟩ (K := 3) (by norm_num) (by norm_num) (by norm_num) r2 (by norm_num)
    (by linarith [pi_gt_three]) (by norm_num) rfl rfl
  obtain ⟨s, h3, h4, h5, -⟩ := C100_eq2par LibmT.rounded_double hat b ⟨5, 1 / 2 * cos 4, 1 / 2 * sin 4, 3 * cos 1, 3 * sin 1, 9⟩ (K := 3) (e := 1 / 2) (t := 3)
    (by norm_num) (by norm_num) rfl rfl rfl rfl (by norm_num) (by norm_num)
  refine ⟨r, s, h1, ?_, h3, ?_, ?_⟩
  · norm_num at h2 ⊢
    linarith
  · norm_num at h5 ⊢
    linarith
  · linarith

end Kep3
