import Verif.Planet.Keplerian
import Verif.Lagr.Props97

/-!
# C101: the period of a planet in double precision
-/

namespace Kep3
open Real Fl V3

/-- `period_from_energy`, src/planet.cpp:28-40, with every operation rounded; `none` stands for results that are not numbers; `pi` is a double,
include/kep3/core_astro/constants.hpp:25. Simplified: exponents are unbounded, no fused operations. -/
noncomputable def periodD (A : Libm) (x : RV ℝ) (mu : ℝ) : Option ℝ := do
  let R := A.rd √(A.dot x.r x.r)
  let v2 := A.dot x.v x.v
  let q ← A.div? mu R
  let en := A.rd (A.rd (v2 / 2) - q)
  if 0 < en then none
  else do
    let a ← A.div? (A.rd (-mu / 2)) en
    let s ← A.div? (A.rd (A.rd (a * a) * a)) mu
    let s ← A.sqrt? s
    return A.rd (A.rd (A.rd π * 2) * s)

/-- Without rounding this is `periodFromEnergy`. -/
theorem periodD_exact (x : RV ℝ) (mu : ℝ) : periodD .exact x mu = periodFromEnergy x mu := by
  unfold periodD periodFromEnergy Arith.div? Arith.sqrt? Arith.dot Libm.exact Arith.exact
  simp only [id, Option.map_id_fun]

/-- The computed energy. -/
theorem energyD_err {A : Libm} (hA : A.Double) {x : RV ℝ} {mu Q : ℝ} (hmu : 0 < mu) (hr : x.r ≠ 0)
    (hQ : dot x.v x.v / 2 + mu / norm x.r ≤ Q * |dot x.v x.v / 2 - mu / norm x.r|) :
    ∃ q, A.div? mu (A.rd √(A.dot x.r x.r)) = some q ∧ Within (6.2 * (Q * u)) (dot x.v x.v / 2 - mu / norm x.r) (A.rd (A.rd (A.dot x.v x.v / 2) - q)) := by
  have hu := u_pos
  have hus := u_small
  have hR := norm_pos hr
  have nR := dist_near hA x.r
  have R0 := nR.pos hR
  have nP := ((Near.exact hmu.le).mul (nR.inv hR (by norm_num)) (by norm_num)).rn (by norm_num)
  have nV := (((near_dot hA.arith x.v).mul (Near.exact (show (0 : ℝ) ≤ 1 / 2 by norm_num)) (by norm_num)).rn (by norm_num))
  rw [dbl_div hA R0.ne']
  refine ⟨_, rfl, ?_⟩
  rw [hA.arith.rd] at *
  rw [mul_one_div, mul_one_div] at nP
  rw [mul_one_div, mul_one_div] at nV
  have eV := (nV.mono (k := 4.06) (by norm_num)).abs_le
  have eP := (nP.mono (k := 5.08) (by norm_num)).abs_le
  have P0 : 0 < mu / norm x.r := by positivity
  have V0 : 0 ≤ dot x.v x.v / 2 := by have := dot_self_nonneg x.v; positivity
  generalize rn (A.dot x.v x.v / 2) = V' at *
  generalize rn (mu / rn √(A.dot x.r x.r)) = P' at *
  generalize dot x.v x.v / 2 = V at *
  generalize mu / norm x.r = P at *
  unfold Within
  have e1 : |V' - P' - (V - P)| ≤ 5.08 * u * (V + P) := by
    have t := abs_sub (V' - V) (P' - P)
    rw [show V' - V - (P' - P) = V' - P' - (V - P) by ring] at t
    nlinarith [mul_nonneg hu.le V0]
  have e2 : |V' - P'| ≤ 1.01 * (V + P) := by
    have t := abs_add_le (V' - P' - (V - P)) (V - P)
    rw [sub_add_cancel] at t
    have t2 := abs_sub V P
    rw [abs_of_nonneg V0, abs_of_pos P0] at t2
    nlinarith
  have e3 := rn_err' (V' - P')
  have e4 := mul_le_mul_of_nonneg_left e2 hu.le
  have t := abs_add_le (rn (V' - P') - (V' - P')) (V' - P' - (V - P))
  rw [sub_add_sub_cancel] at t
  have e5 := mul_le_mul_of_nonneg_left hQ hu.le
  have e6 : 0 ≤ u * (V + P) := by positivity
  linarith

/-- C101: for a state whose energy is not almost zero (`Q` is the ratio of the sum of kinetic and potential energy to the size of their difference), the period of a planet is a
number if and only if its orbit is an ellipse, and that number is `2 π √(a³ / mu)` up to a relative error of `34 Q` units of roundoff. -/
theorem C101_period {A : Libm} (hA : A.Double) {x : RV ℝ} {mu Q : ℝ} (hmu : 0 < mu) (hr : x.r ≠ 0)
    (hQ : norm x.v ^ 2 / 2 + mu / norm x.r ≤ Q * |energy x mu|) (hQ' : Q ≤ 2 ^ 40) :
    (0 < energy x mu → periodD A x mu = none) ∧
    (energy x mu < 0 → ∃ T, periodD A x mu = some T ∧
      |T - 2 * π * √((-mu / (2 * energy x mu)) ^ 3 / mu)| ≤ 34 * Q * (1 / 2 ^ 53) * (2 * π * √((-mu / (2 * energy x mu)) ^ 3 / mu))) := by
  have hu := u_pos
  have hus := u_small
  have hu1 : (1 : ℝ) / 2 ^ 53 = u := rfl
  rw [hu1]
  have hn2 : norm x.v ^ 2 = dot x.v x.v := sq_sqrt (dot_self_nonneg _)
  have hE : energy x mu = dot x.v x.v / 2 - mu / norm x.r := by unfold energy; rfl
  rw [hn2] at hQ
  have hR := norm_pos hr
  have V0 := dot_self_nonneg x.v
  have P0 : 0 < mu / norm x.r := by positivity
  have Q1 : 1 ≤ Q := by
    by_contra hc
    have h1 : |energy x mu| ≤ dot x.v x.v / 2 + mu / norm x.r := by rw [hE, abs_le]; constructor <;> linarith
    have h2 := abs_nonneg (energy x mu)
    have h3 := mul_le_mul_of_nonneg_right (not_le.1 hc).le h2
    have h4 : |energy x mu| = dot x.v x.v / 2 + mu / norm x.r := le_antisymm h1 (by linarith)
    have h5 : 0 < |energy x mu| := by rw [h4]; linarith
    have := mul_lt_of_lt_one_left h5 (not_le.1 hc)
    linarith
  have hKu : Q * u ≤ 1 / 8000 := by unfold u; rw [mul_one_div, div_le_div_iff₀ (by positivity) (by norm_num)]; norm_num at hQ' ⊢; linarith
  have hKu1 : u ≤ Q * u := le_mul_of_one_le_left hu.le Q1
  rw [hE] at hQ
  obtain ⟨q, h1, w⟩ := energyD_err hA hmu hr hQ
  rw [← hE] at w
  unfold periodD
  simp only [h1, Option.bind_eq_bind, Option.bind_some]
  generalize A.rd (A.rd (A.dot x.v x.v / 2) - q) = g at *
  generalize energy x mu = E at *
  constructor
  · intro hpos
    rw [if_pos (w.pos (by linarith) hpos)]
  · intro hneg
    have w' : Within (6.2 * (Q * u)) (-E) (-g) := by
      unfold Within at *
      rwa [show -g - -E = -(g - E) by ring, abs_neg, abs_neg]
    have hE0 : 0 < -E := by linarith
    have g0 := w'.pos (by linarith) hE0
    rw [if_neg (by linarith), dbl_div hA (by linarith : g ≠ 0), Option.bind_some]
    have w2 : Within u (mu / 2) (-A.rd (-mu / 2)) := by
      rw [hA.arith.rd]
      have := rn_err' (-mu / 2)
      unfold Within
      rw [show -mu / 2 = -(mu / 2) by ring] at this ⊢
      rw [abs_neg] at this
      rw [show -rn (-(mu / 2)) - mu / 2 = -(rn (-(mu / 2)) - -(mu / 2)) by ring, abs_neg]
      exact this
    have w3 := (w2.mul (w'.inv (by linarith) (by linarith) hE0) (by linarith)).rn (by linarith)
    have e3 : -A.rd (-mu / 2) * (-g)⁻¹ = A.rd (-mu / 2) / g := by rw [inv_neg, neg_mul_neg]; exact (div_eq_mul_inv _ _).symm
    have e4 : mu / 2 * (-E)⁻¹ = -mu / (2 * E) := by field_simp
    rw [e3, e4] at w3
    have wa := w3.mono (show _ ≤ 8.5 * (Q * u) by linarith)
    have a0 : 0 < -mu / (2 * E) := div_pos_of_neg_of_neg (by linarith) (by linarith)
    generalize rn (A.rd (-mu / 2) / g) = a' at *
    generalize -mu / (2 * E) = a at *
    have w4 := (wa.mul wa (by linarith)).rn (by linarith)
    have w5 := ((w4.mul wa (by linarith)).rn (by linarith)).mono (show _ ≤ 27.8 * (Q * u) by linarith)
    have wm : Within 0 (1 / mu) (1 / mu) := by unfold Within; simp
    have w6 := ((w5.mul wm (by linarith)).rn (by linarith)).mono (show _ ≤ 28.9 * (Q * u) by linarith)
    rw [mul_one_div, mul_one_div] at w6
    have s0 : 0 < a * a * a / mu := by positivity
    have s1 := w6.pos (by linarith) s0
    have w7 := ((w6.sqrt (by linarith) (by linarith) s0).rn (by linarith)).mono (show _ ≤ 30 * (Q * u) by linarith)
    have d2 : A.div? (A.rd (A.rd (a' * a') * a')) mu = some (rn (rn (rn (a' * a') * a') / mu)) := by rw [dbl_div hA hmu.ne', hA.arith.rd]
    rw [d2, Option.bind_some]
    have d3 : A.sqrt? (rn (rn (rn (a' * a') * a') / mu)) = some (rn √(rn (rn (rn (a' * a') * a') / mu))) := by
      unfold Arith.sqrt? Kep3.sqrt?
      rw [if_neg (not_lt.2 s1.le), hA.arith.rd]
      rfl
    rw [d3, Option.bind_some]
    refine ⟨_, rfl, ?_⟩
    rw [hA.arith.rd]
    have w2' : Within 0 (2 : ℝ) 2 := by unfold Within; simp
    have wp := (((show Within u π (rn π) from rn_err' _).mul w2' (by linarith)).rn (by linarith))
    have w8 := ((wp.mul w7 (by linarith)).rn (by linarith)).mono (show _ ≤ 34 * Q * u by linarith)
    have T0 : 0 ≤ 2 * π * √(a ^ 3 / mu) := by have := pi_pos; positivity
    rw [show π * 2 * √(a * a * a / mu) = 2 * π * √(a ^ 3 / mu) by rw [show a * a * a = a ^ 3 by ring]; ring] at w8
    unfold Within at w8
    rwa [abs_of_nonneg T0] at w8

/-- `m_period` of an ellipse, src/udpla/keplerian.cpp:45 and 89-90, with every operation rounded. -/
noncomputable def Keplerian.ellipsePeriodD (A : Libm) (a mu : ℝ) : Option ℝ := do
  let q ← A.div? (A.rd (A.rd (a * a) * a)) mu
  let s ← A.sqrt? q
  return A.rd (A.rd (A.rd π * 2) * s)

/-- Without rounding this is `Keplerian.ellipsePeriod`. -/
theorem ellipsePeriodD_exact (a mu : ℝ) : Keplerian.ellipsePeriodD .exact a mu = Keplerian.ellipsePeriod a mu := by
  unfold Keplerian.ellipsePeriodD Keplerian.ellipsePeriod Arith.div? Arith.sqrt? Libm.exact Arith.exact
  simp only [id, Option.map_id_fun]

/-- C101: a Keplerian planet built from elements has a period accurate to 10 units of roundoff, whatever its eccentricity. -/
theorem C101_keplerian {A : Libm} (hA : A.Double) {a mu : ℝ} (ha : 0 < a) (hmu : 0 < mu) :
    ∃ T, Keplerian.ellipsePeriodD A a mu = some T ∧ |T - 2 * π * √(a ^ 3 / mu)| ≤ 10 * (1 / 2 ^ 53) * (2 * π * √(a ^ 3 / mu)) := by
  have hu := u_pos
  have hus := u_small
  have hu1 : (1 : ℝ) / 2 ^ 53 = u := rfl
  rw [hu1]
  have wa : Within 0 a a := by unfold Within; simp
  have w4 := (wa.mul wa (by norm_num)).rn (by norm_num)
  have w5 := ((w4.mul wa (by linarith)).rn (by linarith)).mono (show _ ≤ 2.03 * u by linarith)
  have wm : Within 0 (1 / mu) (1 / mu) := by unfold Within; simp
  have w6 := ((w5.mul wm (by linarith)).rn (by linarith)).mono (show _ ≤ 3.05 * u by linarith)
  rw [mul_one_div, mul_one_div] at w6
  have s0 : 0 < a * a * a / mu := by positivity
  have s1 := w6.pos (by linarith) s0
  have w7 := ((w6.sqrt (by linarith) (by linarith) s0).rn (by linarith)).mono (show _ ≤ 4.1 * u by linarith)
  have d2 : A.div? (A.rd (A.rd (a * a) * a)) mu = some (rn (rn (rn (a * a) * a) / mu)) := by rw [dbl_div hA hmu.ne', hA.arith.rd]
  have d3 : A.sqrt? (rn (rn (rn (a * a) * a) / mu)) = some (rn √(rn (rn (rn (a * a) * a) / mu))) := by
    unfold Arith.sqrt? Kep3.sqrt?
    rw [if_neg (not_lt.2 s1.le), hA.arith.rd]
    rfl
  unfold Keplerian.ellipsePeriodD
  simp only [d2, d3, Option.bind_eq_bind, Option.bind_some]
  refine ⟨_, rfl, ?_⟩
  rw [hA.arith.rd]
  have w2' : Within 0 (2 : ℝ) 2 := by unfold Within; simp
  have wp := (((show Within u π (rn π) from rn_err' _).mul w2' (by linarith)).rn (by linarith))
  have w8 := ((wp.mul w7 (by linarith)).rn (by linarith)).mono (show _ ≤ 10 * u by linarith)
  have T0 : 0 ≤ 2 * π * √(a ^ 3 / mu) := by have := pi_pos; positivity
  rw [show π * 2 * √(a * a * a / mu) = 2 * π * √(a ^ 3 / mu) by rw [show a * a * a = a ^ 3 by ring]; ring] at w8
  unfold Within at w8
  rwa [abs_of_nonneg T0] at w8

/-- The hypotheses are met by an ellipse and by a hyperbola: the circle of radius 1 has a period near `2 π`, and escape at twice the circular speed has none. -/
example : (∃ T, periodD .rounded ⟨⟨1, 0, 0⟩, ⟨0, 1, 0⟩⟩ 1 = some T ∧ |T - 2 * π| ≤ 1 / 10 ^ 12) ∧ periodD .rounded ⟨⟨1, 0, 0⟩, ⟨0, 2, 0⟩⟩ 1 = none := by
  have hu := u_small
  have n1 : V3.norm (⟨1, 0, 0⟩ : V3 ℝ) = 1 := by unfold V3.norm dot; norm_num
  have n2 : V3.norm (⟨0, 1, 0⟩ : V3 ℝ) = 1 := by unfold V3.norm dot; norm_num
  have n3 : V3.norm (⟨0, 2, 0⟩ : V3 ℝ) = 2 := by unfold V3.norm dot; norm_num; rw [show (4 : ℝ) = 2 ^ 2 by norm_num, sqrt_sq (by norm_num)]
  have hr : (⟨1, 0, 0⟩ : V3 ℝ) ≠ 0 := by intro h; have := congrArg V3.x h; norm_num at this
  have e1 : energy (⟨⟨1, 0, 0⟩, ⟨0, 1, 0⟩⟩ : RV ℝ) 1 = -1 / 2 := by unfold energy; rw [n1]; norm_num [dot]
  have e2 : energy (⟨⟨1, 0, 0⟩, ⟨0, 2, 0⟩⟩ : RV ℝ) 1 = 1 := by unfold energy; rw [n1]; norm_num [dot]
  constructor
  · obtain ⟨T, h1, h2⟩ := (C101_period Libm.rounded_double (x := ⟨⟨1, 0, 0⟩, ⟨0, 1, 0⟩⟩) (mu := 1) (Q := 3) one_pos hr (by rw [e1, n1, n2]; norm_num) (by norm_num)).2 (by rw [e1]; norm_num)
    refine ⟨T, h1, ?_⟩
    rw [e1] at h2
    norm_num at h2 ⊢
    have := pi_lt_d2
    linarith
  · exact (C101_period Libm.rounded_double (x := ⟨⟨1, 0, 0⟩, ⟨0, 2, 0⟩⟩) (mu := 1) (Q := 3) one_pos hr (by rw [e2, n1, n3]; norm_num) (by norm_num)).1 (by rw [e2]; norm_num)

end Kep3
