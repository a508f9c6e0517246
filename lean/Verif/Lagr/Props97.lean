import Verif.Kepler.Props93

/-!
# C97: propagation along ellipses in double precision: the orbit and Kepler's equation

How far the orbit and the difference of eccentric anomaly of `propagate_lagrangian` are from the exact ones.
-/

namespace Kep3
open Real V3 Fl

/-! ## Errors relative to a scale -/

/-- `x` is at most `X`, and `y` is `x` up to `p X`. -/
def Err (p X x y : ℝ) : Prop := |x| ≤ X ∧ |y - x| ≤ p * X

namespace Err
variable {p q X Z x y z w : ℝ}

theorem scale_nonneg (h : Err p X x y) : 0 ≤ X := (abs_nonneg _).trans h.1

theorem abs_le (h : Err p X x y) (hp : p ≤ 1 / 100) : |y| ≤ 1.01 * X := by
  have := abs_add_le (y - x) x
  rw [sub_add_cancel] at this
  have := mul_le_mul_of_nonneg_right hp h.scale_nonneg
  linarith [h.1, h.2]

theorem mono (h : Err p X x y) (hpq : p ≤ q) : Err q X x y := ⟨h.1, h.2.trans (mul_le_mul_of_nonneg_right hpq h.scale_nonneg)⟩

theorem rn (h : Err p X x y) (hp : p ≤ 1 / 100) : Err (p + 1.01 * u) X x (Fl.rn y) := by
  refine ⟨h.1, ?_⟩
  have e := (rn_err' y).trans (mul_le_mul_of_nonneg_left (h.abs_le hp) u_pos.le)
  have := abs_add_le (Fl.rn y - y) (y - x)
  rw [sub_add_sub_cancel] at this
  linarith [h.2]

theorem mul (h : Err p X x y) (g : Err q Z z w) (hp : p ≤ 1 / 100) : Err (p + 1.01 * q) (X * Z) (x * z) (y * w) := by
  have hX := h.scale_nonneg
  have hZ := g.scale_nonneg
  constructor
  · rw [abs_mul]; exact mul_le_mul h.1 g.1 (abs_nonneg _) hX
  · rw [show y * w - x * z = y * (w - z) + (y - x) * z by ring]
    refine (abs_add_le _ _).trans ?_
    rw [abs_mul, abs_mul]
    have a1 : |y| * |w - z| ≤ 1.01 * X * (q * Z) := mul_le_mul (h.abs_le hp) g.2 (abs_nonneg _) (by positivity)
    have a2 : |y - x| * |z| ≤ p * X * Z := mul_le_mul h.2 g.1 (abs_nonneg _) ((abs_nonneg _).trans h.2)
    linarith

theorem add (h : Err p X x y) (g : Err p Z z w) : Err p (X + Z) (x + z) (y + w) := by
  constructor
  · exact (abs_add_le _ _).trans (add_le_add h.1 g.1)
  · rw [show y + w - (x + z) = (y - x) + (w - z) by ring]
    refine (abs_add_le _ _).trans ?_
    have := h.2; have := g.2
    linarith

theorem neg (h : Err p X x y) : Err p X (-x) (-y) := by
  refine ⟨by rw [abs_neg]; exact h.1, ?_⟩
  rw [show -y - -x = -(y - x) by ring, abs_neg]; exact h.2

theorem sub (h : Err p X x y) (g : Err p Z z w) : Err p (X + Z) (x - z) (y - w) := by
  rw [sub_eq_add_neg, sub_eq_add_neg]; exact h.add g.neg

theorem of_within {a : ℝ} (h : Within a x y) (hX : |x| ≤ X) (ha : 0 ≤ a) : Err a X x y :=
  ⟨hX, le_trans h (mul_le_mul_of_nonneg_left hX ha)⟩

end Err

theorem Fl.Near.within {k x y : ℝ} (h : Near k x y) : Within (k * u) x y := by
  unfold Within; rw [abs_of_nonneg h.1]; exact h.abs_le

/-! ## The orbit -/

theorem dbl_div {A : Libm} (hA : A.Double) {x y : ℝ} (hy : y ≠ 0) : A.div? x y = some (rn (x / y)) := divD hA hy

/-- The computed distance. -/
theorem dist_near {A : Libm} (hA : A.Double) (v : V3 ℝ) : Near 4.04 (norm v) (A.rd √(A.dot v v)) := by
  rw [hA.arith.rd]
  exact ((near_dot hA.arith v).sqrt.rn (by norm_num)).mono (by norm_num)

/-- The sizes of an ellipse. -/
theorem ellipse_sizes {x : RV ℝ} {mu b : ℝ} (hmu : 0 < mu) (hh : angMom x ≠ 0) (hb : 0 < b) (hα : alphaOf x mu = b ^ 2) :
    0 < norm x.r ∧ norm x.r * b ^ 2 ≤ 2 ∧ dot x.v x.v = mu * (2 / norm x.r - b ^ 2) ∧ norm x.r * norm x.v / √mu ≤ 1 / b := by
  have hR := norm_pos (r_ne_of_h hh)
  have hV : dot x.v x.v = mu * (2 / norm x.r - b ^ 2) := by
    rw [← hα]; unfold alphaOf; field_simp; ring
  have h2 : norm x.r * b ^ 2 ≤ 2 := by
    have h0 := dot_self_nonneg x.v
    rw [hV] at h0
    have h1 : 0 ≤ 2 / norm x.r - b ^ 2 := by
      by_contra hc
      have := mul_neg_of_pos_of_neg hmu (not_le.1 hc)
      linarith
    rw [sub_nonneg, le_div_iff₀ hR] at h1
    linarith
  refine ⟨hR, h2, hV, ?_⟩
  have hk := sqrt_pos.2 hmu
  have e : (norm x.r * norm x.v / √mu) ^ 2 ≤ (1 / b) ^ 2 := by
    rw [div_pow, mul_pow, sq_sqrt hmu.le, show norm x.v ^ 2 = dot x.v x.v from sq_sqrt (dot_self_nonneg _), hV, div_pow, one_pow,
      div_le_div_iff₀ hmu (by positivity)]
    have : norm x.r ^ 2 * (mu * (2 / norm x.r - b ^ 2)) * b ^ 2 = mu * (norm x.r * b ^ 2 * (2 - norm x.r * b ^ 2)) := by field_simp
    rw [this]
    nlinarith [sq_nonneg (norm x.r * b ^ 2 - 1)]
  exact abs_le_of_sq_le_sq' e (by positivity) |>.2

/-- The computed semi-major axis and `r · v / √mu`. -/
theorem orbitD_err {A : Libm} (hA : A.Double) {x : RV ℝ} {mu b ε : ℝ} (hmu : 0 < mu) (hh : angMom x ≠ 0) (hb : 0 < b) (hα : alphaOf x mu = b ^ 2)
    (hε : ε * (norm x.r * b ^ 2) = 32 * u) (hs : ε ≤ 1 / 1000) :
    ∃ a' σ', orbitD A x mu = some (a', σ') ∧ Within ε (1 / b ^ 2) a' ∧ Err ε (1 / b) (sigmaOf x mu) σ' := by
  have hu := u_pos
  have hus := u_small
  obtain ⟨hR, h2, hV, hσ⟩ := ellipse_sizes hmu hh hb hα
  have hk := sqrt_pos.2 hmu
  have hb2 : 0 < b ^ 2 := by positivity
  have hρ : 0 < norm x.r * b ^ 2 := by positivity
  have hε0 : 0 < ε := by by_contra hc; have := mul_nonpos_of_nonpos_of_nonneg (not_lt.1 hc) hρ.le; linarith
  have hεu : 16 * u ≤ ε := by nlinarith
  -- the energy
  have nR := dist_near hA x.r
  have R0 := nR.pos hR
  have nP := ((Near.exact hmu.le).mul (nR.inv hR (by norm_num)) (by norm_num)).rn (by norm_num)
  have nV := (((near_dot hA.arith x.v).mul (Near.exact (show (0 : ℝ) ≤ 1 / 2 by norm_num)) (by norm_num)).rn (by norm_num))
  unfold orbitD
  dsimp only
  rw [dbl_div hA R0.ne']
  rw [hA.arith.rd] at *
  simp only [Option.bind_eq_bind, Option.bind_some]
  rw [mul_one_div, mul_one_div] at nP
  rw [mul_one_div, mul_one_div] at nV
  have eV := (nV.mono (k := 4.06) (by norm_num)).abs_le
  have eP := (nP.mono (k := 5.08) (by norm_num)).abs_le
  obtain ⟨P, hP⟩ : ∃ P, P = mu / norm x.r := ⟨_, rfl⟩
  have hVP : dot x.v x.v / 2 = P - mu * b ^ 2 / 2 := by rw [hV, hP]; ring
  have P0 : 0 < P := by rw [hP]; positivity
  have V0 : 0 ≤ dot x.v x.v / 2 := by have := dot_self_nonneg x.v; positivity
  rw [← hP] at eP
  rw [hVP] at eV V0
  generalize rn (A.dot x.v x.v / 2) = V' at *
  generalize rn (mu / rn √(A.dot x.r x.r)) = P' at *
  have hm : 0 < mu * b ^ 2 / 2 := by positivity
  have hPρ : P * (norm x.r * b ^ 2) = 2 * (mu * b ^ 2 / 2) := by rw [hP]; field_simp
  obtain ⟨m, hm'⟩ : ∃ m, m = mu * b ^ 2 / 2 := ⟨_, rfl⟩
  rw [← hm'] at eV V0 hm hPρ
  have e1 : |P' - V' - m| ≤ 9.14 * u * P := by
    have := abs_add_le (P' - P) (-(V' - (P - m)))
    rw [abs_neg, show P' - P + -(V' - (P - m)) = P' - V' - m by ring] at this
    have : 4.06 * u * (P - m) ≤ 4.06 * u * P := by nlinarith
    linarith
  have hup : u * P ≤ 1 / 10 ^ 15 * P := mul_le_mul_of_nonneg_right hus P0.le
  have e2 : |rn (V' - P') - (-m)| ≤ 10.2 * u * P := by
    have r := rn_err' (V' - P')
    have r2 : |V' - P'| ≤ 1.01 * P := by
      rw [abs_sub_comm]
      have := abs_add_le (P' - V' - m) m
      rw [sub_add_cancel, abs_of_pos hm] at this
      linarith
    have r3 := mul_le_mul_of_nonneg_left r2 hu.le
    have := abs_add_le (rn (V' - P') - (V' - P')) (-(P' - V' - m))
    rw [abs_neg, show rn (V' - P') - (V' - P') + -(P' - V' - m) = rn (V' - P') - (-m) by ring] at this
    have : 0 ≤ u * P := by positivity
    linarith
  generalize rn (V' - P') = g at *
  have hPm : u * P = ε / 16 * m := by
    have h3 : 32 * u * P = ε * (2 * m) := by rw [← hε, ← hPρ]; ring
    linarith
  have w1 : Within (0.64 * ε) m (-g) := by
    unfold Within
    rw [abs_of_pos hm, show -g - m = -(g - -m) by ring, abs_neg]
    nlinarith [mul_pos hε0 hm]
  have g0 := w1.pos (by linarith) hm
  have g1 : g ≠ 0 := by linarith
  rw [dbl_div hA g1]
  have hk' : Within u (√mu) (rn √mu) := rn_err' _
  have k0 := hk'.pos (by linarith) hk
  rw [Option.bind_some, dbl_div hA k0.ne']
  refine ⟨_, _, rfl, ?_, ?_⟩
  · have w2 : Within u (mu / 2) (-rn (-mu / 2)) := by
      have := rn_err' (-mu / 2)
      unfold Within
      rw [show -mu / 2 = -(mu / 2) by ring] at this ⊢
      rw [abs_neg] at this
      rw [show -rn (-(mu / 2)) - mu / 2 = -(rn (-(mu / 2)) - -(mu / 2)) by ring, abs_neg]
      exact this
    have w3 := (w2.mul (w1.inv (by linarith) (by linarith) hm) (by linarith)).rn (by linarith)
    have e3 : -rn (-mu / 2) * (-g)⁻¹ = rn (-mu / 2) / g := by rw [inv_neg, neg_mul_neg]; exact (div_eq_mul_inv _ _).symm
    have e4 : mu / 2 * m⁻¹ = 1 / b ^ 2 := by rw [hm']; field_simp
    rw [e3, e4] at w3
    exact w3.mono (by linarith)
  · have s1 : Err (3.03 * u) (norm x.r * norm x.v) (dot x.r x.v) (A.dot x.r x.v) := ⟨abs_dot_le _ _, dot_err hA.arith _ _⟩
    have s2 := Err.of_within (hk'.inv hu.le (by linarith) hk) (le_refl _) (by linarith)
    have s3 := (s1.mul s2 (by linarith)).rn (by linarith)
    rw [abs_of_pos (inv_pos.2 hk), ← div_eq_mul_inv, ← div_eq_mul_inv, ← div_eq_mul_inv] at s3
    have s4 := s3.mono (show _ ≤ ε by linarith)
    exact ⟨s4.1.trans hσ, s4.2.trans (mul_le_mul_of_nonneg_left hσ hε0.le)⟩

/-! ## Kepler's equation -/

/-- The computed mean anomaly difference. -/
theorem meanD_err {A : Libm} (hA : A.Double) {mu b ε a' tof tof' : ℝ} (hmu : 0 < mu) (hb : 0 < b) (hεu : 16 * u ≤ ε) (hs : ε ≤ 1 / 1000)
    (ha : Within ε (1 / b ^ 2) a') (ht : Within (2.1 * u) tof tof') :
    ∃ n n', A.div? mu (A.pow a' 3) = some n ∧ A.sqrt? n = some n' ∧ Within (4 * ε) (√mu * b ^ 3 * tof) (A.rd (n' * tof')) := by
  have hu := u_pos
  have hus := u_small
  have hb2 : 0 < 1 / b ^ 2 := by positivity
  have a0 := ha.pos (by linarith) hb2
  have w1 := ((ha.mul ha (by linarith)).mul ha (by linarith))
  have p0 : 0 < 1 / b ^ 2 * (1 / b ^ 2) * (1 / b ^ 2) := by positivity
  have hpow : Within (4 * u) (a' * a' * a') (A.pow a' 3) := by
    have := hA.pow a' 3 a0
    have e : a' ^ (3 : ℝ) = a' * a' * a' := by
      rw [show (3 : ℝ) = ((3 : ℕ) : ℝ) by norm_num, Real.rpow_natCast]; ring
    rw [e] at this
    unfold Within
    rwa [abs_of_pos (by positivity : 0 < a' * a' * a')]
  have w2 := w1.trans hpow (by linarith) (by linarith)
  have q0 := w2.pos (by linarith) p0
  have w3 : Within 0 mu mu := by unfold Within; simp
  have w4 := (w3.mul (w2.inv (by linarith) (by linarith) p0) (by norm_num)).rn (by linarith)
  rw [← div_eq_mul_inv, ← div_eq_mul_inv] at w4
  have m0 : 0 < mu / (1 / b ^ 2 * (1 / b ^ 2) * (1 / b ^ 2)) := by positivity
  have n0 := w4.pos (by linarith) m0
  refine ⟨_, _, dbl_div hA q0.ne', by unfold Arith.sqrt?; rw [sqrt?_ok n0.le]; rfl, ?_⟩
  rw [hA.arith.rd]
  have w5 := ((w4.sqrt (by linarith) (by linarith) m0).rn (by linarith))
  have w6 := ((w5.mul ht (by linarith)).rn (by linarith)).mono (show _ ≤ 4 * ε by linarith)
  have e : √(mu / (1 / b ^ 2 * (1 / b ^ 2) * (1 / b ^ 2))) = √mu * b ^ 3 := by
    have := sqrt_mean hmu hb
    rwa [show (1 / b ^ 2) ^ 3 = 1 / b ^ 2 * (1 / b ^ 2) * (1 / b ^ 2) by ring] at this
  rwa [e] at w6

/-- The mean anomaly difference brought into one turn, src/core_astro/propagate_lagrangian.cpp:61-64. -/
theorem cropD_err {A : Libm} (hA : A.Double) (hat : ∀ y x, |A.atan2 y x - atan2 y x| ≤ 4 * u * |atan2 y x|) (M : ℝ) :
    ∃ k : ℤ, |wrapNegD A (A.atan2 (A.sin M) (A.cos M)) - M - 2 * π * k| ≤ 72 * u := by
  have hu := u_pos
  have hus := u_small
  obtain ⟨⟨k, hk⟩, hb⟩ := wrap_err hA hat M
  unfold wrapNegD
  split_ifs with hneg
  · refine ⟨k + 1, ?_⟩
    rw [hA.arith.rd]
    generalize A.atan2 (A.sin M) (A.cos M) = t at *
    have hpi := pi_lt_d2
    have hp3 := pi_gt_three
    have w : Within 0 (2 : ℝ) 2 := by unfold Within; simp
    have w1 := (w.mul (show Within u π (rn π) from rn_err' _) (by norm_num)).rn (by linarith)
    have e1 := w1.mono (show _ ≤ 2.03 * u by linarith)
    unfold Within at e1
    rw [abs_of_pos (show 0 < 2 * π by linarith)] at e1
    have e2 : |rn (2 * rn π) - 2 * π| ≤ 12.8 * u := e1.trans (by nlinarith)
    generalize rn (2 * rn π) = p at *
    have e3 := rn_err' (t + p)
    have e4 : |t + p| ≤ 6.31 := by
      have h1 := abs_le.1 hb
      have h2 := abs_le.1 e2
      rw [abs_le]; constructor <;> linarith
    have e5 := mul_le_mul_of_nonneg_left e4 hu.le
    push_cast
    have t1 := abs_add_three (rn (t + p) - (t + p)) (p - 2 * π) (t - M - 2 * π * k)
    rw [show rn (t + p) - (t + p) + (p - 2 * π) + (t - M - 2 * π * k) = rn (t + p) - M - 2 * π * (k + 1) by ring] at t1
    linarith
  · exact ⟨k, hk.trans (by linarith)⟩

/-- The roundings of the three terms of Kepler's equation. -/
theorem resid_real {DE DM T2 T3 y : ℝ} (b2 : |T2| ≤ 1.01 * (1 * 2)) (b3 : |T3| ≤ 1.01 * (1 * 1)) (hres : |y| ≤ 1)
    (hy : rn (rn (rn (-DM + DE) + T2) - T3) = y) : |DE + T2 - T3 - DM - y| ≤ 9 * u := by
  have hu := u_pos
  have hus := u_small
  have r1 := rn_err' (-DM + DE)
  generalize rn (-DM + DE) = T1 at *
  have r2 := rn_err' (T1 + T2)
  generalize rn (T1 + T2) = T12 at *
  have r3 := rn_err' (T12 - T3)
  rw [hy] at r3
  have small : ∀ {t t' B : ℝ}, |t' - t| ≤ u * |t| → |t'| ≤ B → |t| ≤ 1.01 * B := by
    intro t t' B h1 h2
    have := abs_sub_abs_le_abs_sub t t'
    rw [abs_sub_comm t t'] at this
    have := mul_le_mul_of_nonneg_right hus (abs_nonneg t)
    have := abs_nonneg t
    have := abs_nonneg t'
    linarith
  have s3 := small r3 hres
  have s12 : |T12| ≤ 2.03 := by
    have := abs_add_le (T12 - T3) T3
    rw [sub_add_cancel] at this
    linarith
  have s2 := small r2 s12
  have s1 : |T1| ≤ 4.1 := by
    have := abs_sub (T1 + T2) T2
    rw [add_sub_cancel_right] at this
    linarith
  have s0 := small r1 s1
  have k3 := r3.trans (mul_le_mul_of_nonneg_left s3 hu.le)
  have k2 := r2.trans (mul_le_mul_of_nonneg_left s2 hu.le)
  have k1 := r1.trans (mul_le_mul_of_nonneg_left s0 hu.le)
  rw [abs_le] at k1 k2 k3 ⊢
  constructor <;> linarith [k1.1, k1.2, k2.1, k2.2, k3.1, k3.2]

/-- What the code leaves of Kepler's equation is what is left of it in exact arithmetic, up to the errors of the orbit. -/
theorem kepDED_err {A : Libm} (hA : A.Double) {σ b R ε a' σ' R' DE DM y tol : ℝ} (hb : 0 < b) (hR : 0 < R) (hρ : R * b ^ 2 ≤ 2) (hεu : 16 * u ≤ ε) (hs : ε ≤ 1 / 1000)
    (ha : Within ε (1 / b ^ 2) a') (hσ : Err ε (1 / b) σ σ') (hR' : Near 4.04 R R') (hy : kepDED A DE DM σ' (rn √a') a' R' = some y) (hres : |y| ≤ tol) (ht : tol ≤ 1) :
    |DE + σ * b * (1 - cos DE) - (1 - R * b ^ 2) * sin DE - DM| ≤ tol + 10 * ε := by
  have hu := u_pos
  have hus := u_small
  have hb2 : 0 < 1 / b ^ 2 := by positivity
  have a0 := ha.pos (by linarith) hb2
  have wq := (ha.sqrt (by linarith) (by linarith) hb2).rn (by linarith)
  rw [sqrt_a hb] at wq
  have b0 : 0 < 1 / b := by positivity
  have q0 := wq.pos (by linarith) b0
  unfold kepDED at hy
  rw [dbl_div hA q0.ne', dbl_div hA a0.ne', hA.arith.rd] at hy
  simp only [Option.bind_eq_bind, Option.bind_some, Option.pure_def, Option.some.injEq] at hy
  -- the coefficients
  have e1 := (hσ.mul (Err.of_within (wq.inv (by linarith) (by linarith) b0) (le_refl _) (by linarith)) (by linarith)).rn (by linarith)
  rw [abs_of_pos (inv_pos.2 b0), mul_inv_cancel₀ b0.ne', ← div_eq_mul_inv σ', one_div, inv_inv] at e1
  have e1 := e1.mono (show _ ≤ 2.2 * ε by linarith)
  have e2 := (Err.of_within ((hR'.within.mul (ha.inv (by linarith) (by linarith) hb2) (by linarith)).rn (by linarith)) (le_refl _) (by linarith)).mono (show _ ≤ 1.4 * ε by linarith)
  rw [one_div, inv_inv, abs_of_pos (by positivity), ← div_eq_mul_inv] at e2
  generalize rn (σ' / rn √a') = q at *
  generalize rn (R' / a') = p at *
  obtain ⟨ρ, hρ'⟩ : ∃ ρ, ρ = R * b ^ 2 := ⟨_, rfl⟩
  have ρ0 : 0 < ρ := by rw [hρ']; positivity
  rw [← hρ'] at e2 hρ ⊢
  obtain ⟨s, hs'⟩ : ∃ s, s = σ * b := ⟨_, rfl⟩
  rw [← hs'] at e1 ⊢
  have e3 : Err (2.8 * ε) 1 (1 - ρ) (1 - p) := by
    refine ⟨abs_le.2 ⟨by linarith, by linarith⟩, ?_⟩
    rw [show 1 - p - (1 - ρ) = -(p - ρ) by ring, abs_neg]
    have := e2.2
    nlinarith
  have e3 := (e3.rn (by linarith)).mono (show _ ≤ 2.9 * ε by linarith)
  obtain ⟨c0, c2, ec⟩ := cosD_err hA DE
  have c4 : Err (2 * u) 2 (1 - cos DE) (rn (1 - A.cos DE)) :=
    ⟨abs_le.2 ⟨by linarith [cos_le_one DE], by linarith [neg_one_le_cos DE]⟩, by linarith⟩
  have c5 : Err (4 * u) 1 (sin DE) (A.sin DE) := ⟨abs_sin_le_one _, by rw [mul_one]; exact sin_err hA DE⟩
  have t2 := ((e1.mul c4 (by linarith)).rn (by linarith)).mono (show _ ≤ 2.5 * ε by linarith)
  have t3 := ((e3.mul c5 (by linarith)).rn (by linarith)).mono (show _ ≤ 3.3 * ε by linarith)
  generalize rn (q * rn (1 - A.cos DE)) = T2 at *
  generalize rn (rn (1 - p) * A.sin DE) = T3 at *
  have d := resid_real (t2.abs_le (by linarith)) (t3.abs_le (by linarith)) (hres.trans ht) hy
  have h2 := t2.2
  have h3 := t3.2
  have a1 := abs_le.1 hres
  rw [abs_le] at d h2 h3 ⊢
  constructor <;> linarith [d.1, d.2, h2.1, h2.2, h3.1, h3.2, a1.1, a1.2]

/-- Kepler's equation for the difference of the eccentric anomalies is stable. -/
theorem kepDE_stable {s c e D D' δ : ℝ} (he0 : 0 ≤ e) (he : e < 1) (hsc : s ^ 2 + c ^ 2 ≤ e ^ 2)
    (h : |D + s * (1 - cos D) - c * sin D - (D' + s * (1 - cos D') - c * sin D')| ≤ δ) : |D - D'| ≤ δ / (1 - e) := by
  rw [le_div_iff₀ (by linarith)]
  obtain ⟨m, hm⟩ : ∃ m, m = (D + D') / 2 := ⟨_, rfl⟩
  obtain ⟨d, hd⟩ : ∃ d, d = (D - D') / 2 := ⟨_, rfl⟩
  have e1 : s * (1 - cos D) - c * sin D - (s * (1 - cos D') - c * sin D') = 2 * sin d * (s * sin m - c * cos m) := by
    have h1 : cos D - cos D' = -2 * sin m * sin d := by rw [Real.cos_sub_cos, ← hm, ← hd]
    have h2 : sin D - sin D' = 2 * sin d * cos m := by rw [Real.sin_sub_sin, ← hm, ← hd]
    linear_combination -s * h1 - c * h2
  have e2 : |s * sin m - c * cos m| ≤ e := by
    apply abs_le_of_sq_le_sq _ he0
    refine le_trans ?_ hsc
    nlinarith [sq_nonneg (s * cos m + c * sin m), sin_sq_add_cos_sq m]
  have e3 : |2 * sin d * (s * sin m - c * cos m)| ≤ e * |D - D'| := by
    rw [abs_mul, abs_mul, abs_of_pos (show (0 : ℝ) < 2 by norm_num)]
    have h3 : |sin d| ≤ |d| := Real.abs_sin_le_abs
    have h4 : 2 * |d| = |D - D'| := by rw [hd, abs_div, abs_of_pos (show (0 : ℝ) < 2 by norm_num)]; ring
    calc 2 * |sin d| * |s * sin m - c * cos m| ≤ 2 * |d| * e := mul_le_mul (by linarith) e2 (abs_nonneg _) (by positivity)
      _ = _ := by rw [h4]; ring
  have e4 := abs_sub_abs_le_abs_sub (D - D') (-(2 * sin d * (s * sin m - c * cos m)))
  rw [abs_neg, show D - D' - -(2 * sin d * (s * sin m - c * cos m)) = D + s * (1 - cos D) - c * sin D - (D' + s * (1 - cos D') - c * sin D') by
    rw [← e1]; ring] at e4
  linarith

end Kep3
