import Verif.Elements.Props92

/-!
# C91: states from equinoctial elements in double precision
-/

namespace Kep3
open Real V3 Fl

/-- The rows of the equinoctial frame. -/
theorem eqRow_unit {I : ℝ} (hI : I = 1 ∨ I = -1) (h k : ℝ) :
    (eqF I h k).x ^ 2 + (eqG I h k).x ^ 2 ≤ 1 ∧ (eqF I h k).y ^ 2 + (eqG I h k).y ^ 2 ≤ 1 ∧ (eqF I h k).z ^ 2 + (eqG I h k).z ^ 2 ≤ 1 := by
  have D : 0 < k * k + h * h + 1 := by have := mul_self_nonneg k; have := mul_self_nonneg h; linarith
  have hI2 : I ^ 2 = 1 := by rcases hI with rfl | rfl <;> norm_num
  unfold eqF eqG
  dsimp only
  simp only [div_pow, ← add_div]
  refine ⟨?_, ?_, ?_⟩ <;> rw [div_le_one (by positivity)]
  · nlinarith [sq_nonneg k]
  · nlinarith [sq_nonneg h]
  · nlinarith [sq_nonneg (1 - k * k - h * h)]

/-- The length of a vector given in the equinoctial frame. -/
theorem eqFrame_norm {I : ℝ} (hI : I = 1 ∨ I = -1) (h k x y : ℝ) :
    V3.norm (⟨x * (eqF I h k).x + y * (eqG I h k).x, x * (eqF I h k).y + y * (eqG I h k).y, x * (eqF I h k).z + y * (eqG I h k).z⟩ : V3 ℝ)
      = √(x * x + y * y) := by
  have D : k * k + h * h + 1 ≠ 0 := by have := mul_self_nonneg k; have := mul_self_nonneg h; positivity
  unfold V3.norm
  congr 1
  simp only [V3.dot]
  unfold eqF eqG
  rcases hI with rfl | rfl <;> field_simp <;> ring

/-- A component. -/
theorem comb_err {P Q P' Q' x y x' y' ρ d : ℝ} (hu' : P ^ 2 + Q ^ 2 ≤ 1) (dP : |P' - P| ≤ 9.4 * u) (dQ : |Q' - Q| ≤ 9.4 * u) (hρ : 0 ≤ ρ) (hx : |x| ≤ ρ)
    (hy : |y| ≤ ρ) (d0 : 0 ≤ d) (hd : d ≤ 1 / 50) (dx : |x' - x| ≤ d * ρ) (dy : |y' - y| ≤ d * ρ) :
    |rn (rn (x' * P') + rn (y' * Q')) - (x * P + y * Q)| ≤ (1.42 * d + 24 * u) * ρ := by
  have hu := u_pos
  have hus := u_small
  have ax : |x'| ≤ 1.02 * ρ := by have := abs_add_le (x' - x) x; rw [sub_add_cancel] at this; nlinarith
  have ay : |y'| ≤ 1.02 * ρ := by have := abs_add_le (y' - y) y; rw [sub_add_cancel] at this; nlinarith
  have hP : |P| ≤ 1 := abs_le_of_sq_le_sq (by nlinarith [sq_nonneg Q]) zero_le_one
  have hQ : |Q| ≤ 1 := abs_le_of_sq_le_sq (by nlinarith [sq_nonneg P]) zero_le_one
  have aP : |P'| ≤ 1.001 := by have := abs_add_le (P' - P) P; rw [sub_add_cancel] at this; linarith
  have aQ : |Q'| ≤ 1.001 := by have := abs_add_le (Q' - Q) Q; rw [sub_add_cancel] at this; linarith
  have uρ := mul_nonneg hu.le hρ
  have b1 : |x' * P'| ≤ 1.02 * ρ * 1.001 := by rw [abs_mul]; exact mul_le_mul ax aP (abs_nonneg _) (by positivity)
  have b2 : |y' * Q'| ≤ 1.02 * ρ * 1.001 := by rw [abs_mul]; exact mul_le_mul ay aQ (abs_nonneg _) (by positivity)
  have r1 := (rn_err' (x' * P')).trans (mul_le_mul_of_nonneg_left b1 hu.le)
  have r2 := (rn_err' (y' * Q')).trans (mul_le_mul_of_nonneg_left b2 hu.le)
  have c1 : |rn (x' * P')| ≤ 1.03 * ρ := by
    have := abs_add_le (rn (x' * P') - x' * P') (x' * P'); rw [sub_add_cancel] at this; nlinarith
  have c2 : |rn (y' * Q')| ≤ 1.03 * ρ := by
    have := abs_add_le (rn (y' * Q') - y' * Q') (y' * Q'); rw [sub_add_cancel] at this; nlinarith
  have c3 : |rn (x' * P') + rn (y' * Q')| ≤ 2.06 * ρ := (abs_add_le _ _).trans (by linarith)
  have r3 := (rn_err' (rn (x' * P') + rn (y' * Q'))).trans (mul_le_mul_of_nonneg_left c3 hu.le)
  have p1 : |x' * (P' - P)| ≤ 1.02 * ρ * (9.4 * u) := by rw [abs_mul]; exact mul_le_mul ax dP (abs_nonneg _) (by positivity)
  have p2 : |y' * (Q' - Q)| ≤ 1.02 * ρ * (9.4 * u) := by rw [abs_mul]; exact mul_le_mul ay dQ (abs_nonneg _) (by positivity)
  have p3 : |P * (x' - x)| ≤ |P| * (d * ρ) := by rw [abs_mul]; exact mul_le_mul_of_nonneg_left dx (abs_nonneg _)
  have p4 : |Q * (y' - y)| ≤ |Q| * (d * ρ) := by rw [abs_mul]; exact mul_le_mul_of_nonneg_left dy (abs_nonneg _)
  have pq : |P| + |Q| ≤ 1.42 := by
    refine (abs_le_of_sq_le_sq' (a := |P| + |Q|) (b := 1.42) ?_ (by norm_num)).2
    rw [← sq_abs P, ← sq_abs Q] at hu'
    nlinarith [sq_nonneg (|P| - |Q|)]
  have p5 : (|P| + |Q|) * (d * ρ) ≤ 1.42 * (d * ρ) := mul_le_mul_of_nonneg_right pq (by positivity)
  have t2 := abs_add_le (P * (x' - x)) (Q * (y' - y))
  have t3 := abs_add_le (x' * (P' - P)) (y' * (Q' - Q))
  have t1 := abs_add_le (rn (x' * P') - x' * P') (rn (y' * Q') - y' * Q')
  have t := abs_add_three (rn (x' * P') - x' * P' + (rn (y' * Q') - y' * Q')) (x' * (P' - P) + y' * (Q' - Q)) (P * (x' - x) + Q * (y' - y))
  have s := abs_add_le (rn (rn (x' * P') + rn (y' * Q')) - (rn (x' * P') + rn (y' * Q')))
    (rn (x' * P') - x' * P' + (rn (y' * Q') - y' * Q') + (x' * (P' - P) + y' * (Q' - Q)) + (P * (x' - x) + Q * (y' - y)))
  rw [show rn (rn (x' * P') + rn (y' * Q')) - (rn (x' * P') + rn (y' * Q')) + (rn (x' * P') - x' * P' + (rn (y' * Q') - y' * Q') + (x' * (P' - P) + y' * (Q' - Q)) + (P * (x' - x) + Q * (y' - y)))
    = rn (rn (x' * P') + rn (y' * Q')) - (x * P + y * Q) by ring] at s
  linarith

/-- A vector. -/
theorem comb3_err {A : Libm} (hA : A.Double) {I : ℝ} (hI : I = 1 ∨ I = -1) (h k : ℝ) {x y x' y' ρ d : ℝ} (hρ : 0 ≤ ρ) (hx : |x| ≤ ρ) (hy : |y| ≤ ρ)
    (d0 : 0 ≤ d) (hd : d ≤ 1 / 50) (dx : |x' - x| ≤ d * ρ) (dy : |y' - y| ≤ d * ρ) :
    V3.norm ((⟨rn (rn (x' * (eqFD A.toArith I h k).x) + rn (y' * (eqGD A.toArith I h k).x)),
        rn (rn (x' * (eqFD A.toArith I h k).y) + rn (y' * (eqGD A.toArith I h k).y)),
        rn (rn (x' * (eqFD A.toArith I h k).z) + rn (y' * (eqGD A.toArith I h k).z))⟩ : V3 ℝ) -
      (⟨x * (eqF I h k).x + y * (eqG I h k).x, x * (eqF I h k).y + y * (eqG I h k).y, x * (eqF I h k).z + y * (eqG I h k).z⟩ : V3 ℝ)) ≤
      (2.5 * d + 42 * u) * ρ := by
  have hu := u_pos
  obtain ⟨u1, u2, u3⟩ := eqRow_unit hI h k
  obtain ⟨⟨f1, f2, f3⟩, g1, g2, g3⟩ := frame_err hA.arith hI h k
  refine (norm_le_of_comp (m := (1.42 * d + 24 * u) * ρ) (by positivity) (comb_err u1 f1 g1 hρ hx hy d0 hd dx dy) (comb_err u2 f2 g2 hρ hx hy d0 hd dx dy)
    (comb_err u3 f3 g3 hρ hx hy d0 hd dx dy)).trans ?_
  have := mul_nonneg d0 hρ
  have := mul_nonneg hu.le hρ
  linarith

/-- The denominator of the radius. -/
theorem eqW_err {A : Libm} (hA : A.Double) {f g L e K : ℝ} (hf : |f| ≤ e) (hg : |g| ≤ e) (hK1 : 1 ≤ K) (hKu : K * u ≤ 1 / 8000)
    (h2 : 1 + e ≤ K * (1 + g * sin L + f * cos L)) :
    Within (11 * K * u) (1 + g * sin L + f * cos L) (rn (rn (1 + rn (g * A.sin L)) + rn (f * A.cos L))) := by
  have hu := u_pos
  have hus := u_small
  have e0 : 0 ≤ e := (abs_nonneg _).trans hf
  have ue := mul_nonneg hu.le e0
  have sl := Real.abs_sin_le_one L
  have cl := Real.abs_cos_le_one L
  have pg : |g * A.sin L - g * sin L| ≤ e * (4 * u) := by rw [← mul_sub, abs_mul]; exact mul_le_mul hg (sin_err hA L) (abs_nonneg _) e0
  have pf : |f * A.cos L - f * cos L| ≤ e * (2 * u) := by rw [← mul_sub, abs_mul]; exact mul_le_mul hf (cos_err hA L) (abs_nonneg _) e0
  have bg : |g * sin L| ≤ e := by rw [abs_mul]; nlinarith [abs_nonneg g]
  have bf : |f * cos L| ≤ e := by rw [abs_mul]; nlinarith [abs_nonneg f]
  generalize g * sin L = G at *
  generalize f * cos L = F at *
  have r1 := rn_err' (g * A.sin L)
  have r2 := rn_err' (f * A.cos L)
  have r3 := rn_err' (1 + rn (g * A.sin L))
  generalize rn (g * A.sin L) = g1 at *
  generalize rn (f * A.cos L) = f1 at *
  generalize g * A.sin L = g0 at *
  generalize f * A.cos L = f0 at *
  generalize rn (1 + g1) = t at *
  have b1 : |g0| ≤ 1.01 * e := by have := abs_add_le (g0 - G) G; rw [sub_add_cancel] at this; nlinarith
  have b2 : |f0| ≤ 1.01 * e := by have := abs_add_le (f0 - F) F; rw [sub_add_cancel] at this; nlinarith
  have r1' := r1.trans (mul_le_mul_of_nonneg_left b1 hu.le)
  have r2' := r2.trans (mul_le_mul_of_nonneg_left b2 hu.le)
  have b3 : |1 + g1| ≤ 1 + 1.02 * e := by
    have := abs_add_three 1 (g1 - g0) g0
    rw [show 1 + (g1 - g0) + g0 = 1 + g1 by ring, abs_one] at this
    nlinarith
  have r3' := r3.trans (mul_le_mul_of_nonneg_left b3 hu.le)
  have hW : 0 < 1 + G + F := by by_contra hn; nlinarith
  have e1 : Within (9.3 * K * u) (1 + G + F) (t + f1) := by
    refine Within.of_abs (s := 1 + G + F) (d := 9.3 * u * (1 + e)) ?_ (by nlinarith) (le_abs_self _) (by positivity)
    have a1 := abs_add_three (t - (1 + g1)) (g1 - g0) (g0 - G)
    have a2 := abs_add_three (t - (1 + g1) + (g1 - g0) + (g0 - G)) (f1 - f0) (f0 - F)
    rw [show t - (1 + g1) + (g1 - g0) + (g0 - G) + (f1 - f0) + (f0 - F) = t + f1 - (1 + G + F) by ring] at a2
    nlinarith
  exact (e1.rn (by linarith)).mono (by nlinarith)

/-- A component of the velocity in the equinoctial frame. -/
theorem eqVel_err {m m' e c c' K s : ℝ} (hm : 0 < m) (em : Within (3 * u) m m') (hKu : K * u ≤ 1 / 8000) (hc' : |c' - c| ≤ 4 * u)
    (he : |e| ≤ K * s) (hK1 : 1 ≤ K) (s2 : |e + c| ≤ s) (s4 : 1 ≤ K * s) :
    |rn (m' * rn (e + c')) - m * (e + c)| ≤ 12 * (K * u) * (m * s) := by
  have hu := u_pos
  have hus := u_small
  have s0 : 0 ≤ s := (abs_nonneg _).trans s2
  have hsK : s ≤ K * s := le_mul_of_one_le_left s0 hK1
  have g1 : |rn (e + c') - (e + c)| ≤ 5.2 * (u * (K * s)) := by
    have a1 := rn_err' (e + c')
    have a2 := abs_add_le (c' - c) (e + c)
    rw [show c' - c + (e + c) = e + c' by ring] at a2
    have a3 := abs_add_le (rn (e + c') - (e + c')) (c' - c)
    rw [show rn (e + c') - (e + c') + (c' - c) = rn (e + c') - (e + c) by ring] at a3
    have a5 : |e + c'| ≤ 1.05 * (K * s) := by nlinarith
    have := mul_le_mul_of_nonneg_left a5 hu.le
    nlinarith
  set g := e + c with hg
  set g' := rn (e + c') with hg'
  have ht0 : 0 ≤ K * u * s := by positivity
  have g2 : |g'| ≤ 1.001 * s := by
    have := abs_add_le (g' - g) g
    rw [sub_add_cancel] at this
    nlinarith
  have em' : |m' - m| ≤ 3 * u * m := by unfold Within at em; rwa [abs_of_pos hm] at em
  have m1 : |m'| ≤ 1.001 * m := by
    have := abs_add_le (m' - m) m
    rw [sub_add_cancel, abs_of_pos hm] at this
    nlinarith
  have p1 : |m' * g'| ≤ 1.001 * m * (1.001 * s) := by rw [abs_mul]; exact mul_le_mul m1 g2 (abs_nonneg _) (by positivity)
  have p2 : |(m' - m) * g'| ≤ 3 * u * m * (1.001 * s) := by
    rw [abs_mul]; exact mul_le_mul em' g2 (abs_nonneg _) ((abs_nonneg _).trans em')
  have p3 : |m * (g' - g)| ≤ m * (5.2 * (u * (K * s))) := by rw [abs_mul, abs_of_pos hm]; exact mul_le_mul_of_nonneg_left g1 hm.le
  have r := (rn_err' (m' * g')).trans (mul_le_mul_of_nonneg_left p1 hu.le)
  have t := abs_add_three (rn (m' * g') - m' * g') ((m' - m) * g') (m * (g' - g))
  rw [show rn (m' * g') - m' * g' + (m' - m) * g' + m * (g' - g) = rn (m' * g') - m * g by ring] at t
  have w1 : u * (m * s) ≤ K * u * (m * s) := mul_le_mul_of_nonneg_right (le_mul_of_one_le_left hu.le hK1) (by positivity)
  have w2 : 0 ≤ K * u * (m * s) := le_trans (by positivity) w1
  nlinarith

set_option maxHeartbeats 600000 in
/-- **C91, accuracy of `eq2ic`.** With `e` the eccentricity and `K` a bound for `(1 + e) / |1 - e|` and for `(1 + e) / (1 + e cos f)`: the state is a number,
and its position and velocity are accurate to `100 K` units of `2⁻⁵³`, relative to their lengths, for all `h` and `k`. -/
theorem C91_eq2ic_accurate {A : Libm} (hA : A.Double) {q : Meq} {mu e K : ℝ} (b : Bool) (hmu : 0 < mu) (hp : q.p ≠ 0) (he : 0 ≤ e)
    (hfg : q.f ^ 2 + q.g ^ 2 = e ^ 2) (h1 : 1 + e ≤ K * |1 - e|) (h2 : 1 + e ≤ K * (1 + q.g * sin q.L + q.f * cos q.L)) (hK : K ≤ 2 ^ 40) :
    ∃ x y, eq2ic q mu b = some x ∧ eq2icD A q mu b = some y ∧
      norm (y.r - x.r) ≤ 100 * K * (1 / 2 ^ 53) * norm x.r ∧ norm (y.v - x.v) ≤ 100 * K * (1 / 2 ^ 53) * norm x.v := by
  obtain ⟨p, f, g, h, k, L⟩ := q
  dsimp only at *
  change ∃ x y : RV ℝ, _ ∧ _ ∧ V3.norm (y.r - x.r) ≤ 100 * K * u * V3.norm x.r ∧ V3.norm (y.v - x.v) ≤ 100 * K * u * V3.norm x.v
  have hu := u_pos
  have hus := u_small
  have hI : sgnI b = 1 ∨ sgnI b = -1 := by cases b <;> simp [sgnI]
  generalize hIb : sgnI b = I at hI
  have hd0 : 0 ≤ |1 - e| := abs_nonneg _
  have hK1 : 1 ≤ K := by
    by_contra hc
    have : |1 - e| ≤ 1 + e := abs_le.2 ⟨by linarith, by linarith⟩
    rcases hd0.eq_or_lt with h | h
    · rw [← h] at h1; linarith
    · have := mul_lt_of_lt_one_left h (not_le.1 hc); linarith
  have hKu : K * u ≤ 1 / 8000 := by unfold u; rw [mul_one_div, div_le_div_iff₀ (by positivity) (by norm_num)]; norm_num at hK ⊢; linarith
  have hKu0 : u ≤ K * u := le_mul_of_one_le_left hu.le hK1
  have hfe : |f| ≤ e := abs_le_of_sq_le_sq (by nlinarith [sq_nonneg g]) he
  have hge : |g| ≤ e := abs_le_of_sq_le_sq (by nlinarith [sq_nonneg f]) he
  have hW : 0 < 1 + g * sin L + f * cos L := by by_contra hn; nlinarith
  have eW := eqW_err hA hfe hge hK1 hKu h2
  have W0 := eW.pos (by linarith) hW
  have hpp : 0 < |p| := abs_pos.2 hp
  have hmp : 0 < mu / |p| := by positivity
  have hs := Real.abs_sin_le_one L
  have hc := Real.abs_cos_le_one L
  have hcs := Real.sin_sq_add_cos_sq L
  have hx : eq2ic ⟨p, f, g, h, k, L⟩ mu b = some
      ⟨⟨|p| / (1 + g * sin L + f * cos L) * cos L * (eqF I h k).x + |p| / (1 + g * sin L + f * cos L) * sin L * (eqG I h k).x,
        |p| / (1 + g * sin L + f * cos L) * cos L * (eqF I h k).y + |p| / (1 + g * sin L + f * cos L) * sin L * (eqG I h k).y,
        |p| / (1 + g * sin L + f * cos L) * cos L * (eqF I h k).z + |p| / (1 + g * sin L + f * cos L) * sin L * (eqG I h k).z⟩,
       ⟨-√(mu / |p|) * (g + sin L) * (eqF I h k).x + √(mu / |p|) * (f + cos L) * (eqG I h k).x,
        -√(mu / |p|) * (g + sin L) * (eqF I h k).y + √(mu / |p|) * (f + cos L) * (eqG I h k).y,
        -√(mu / |p|) * (g + sin L) * (eqF I h k).z + √(mu / |p|) * (f + cos L) * (eqG I h k).z⟩⟩ := by
    unfold eq2ic
    simp only [div?_ok hW.ne', div?_ok hpp.ne', Option.bind_eq_bind, Option.bind_some, sqrt?_ok hmp.le, hIb, Option.pure_def]
  have m0 : 0 ≤ rn (mu / |p|) := rn_nonneg hmp.le
  generalize hr : |p| / (1 + g * sin L + f * cos L) = r at hx
  generalize hm : √(mu / |p|) = m at hx
  generalize hW' : rn (rn (1 + rn (g * A.sin L)) + rn (f * A.cos L)) = W' at *
  generalize hr' : rn (|p| / W') = r'
  generalize hm' : rn √(rn (mu / |p|)) = m'
  have hy : eq2icD A ⟨p, f, g, h, k, L⟩ mu b = some
      ⟨⟨rn (rn (rn (r' * A.cos L) * (eqFD A.toArith I h k).x) + rn (rn (r' * A.sin L) * (eqGD A.toArith I h k).x)),
        rn (rn (rn (r' * A.cos L) * (eqFD A.toArith I h k).y) + rn (rn (r' * A.sin L) * (eqGD A.toArith I h k).y)),
        rn (rn (rn (r' * A.cos L) * (eqFD A.toArith I h k).z) + rn (rn (r' * A.sin L) * (eqGD A.toArith I h k).z))⟩,
       ⟨rn (rn (rn (-m' * rn (g + A.sin L)) * (eqFD A.toArith I h k).x) + rn (rn (m' * rn (f + A.cos L)) * (eqGD A.toArith I h k).x)),
        rn (rn (rn (-m' * rn (g + A.sin L)) * (eqFD A.toArith I h k).y) + rn (rn (m' * rn (f + A.cos L)) * (eqGD A.toArith I h k).y)),
        rn (rn (rn (-m' * rn (g + A.sin L)) * (eqFD A.toArith I h k).z) + rn (rn (m' * rn (f + A.cos L)) * (eqGD A.toArith I h k).z))⟩⟩ := by
    unfold eq2icD Arith.div? Arith.sqrt?
    simp only [hA.arith.rd, hW', div?_ok W0.ne', div?_ok hpp.ne', Option.map_some, Option.bind_eq_bind, Option.bind_some, sqrt?_ok m0, hIb, hr', hm',
      Option.pure_def]
  have ex : ∀ t : ℝ, Within 0 t t := fun t => by unfold Within; simp
  have r0 : 0 < r := hr ▸ div_pos hpp hW
  have mm0 : 0 < m := hm ▸ sqrt_pos.2 hmp
  have er : Within (12.5 * K * u) r r' := by
    have := ((ex |p|).mul (eW.inv (by positivity) (by linarith) hW) (by norm_num)).rn (by linarith)
    rw [← hr, ← hr', div_eq_mul_inv, div_eq_mul_inv]
    exact this.mono (by linarith)
  have em : Within (3 * u) m m' := by
    have := ((((ex (mu / |p|)).rn (by norm_num)).sqrt (by positivity) (by linarith) hmp).rn (by linarith))
    rw [← hm, ← hm']
    exact this.mono (by linarith)
  refine ⟨_, _, hx, hy, ?_, ?_⟩
  · dsimp only
    rw [eqFrame_norm hI, show r * cos L * (r * cos L) + r * sin L * (r * sin L) = r ^ 2 by linear_combination r ^ 2 * hcs, sqrt_sq r0.le]
    have dx := polar_err er (by linarith) (by linarith) hc ((cos_err hA L).trans (by linarith))
    have dy := polar_err er (by linarith) (by linarith) hs (sin_err hA L)
    rw [abs_of_pos r0] at dx dy
    refine (comb3_err hA hI h k r0.le (x := r * cos L) (y := r * sin L) (by rw [abs_mul, abs_of_pos r0]; nlinarith)
      (by rw [abs_mul, abs_of_pos r0]; nlinarith) (by linarith) (by linarith) dx dy).trans (mul_le_mul_of_nonneg_right ?_ r0.le)
    linarith
  · have n0 : √(-m * (g + sin L) * (-m * (g + sin L)) + m * (f + cos L) * (m * (f + cos L))) = m * √((g + sin L) ^ 2 + (f + cos L) ^ 2) := by
      rw [show -m * (g + sin L) * (-m * (g + sin L)) + m * (f + cos L) * (m * (f + cos L)) = m ^ 2 * ((g + sin L) ^ 2 + (f + cos L) ^ 2) by ring,
        sqrt_mul (sq_nonneg _), sqrt_sq mm0.le]
    dsimp only
    rw [eqFrame_norm hI, n0]
    have ss : √((g + sin L) ^ 2 + (f + cos L) ^ 2) * √((g + sin L) ^ 2 + (f + cos L) ^ 2) = (g + sin L) ^ 2 + (f + cos L) ^ 2 :=
      mul_self_sqrt (by positivity)
    have s0 : 0 ≤ √((g + sin L) ^ 2 + (f + cos L) ^ 2) := sqrt_nonneg _
    generalize √((g + sin L) ^ 2 + (f + cos L) ^ 2) = s at *
    have s1 : |g + sin L| ≤ s := abs_le_of_sq_le_sq (by nlinarith [sq_nonneg (f + cos L)]) s0
    have s2 : |f + cos L| ≤ s := abs_le_of_sq_le_sq (by nlinarith [sq_nonneg (g + sin L)]) s0
    have s3 : |1 - e| ≤ s := by
      refine abs_le_of_sq_le_sq ?_ s0
      have : -e ≤ g * sin L + f * cos L := by
        refine (abs_le_of_sq_le_sq' ?_ he).1
        nlinarith [sq_nonneg (g * cos L - f * sin L)]
      nlinarith
    have s4 : 1 + e ≤ K * s := h1.trans (mul_le_mul_of_nonneg_left s3 (by linarith))
    have V0 : 0 ≤ m * s := by positivity
    have dy : |rn (m' * rn (f + A.cos L)) - m * (f + cos L)| ≤ 12 * (K * u) * (m * s) :=
      eqVel_err mm0 em hKu ((cos_err hA L).trans (by linarith)) (by linarith) hK1 s2 (by linarith)
    have dx : |rn (-m' * rn (g + A.sin L)) - -m * (g + sin L)| ≤ 12 * (K * u) * (m * s) := by
      rw [show -m' * rn (g + A.sin L) = -(m' * rn (g + A.sin L)) by ring, rn_neg, show -rn (m' * rn (g + A.sin L)) - -m * (g + sin L) =
        -(rn (m' * rn (g + A.sin L)) - m * (g + sin L)) by ring, abs_neg]
      exact eqVel_err mm0 em hKu (sin_err hA L) (by linarith) hK1 s1 (by linarith)
    refine (comb3_err hA hI h k V0 (x := -m * (g + sin L)) (y := m * (f + cos L)) (by rw [abs_mul, abs_neg, abs_of_pos mm0]; exact mul_le_mul_of_nonneg_left s1 mm0.le)
      (by rw [abs_mul, abs_of_pos mm0]; exact mul_le_mul_of_nonneg_left s2 mm0.le) (by positivity) (by linarith) dx dy).trans (mul_le_mul_of_nonneg_right ?_ V0)
    linarith

/-- The hypotheses are met by an orbit of eccentricity 1/2, retrograde or not, whatever its plane; the states are accurate to 300 units. -/
example (h k : ℝ) (b : Bool) : ∃ x y, eq2ic ⟨3, 1 / 2, 0, h, k, 0⟩ 1 b = some x ∧ eq2icD Libm.rounded ⟨3, 1 / 2, 0, h, k, 0⟩ 1 b = some y ∧
    norm (y.r - x.r) ≤ 300 * (1 / 2 ^ 53) * norm x.r := by
  obtain ⟨x, y, h1, h2, h3, -⟩ := C91_eq2ic_accurate Libm.rounded_double (q := ⟨3, 1 / 2, 0, h, k, 0⟩) (mu := 1) (e := 1 / 2) (K := 3) b
    (by norm_num) (by norm_num) (by norm_num) (by norm_num) (by norm_num [abs_of_pos]) (by norm_num) (by norm_num)
  exact ⟨x, y, h1, h2, h3.trans (le_of_eq (by norm_num))⟩

end Kep3
