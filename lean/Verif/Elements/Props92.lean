import Verif.Elements.ParDouble
import Verif.Elements.Props91
import Verif.Elements.Props16
import Verif.Lagr.Props89

/-!
# C92: states from classical elements in double precision
-/

namespace Kep3
open Real V3 Fl

/-! ## Relative errors of any size -/

/-- `y` is `x` up to the relative error `ε`. -/
def Within (ε x y : ℝ) : Prop := |y - x| ≤ ε * |x|

namespace Within
variable {a b x y z w : ℝ}

theorem le_abs (h : Within a x y) : |y| ≤ (1 + a) * |x| := by
  have h1 := abs_add_le (y - x) x
  rw [sub_add_cancel] at h1
  unfold Within at h
  linarith

theorem mono (h : Within a x y) (hab : a ≤ b) : Within b x y := le_trans h (mul_le_mul_of_nonneg_right hab (abs_nonneg _))

theorem trans (h : Within a x y) (g : Within b y z) (ha : a ≤ 1 / 100) (hb : 0 ≤ b) : Within (a + 1.01 * b) x z := by
  have h1 := h.le_abs
  unfold Within at *
  have h2 := abs_add_le (z - y) (y - x)
  rw [sub_add_sub_cancel] at h2
  have h3 : |y| ≤ 1.01 * |x| := h1.trans (mul_le_mul_of_nonneg_right (by linarith) (abs_nonneg _))
  have := mul_le_mul_of_nonneg_left h3 hb
  linarith

theorem rn (h : Within a x y) (ha : a ≤ 1 / 100) : Within (a + 1.01 * u) x (Fl.rn y) := h.trans (rn_err' y) ha u_pos.le

theorem mul (h : Within a x y) (g : Within b z w) (ha : a ≤ 1 / 100) : Within (a + 1.01 * b) (x * z) (y * w) := by
  have h1 : |y| ≤ 1.01 * |x| := h.le_abs.trans (mul_le_mul_of_nonneg_right (by linarith) (abs_nonneg _))
  unfold Within at *
  have e : y * w - x * z = y * (w - z) + (y - x) * z := by ring
  rw [e, abs_mul x z]
  refine (abs_add_le _ _).trans ?_
  rw [abs_mul, abs_mul]
  have a1 : |y| * |w - z| ≤ 1.01 * |x| * (b * |z|) := mul_le_mul h1 g (abs_nonneg _) (by positivity)
  have a2 : |y - x| * |z| ≤ a * |x| * |z| := mul_le_mul_of_nonneg_right h (abs_nonneg _)
  linarith

theorem pos (h : Within a x y) (ha : a ≤ 1 / 100) (hx : 0 < x) : 0 < y := by
  unfold Within at h
  rw [abs_of_pos hx] at h
  have := (abs_le.1 h).1
  nlinarith

theorem inv (h : Within a x y) (h0 : 0 ≤ a) (ha : a ≤ 1 / 100) (hx : 0 < x) : Within (1.02 * a) x⁻¹ y⁻¹ := by
  have hy := h.pos ha hx
  unfold Within at *
  rw [abs_of_pos hx] at h
  have e : y⁻¹ - x⁻¹ = (x - y) / (x * y) := by field_simp
  have hy2 : 0.99 * x ≤ y := by have := (abs_le.1 h).1; nlinarith
  rw [e, abs_div, abs_sub_comm, abs_of_pos (mul_pos hx hy), abs_of_pos (inv_pos.2 hx), div_le_iff₀ (by positivity)]
  calc |y - x| ≤ a * x := h
    _ ≤ 1.02 * a * (0.99 * x) := by nlinarith [mul_nonneg h0 hx.le]
    _ ≤ 1.02 * a * y := mul_le_mul_of_nonneg_left hy2 (by positivity)
    _ = _ := by field_simp

theorem sqrt (h : Within a x y) (h0 : 0 ≤ a) (ha : a ≤ 1 / 100) (hx : 0 < x) : Within a √x √y := by
  have hy := h.pos ha hx
  unfold Within at *
  rw [abs_of_pos hx] at h
  have s1 : 0 < √x := sqrt_pos.2 hx
  have s2 := sqrt_nonneg y
  rw [abs_of_pos s1]
  have e : (√y - √x) * (√y + √x) = y - x := by
    have := mul_self_sqrt hy.le; have := mul_self_sqrt hx.le; linarith
  have e2 : |√y - √x| * (√y + √x) = |y - x| := by rw [← e, abs_mul, abs_of_nonneg (by linarith : 0 ≤ √y + √x)]
  have e3 : |√y - √x| * √x ≤ a * √x * √x := by
    calc |√y - √x| * √x ≤ |√y - √x| * (√y + √x) := mul_le_mul_of_nonneg_left (by linarith) (abs_nonneg _)
      _ ≤ a * x := by rw [e2]; exact h
      _ = _ := by rw [mul_assoc a, mul_self_sqrt hx.le]
  exact le_of_mul_le_mul_right e3 s1

/-- From an absolute error. -/
theorem of_abs {s d : ℝ} (h : |y - x| ≤ d) (hd : d ≤ a * s) (hs : s ≤ |x|) (ha : 0 ≤ a) : Within a x y :=
  h.trans (hd.trans (mul_le_mul_of_nonneg_left hs ha))

end Within

/-! ## The perifocal frame -/

section
variable {A : Libm} (hA : A.Double)
include hA

theorem cos_err (x : ℝ) : |A.cos x - Real.cos x| ≤ 2 * u := by
  have := hA.arith.cos x
  have h2 : (1 : ℝ) / 2 ^ 52 = 2 * u := by unfold u; norm_num
  linarith

theorem sin_err (x : ℝ) : |A.sin x - Real.sin x| ≤ 4 * u :=
  (hA.sin x).trans (by have := Real.abs_sin_le_one x; have := u_pos; nlinarith)

end

/-- The semi-latus rectum. -/
theorem latus_err {a e K : ℝ} (he : 0 ≤ e) (h1 : 1 + e ≤ K * |1 - e|) (hK : K ≤ 2 ^ 40) :
    Within (3.2 * K * u) (a * (1 - e * e)) (rn (a * rn (1 - rn (e * e)))) := by
  have hu := u_pos
  have hus := u_small
  have hd : 0 ≤ |1 - e| := abs_nonneg _
  have hK1 : 1 ≤ K := by
    by_contra hc
    have : |1 - e| ≤ 1 + e := abs_le.2 ⟨by linarith, by linarith⟩
    rcases hd.eq_or_lt with h | h
    · rw [← h] at h1; linarith
    · have := mul_lt_of_lt_one_left h (not_le.1 hc); linarith
  have hKu : K * u ≤ 1 / 500 := by unfold u; rw [mul_one_div, div_le_div_iff₀ (by positivity) (by norm_num)]; norm_num at hK ⊢; linarith
  have e1 : Within (K * u) (1 - e * e) (1 - rn (e * e)) := by
    unfold Within
    rw [show 1 - rn (e * e) - (1 - e * e) = -(rn (e * e) - e * e) by ring, abs_neg]
    refine (rn_err' _).trans ?_
    rw [abs_of_nonneg (mul_self_nonneg e), show 1 - e * e = (1 - e) * (1 + e) by ring, abs_mul, abs_of_pos (show 0 < 1 + e by linarith)]
    have : e * e ≤ K * |1 - e| * (1 + e) := mul_le_mul (by linarith) (by linarith) he (by positivity)
    nlinarith
  have e2 := (e1.rn (by linarith)).mono (b := 2.05 * (K * u)) (by nlinarith)
  have e3 : Within (2.05 * (K * u)) (a * (1 - e * e)) (a * rn (1 - rn (e * e))) := by
    unfold Within at *
    rw [← mul_sub, abs_mul, abs_mul]
    have := mul_le_mul_of_nonneg_left e2 (abs_nonneg a)
    linarith
  exact (e3.rn (by linarith)).mono (by nlinarith)

/-- The denominator of the conic section. -/
theorem conic_err {e c c' K : ℝ} (he : 0 ≤ e) (hc : |c| ≤ 1) (hc' : |c' - c| ≤ 2 * u) (hK1 : 1 ≤ K) (h2 : 1 + e ≤ K * (1 + e * c)) (hK : K ≤ 2 ^ 40) :
    Within (4.2 * K * u) (1 + e * c) (rn (1 + rn (e * c'))) := by
  have hu := u_pos
  have hus := u_small
  have hKu : K * u ≤ 1 / 500 := by unfold u; rw [mul_one_div, div_le_div_iff₀ (by positivity) (by norm_num)]; norm_num at hK ⊢; linarith
  have hW : 0 < 1 + e * c := by by_contra hn; nlinarith
  have b1 : |c'| ≤ 1.01 := by have := abs_add_le (c' - c) c; rw [sub_add_cancel] at this; linarith
  have r1 := rn_err' (e * c')
  have b2 : |e * c'| ≤ 1.01 * e := by rw [abs_mul, abs_of_nonneg he]; nlinarith
  have b3 : |e * c' - e * c| ≤ 2 * u * e := by rw [← mul_sub, abs_mul, abs_of_nonneg he]; nlinarith
  have e1 : Within (3.1 * K * u) (1 + e * c) (1 + rn (e * c')) := by
    refine Within.of_abs (s := 1 + e * c) (d := 3.1 * u * (1 + e)) ?_ (by nlinarith) (le_abs_self _) (by positivity)
    have := abs_add_le (rn (e * c') - e * c') (e * c' - e * c)
    rw [show 1 + rn (e * c') - (1 + e * c) = rn (e * c') - e * c' + (e * c' - e * c) by ring]
    have := mul_le_mul_of_nonneg_left b2 hu.le
    nlinarith
  exact (e1.rn (by linarith)).mono (by nlinarith)

/-- A product with a cosine or sine. -/
theorem polar_err {r r' c c' ε : ℝ} (h : Within ε r r') (h0 : u ≤ ε) (hε : ε ≤ 1 / 100) (hc : |c| ≤ 1) (hc' : |c' - c| ≤ 4 * u) :
    |rn (r' * c') - r * c| ≤ (1.01 * ε + 5.1 * u) * |r| := by
  have hu := u_pos
  have hus := u_small
  have b1 : |c'| ≤ 1.0001 := by have := abs_add_le (c' - c) c; rw [sub_add_cancel] at this; linarith
  have hr := h.le_abs
  have r0 := abs_nonneg r
  have hr2 : |r'| ≤ 1.01 * |r| := hr.trans (by nlinarith)
  have r1 := rn_err' (r' * c')
  rw [abs_mul] at r1
  have p1 : |r'| * |c'| ≤ 1.01 * |r| * 1.0001 := mul_le_mul hr2 b1 (abs_nonneg _) (by positivity)
  have p2 : |(r' - r) * c'| ≤ ε * |r| * 1.0001 := by rw [abs_mul]; exact mul_le_mul h b1 (abs_nonneg _) (by have := hu.le.trans h0; positivity)
  have p3 : |r * (c' - c)| ≤ |r| * (4 * u) := by rw [abs_mul]; exact mul_le_mul_of_nonneg_left hc' r0
  have t := abs_add_three (rn (r' * c') - r' * c') ((r' - r) * c') (r * (c' - c))
  rw [show rn (r' * c') - r' * c' + (r' - r) * c' + r * (c' - c) = rn (r' * c') - r * c by ring] at t
  have := mul_le_mul_of_nonneg_left p1 hu.le
  have := mul_nonneg (hu.le.trans h0) r0
  nlinarith

/-! ## The rotation -/

/-- A product of numbers of magnitude at most one. -/
theorem prod1_err {x y z w j k : ℝ} (hx : |x| ≤ 1) (hz : |z| ≤ 1) (hj : j ≤ 20) (hk : k ≤ 20) (h : |y - x| ≤ j * u) (g : |w - z| ≤ k * u) :
    |rn (y * w) - x * z| ≤ (j + k + 1.1) * u := by
  have hu := u_pos
  have hus := u_small
  have j0 : 0 ≤ j * u := (abs_nonneg _).trans h
  have k0 : 0 ≤ k * u := (abs_nonneg _).trans g
  have hj' : j * u ≤ 1 / 10 ^ 10 := by nlinarith
  have hk' : k * u ≤ 1 / 10 ^ 10 := by nlinarith
  have b1 : |w| ≤ 1 + 1 / 10 ^ 10 := by have := abs_add_le (w - z) z; rw [sub_add_cancel] at this; linarith
  have b2 : |y| ≤ 1 + 1 / 10 ^ 10 := by have := abs_add_le (y - x) x; rw [sub_add_cancel] at this; linarith
  have r := rn_err' (y * w)
  rw [abs_mul] at r
  have p1 : |y| * |w| ≤ (1 + 1 / 10 ^ 10) * (1 + 1 / 10 ^ 10) := mul_le_mul b2 b1 (abs_nonneg _) (by norm_num)
  have p2 : |(y - x) * w| ≤ j * u * (1 + 1 / 10 ^ 10) := by rw [abs_mul]; exact mul_le_mul h b1 (abs_nonneg _) j0
  have p3 : |x * (w - z)| ≤ 1 * (k * u) := by rw [abs_mul]; exact mul_le_mul hx g (abs_nonneg _) zero_le_one
  have t := abs_add_three (rn (y * w) - y * w) ((y - x) * w) (x * (w - z))
  rw [show rn (y * w) - y * w + (y - x) * w + x * (w - z) = rn (y * w) - x * z by ring] at t
  have := mul_le_mul_of_nonneg_left p1 hu.le
  nlinarith

/-- A sum of magnitude at most one. -/
theorem sum1_err {x y z w j k : ℝ} (hxz : |x + z| ≤ 1) (hj : j ≤ 20) (hk : k ≤ 20) (h : |y - x| ≤ j * u) (g : |w - z| ≤ k * u) :
    |rn (y + w) - (x + z)| ≤ (j + k + 1.1) * u := by
  have hu := u_pos
  have hus := u_small
  have e := abs_add_le (y - x) (w - z)
  rw [show y - x + (w - z) = y + w - (x + z) by ring] at e
  have b := abs_add_le (y + w - (x + z)) (x + z)
  rw [sub_add_cancel] at b
  have r := rn_err' (y + w)
  have b' : |y + w| ≤ 1.01 := by nlinarith
  have t := abs_add_le (rn (y + w) - (y + w)) (y + w - (x + z))
  rw [sub_add_sub_cancel] at t
  have := mul_le_mul_of_nonneg_left b' hu.le
  linarith

/-- What is known of a row of the rotation matrix. -/
structure RowOk (R : V3 ℝ) (P Q : ℝ) : Prop where
  x : |R.x - P| ≤ 18.4 * u
  y : |R.y - Q| ≤ 18.4 * u
  norm : V3.norm R ≤ 1.75
  unit : P * P + Q * Q ≤ 1

theorem RowOk.mk' {R : V3 ℝ} {P Q W : ℝ} (h : P * P + Q * Q + W * W = 1) (hx : |R.x - P| ≤ 18.4 * u) (hy : |R.y - Q| ≤ 18.4 * u)
    (hz : |R.z - W| ≤ 18.4 * u) : RowOk R P Q := by
  have hus := u_small
  have hp : |P| ≤ 1 := abs_le_of_sq_le_sq (by nlinarith [mul_self_nonneg Q, mul_self_nonneg W]) zero_le_one
  have hq : |Q| ≤ 1 := abs_le_of_sq_le_sq (by nlinarith [mul_self_nonneg P, mul_self_nonneg W]) zero_le_one
  have hw : |W| ≤ 1 := abs_le_of_sq_le_sq (by nlinarith [mul_self_nonneg Q, mul_self_nonneg P]) zero_le_one
  refine ⟨hx, hy, ?_, by nlinarith [mul_self_nonneg W]⟩
  have a1 := abs_add_le (R.x - P) P
  have a2 := abs_add_le (R.y - Q) Q
  have a3 := abs_add_le (R.z - W) W
  rw [sub_add_cancel] at a1 a2 a3
  have := norm_le_of_comp (v := R) (m := 1.001) (by norm_num) (by linarith) (by linarith) (by linarith)
  linarith

section
variable {A : Libm} (hA : A.Double)
include hA

/-- The rotation matrix is accurate to 18.4 units. -/
theorem rot_err (i Om om : ℝ) : RowOk (rotD A i Om om).x (colP i Om om).x (colQ i Om om).x ∧
    RowOk (rotD A i Om om).y (colP i Om om).y (colQ i Om om).y ∧ RowOk (rotD A i Om om).z (colP i Om om).z (colQ i Om om).z := by
  have hu := u_pos
  have co := cos_err hA Om
  have cp := cos_err hA om
  have ci := cos_err hA i
  have so := sin_err hA Om
  have sp := sin_err hA om
  have si := sin_err hA i
  have lco := Real.abs_cos_le_one Om
  have lcp := Real.abs_cos_le_one om
  have lci := Real.abs_cos_le_one i
  have lso := Real.abs_sin_le_one Om
  have lsp := Real.abs_sin_le_one om
  have lsi := Real.abs_sin_le_one i
  have q1 := Real.sin_sq_add_cos_sq i
  have q2 := Real.sin_sq_add_cos_sq Om
  have q3 := Real.sin_sq_add_cos_sq om
  have nco : |-A.cos Om - -cos Om| ≤ 2 * u := by rw [show -A.cos Om - -cos Om = -(A.cos Om - cos Om) by ring, abs_neg]; exact co
  have nso : |-A.sin Om - -sin Om| ≤ 4 * u := by rw [show -A.sin Om - -sin Om = -(A.sin Om - sin Om) by ring, abs_neg]; exact so
  have lnco : |-cos Om| ≤ 1 := by rwa [abs_neg]
  have lnso : |-sin Om| ≤ 1 := by rwa [abs_neg]
  have m1 : ∀ {a b : ℝ}, |a| ≤ 1 → |b| ≤ 1 → |a * b| ≤ 1 := fun ha hb => by rw [abs_mul]; exact mul_le_one₀ ha (abs_nonneg _) hb
  have neg : ∀ {a b k : ℝ}, |a - b| ≤ k → |-a - -b| ≤ k := fun {a b k} h => by
    rw [show -a - -b = -(a - b) by ring, abs_neg]; exact h
  have weak : ∀ {a k : ℝ}, |a| ≤ k * u → k ≤ 18.4 → |a| ≤ 18.4 * u := fun h hk => h.trans (mul_le_mul_of_nonneg_right hk hu.le)
  have u1 : ∀ {P Q W : ℝ}, P * P + Q * Q + W * W = 1 → |P| ≤ 1 ∧ |Q| ≤ 1 := fun {P Q W} h =>
    ⟨abs_le_of_sq_le_sq (by nlinarith [mul_self_nonneg Q, mul_self_nonneg W]) zero_le_one,
      abs_le_of_sq_le_sq (by nlinarith [mul_self_nonneg P, mul_self_nonneg W]) zero_le_one⟩
  have ux : (colP i Om om).x * (colP i Om om).x + (colQ i Om om).x * (colQ i Om om).x + sin Om * sin i * (sin Om * sin i) = 1 := by
    simp only [colP, colQ]
    linear_combination (cos Om ^ 2 + sin Om ^ 2 * cos i ^ 2) * q3 + sin Om ^ 2 * q1 + q2
  have uy : (colP i Om om).y * (colP i Om om).y + (colQ i Om om).y * (colQ i Om om).y + -cos Om * sin i * (-cos Om * sin i) = 1 := by
    simp only [colP, colQ]
    linear_combination (sin Om ^ 2 + cos Om ^ 2 * cos i ^ 2) * q3 + cos Om ^ 2 * q1 + q2
  have uz : (colP i Om om).z * (colP i Om om).z + (colQ i Om om).z * (colQ i Om om).z + cos i * cos i = 1 := by
    simp only [colP, colQ]
    linear_combination sin i ^ 2 * q3 + q1
  refine ⟨RowOk.mk' ux ?_ ?_ ?_, RowOk.mk' uy ?_ ?_ ?_, RowOk.mk' uz ?_ ?_ ?_⟩ <;> simp only [rotD, hA.arith.rd]
  · have a := prod1_err lco lcp (by norm_num) (by norm_num) co cp
    have b := prod1_err lso lsp (by norm_num) (by norm_num) so sp
    have c := prod1_err (m1 lso lsp) lci (by norm_num) (by norm_num) b ci
    have := sum1_err (x := cos Om * cos om) (z := -(sin Om * sin om * cos i)) (by rw [← sub_eq_add_neg]; exact (u1 ux).1) (by norm_num) (by norm_num) a (neg c)
    rw [← sub_eq_add_neg, ← sub_eq_add_neg] at this
    exact weak this (by norm_num)
  · have a := prod1_err lnco lsp (by norm_num) (by norm_num) nco sp
    have b := prod1_err lso lcp (by norm_num) (by norm_num) so cp
    have c := prod1_err (m1 lso lcp) lci (by norm_num) (by norm_num) b ci
    have := sum1_err (x := -cos Om * sin om) (z := -(sin Om * cos om * cos i)) (by rw [← sub_eq_add_neg]; exact (u1 ux).2) (by norm_num) (by norm_num) a (neg c)
    rw [← sub_eq_add_neg, ← sub_eq_add_neg] at this
    exact weak this (by norm_num)
  · exact weak (prod1_err lso lsi (by norm_num) (by norm_num) so si) (by norm_num)
  · have a := prod1_err lso lcp (by norm_num) (by norm_num) so cp
    have b := prod1_err lco lsp (by norm_num) (by norm_num) co sp
    have c := prod1_err (m1 lco lsp) lci (by norm_num) (by norm_num) b ci
    exact weak (sum1_err (u1 uy).1 (by norm_num) (by norm_num) a c) (by norm_num)
  · have a := prod1_err lnso lsp (by norm_num) (by norm_num) nso sp
    have b := prod1_err lco lcp (by norm_num) (by norm_num) co cp
    have c := prod1_err (m1 lco lcp) lci (by norm_num) (by norm_num) b ci
    exact weak (sum1_err (u1 uy).2 (by norm_num) (by norm_num) a c) (by norm_num)
  · exact weak (prod1_err lnco lsi (by norm_num) (by norm_num) nco si) (by norm_num)
  · exact weak (prod1_err lsp lsi (by norm_num) (by norm_num) sp si) (by norm_num)
  · exact weak (prod1_err lcp lsi (by norm_num) (by norm_num) cp si) (by norm_num)
  · exact weak ci (by norm_num)

end

/-- A component of the rotated vector. -/
theorem row_err {B : Blas} (hB : B.Ok) {R : V3 ℝ} {P Q x y x' y' ρ d : ℝ} (h : RowOk R P Q) (hρ : 0 ≤ ρ) (hx : |x| ≤ ρ) (hy : |y| ≤ ρ)
    (d0 : 0 ≤ d) (hd : d ≤ 1 / 50) (dx : |x' - x| ≤ d * ρ) (dy : |y' - y| ≤ d * ρ) :
    |B.dot R ⟨x', y', 0⟩ - (P * x + Q * y)| ≤ (1.42 * d + 50.5 * u) * ρ := by
  have hu := u_pos
  have ax : |x'| ≤ 1.02 * ρ := by have := abs_add_le (x' - x) x; rw [sub_add_cancel] at this; nlinarith
  have ay : |y'| ≤ 1.02 * ρ := by have := abs_add_le (y' - y) y; rw [sub_add_cancel] at this; nlinarith
  have nv : V3.norm (⟨x', y', 0⟩ : V3 ℝ) ≤ 1.74 * (1.02 * ρ) := norm_le_of_comp (by positivity) ax ay (by simp; positivity)
  have b := hB.dot R ⟨x', y', 0⟩
  have b2 : V3.norm R * V3.norm (⟨x', y', 0⟩ : V3 ℝ) ≤ 1.75 * (1.74 * (1.02 * ρ)) := mul_le_mul h.norm nv (norm_nonneg _) (by norm_num)
  have b3 := b.trans (mul_le_mul_of_nonneg_left b2 (by positivity))
  have p1 : |(R.x - P) * x'| ≤ 18.4 * u * (1.02 * ρ) := by rw [abs_mul]; exact mul_le_mul h.x ax (abs_nonneg _) (by positivity)
  have p2 : |(R.y - Q) * y'| ≤ 18.4 * u * (1.02 * ρ) := by rw [abs_mul]; exact mul_le_mul h.y ay (abs_nonneg _) (by positivity)
  have p3 : |P * (x' - x)| ≤ |P| * (d * ρ) := by rw [abs_mul]; exact mul_le_mul_of_nonneg_left dx (abs_nonneg _)
  have p4 : |Q * (y' - y)| ≤ |Q| * (d * ρ) := by rw [abs_mul]; exact mul_le_mul_of_nonneg_left dy (abs_nonneg _)
  have pq : |P| + |Q| ≤ 1.42 := by
    refine (abs_le_of_sq_le_sq' (a := |P| + |Q|) (b := 1.42) ?_ (by norm_num)).2
    have := h.unit
    rw [← abs_mul_abs_self P, ← abs_mul_abs_self Q] at this
    nlinarith [sq_nonneg (|P| - |Q|)]
  have p5 : (|P| + |Q|) * (d * ρ) ≤ 1.42 * (d * ρ) := mul_le_mul_of_nonneg_right pq (by positivity)
  have e : B.dot R ⟨x', y', 0⟩ - (P * x + Q * y) =
      (B.dot R ⟨x', y', 0⟩ - V3.dot R ⟨x', y', 0⟩) + ((R.x - P) * x' + (R.y - Q) * y') + (P * (x' - x) + Q * (y' - y)) := by
    simp only [V3.dot]; ring
  rw [e]
  refine (abs_add_three _ _ _).trans ?_
  have t1 := abs_add_le ((R.x - P) * x') ((R.y - Q) * y')
  have t2 := abs_add_le (P * (x' - x)) (Q * (y' - y))
  have := mul_nonneg hu.le hρ
  nlinarith

/-- The rotated vector. -/
theorem mul_err {B : Blas} (hB : B.Ok) {A : Libm} (hA : A.Double) (i Om om : ℝ) {x y x' y' ρ d : ℝ} (hρ : 0 ≤ ρ) (hx : |x| ≤ ρ) (hy : |y| ≤ ρ)
    (d0 : 0 ≤ d) (hd : d ≤ 1 / 50) (dx : |x' - x| ≤ d * ρ) (dy : |y' - y| ≤ d * ρ) :
    V3.norm ((rotD A i Om om).mul B ⟨x', y', 0⟩ - (⟨(colP i Om om).x * x + (colQ i Om om).x * y, (colP i Om om).y * x + (colQ i Om om).y * y,
      (colP i Om om).z * x + (colQ i Om om).z * y⟩ : V3 ℝ)) ≤ (2.5 * d + 88 * u) * ρ := by
  have hu := u_pos
  obtain ⟨r1, r2, r3⟩ := rot_err hA i Om om
  have := norm_le_of_comp (v := (rotD A i Om om).mul B ⟨x', y', 0⟩ - (⟨(colP i Om om).x * x + (colQ i Om om).x * y,
    (colP i Om om).y * x + (colQ i Om om).y * y, (colP i Om om).z * x + (colQ i Om om).z * y⟩ : V3 ℝ)) (m := (1.42 * d + 50.5 * u) * ρ) (by positivity)
    (row_err hB r1 hρ hx hy d0 hd dx dy) (row_err hB r2 hρ hx hy d0 hd dx dy) (row_err hB r3 hρ hx hy d0 hd dx dy)
  refine this.trans ?_
  have := mul_nonneg d0 hρ
  have := mul_nonneg hu.le hρ
  nlinarith

/-- The length of a vector given in the perifocal frame. -/
theorem frame_norm (i Om om x y : ℝ) : V3.norm (⟨(colP i Om om).x * x + (colQ i Om om).x * y, (colP i Om om).y * x + (colQ i Om om).y * y,
      (colP i Om om).z * x + (colQ i Om om).z * y⟩ : V3 ℝ) = √(x * x + y * y) := by
  have h1 := colP_sq (i := i) (Om := Om) (om := om)
  have h2 := colQ_sq (i := i) (Om := Om) (om := om)
  have h3 := colPQ (i := i) (Om := Om) (om := om)
  unfold V3.norm
  congr 1
  simp only [V3.dot] at *
  linear_combination x ^ 2 * h1 + y ^ 2 * h2 + 2 * x * y * h3

/-- The component of the velocity along the second axis. -/
theorem vel_err {m m' e c c' K s : ℝ} (hm : 0 < m) (em : Within (6.7 * K * u) m m') (hKu : K * u ≤ 1 / 8000) (hKu0 : u ≤ K * u) (hc' : |c' - c| ≤ 2 * u)
    (he : 0 ≤ e) (hc : c ≤ 1) (s2 : |e + c| ≤ s) (s4 : 1 + e ≤ K * s) :
    |rn (m' * rn (e + c')) - m * (e + c)| ≤ 12 * (K * u) * (m * s) := by
  have hu := u_pos
  have hus := u_small
  have s0 : 0 ≤ s := (abs_nonneg _).trans s2
  have g1 : |rn (e + c') - (e + c)| ≤ 3.1 * (u * (K * s)) := by
    have a1 := rn_err' (e + c')
    have a2 := abs_add_le (c' - c) (e + c)
    rw [show c' - c + (e + c) = e + c' by ring] at a2
    have a3 := abs_add_le (rn (e + c') - (e + c')) (c' - c)
    rw [show rn (e + c') - (e + c') + (c' - c) = rn (e + c') - (e + c) by ring] at a3
    have a4 : |e + c| ≤ K * s := by
      refine s2.trans ?_
      have : 1 ≤ K := by by_contra hn; nlinarith
      nlinarith
    have a5 : |e + c'| ≤ 1.05 * (K * s) := by nlinarith
    have := mul_le_mul_of_nonneg_left a5 hu.le
    nlinarith
  set g := e + c with hg
  set g' := rn (e + c') with hg'
  have ht0 : 0 ≤ K * u * s := by have := hu.le.trans hKu0; positivity
  have g2 : |g'| ≤ 1.001 * s := by
    have := abs_add_le (g' - g) g
    rw [sub_add_cancel] at this
    nlinarith
  have em' : |m' - m| ≤ 6.7 * K * u * m := by unfold Within at em; rwa [abs_of_pos hm] at em
  have m1 : |m'| ≤ 1.001 * m := by
    have := abs_add_le (m' - m) m
    rw [sub_add_cancel, abs_of_pos hm] at this
    nlinarith
  have p1 : |m' * g'| ≤ 1.001 * m * (1.001 * s) := by rw [abs_mul]; exact mul_le_mul m1 g2 (abs_nonneg _) (by positivity)
  have p2 : |(m' - m) * g'| ≤ 6.7 * K * u * m * (1.001 * s) := by
    rw [abs_mul]; exact mul_le_mul em' g2 (abs_nonneg _) ((abs_nonneg _).trans em')
  have p3 : |m * (g' - g)| ≤ m * (3.1 * (u * (K * s))) := by rw [abs_mul, abs_of_pos hm]; exact mul_le_mul_of_nonneg_left g1 hm.le
  have r := (rn_err' (m' * g')).trans (mul_le_mul_of_nonneg_left p1 hu.le)
  have t := abs_add_three (rn (m' * g') - m' * g') ((m' - m) * g') (m * (g' - g))
  rw [show rn (m' * g') - m' * g' + (m' - m) * g' + m * (g' - g) = rn (m' * g') - m * g by ring] at t
  have w1 : u * (m * s) ≤ K * u * (m * s) := mul_le_mul_of_nonneg_right hKu0 (by positivity)
  have w2 : 0 ≤ K * u * (m * s) := le_trans (by positivity) w1
  nlinarith

/-- A vector given in the perifocal frame. -/
noncomputable def inFrame (i Om om x y : ℝ) : V3 ℝ := ⟨(colP i Om om).x * x + (colQ i Om om).x * y, (colP i Om om).y * x + (colQ i Om om).y * y,
  (colP i Om om).z * x + (colQ i Om om).z * y⟩

/-- The state of `par2ic`. -/
theorem par2ic_frame {a e i Om om f mu : ℝ} (hmu : 0 < mu) (ha : 0 < a * (1 - e)) (hP : 0 < a * (1 - e * e)) (hW : 0 < 1 + e * cos f) :
    par2ic ⟨a, e, i, Om, om, f⟩ mu = .ok (some
      ⟨inFrame i Om om (a * (1 - e * e) / (1 + e * cos f) * cos f) (a * (1 - e * e) / (1 + e * cos f) * sin f),
       inFrame i Om om (-(mu / √(a * (1 - e * e) * mu)) * sin f) (mu / √(a * (1 - e * e) * mu) * (e + cos f))⟩) := by
  have hPm : 0 < a * (1 - e * e) * mu := by positivity
  unfold par2ic
  dsimp only
  rw [if_neg (not_lt.2 ha.le), if_neg, div?_ok hW.ne', sqrt?_ok hPm.le]
  · simp only [Option.bind_eq_bind, Option.bind_some, div?_ok (sqrt_pos.2 hPm).ne', Option.pure_def, inFrame]
  · rintro ⟨g1, g2⟩
    rw [lt_div_iff₀ (by linarith)] at g2
    linarith

/-- The state of `par2icD`. -/
theorem par2icD_run {A : Libm} (hA : A.Double) (B : Blas) {a e i Om om f mu P W h : ℝ} (hmu : 0 < mu) (ha : 0 < a * (1 - e))
    (hn : ¬(1 < e ∧ A.cos f < rn (-1 / e))) (hP : rn (a * rn (1 - rn (e * e))) = P) (hW : rn (1 + rn (e * A.cos f)) = W)
    (hh : rn √(rn (P * mu)) = h) (P0 : 0 < P) (W0 : 0 < W) (h0 : 0 < h) :
    par2icD A B ⟨a, e, i, Om, om, f⟩ mu = .ok (some ⟨(rotD A i Om om).mul B ⟨rn (rn (P / W) * A.cos f), rn (rn (P / W) * A.sin f), 0⟩,
      (rotD A i Om om).mul B ⟨rn (-rn (mu / h) * A.sin f), rn (rn (mu / h) * rn (e + A.cos f)), 0⟩⟩) := by
  unfold par2icD
  dsimp only
  rw [hA.arith.rd, if_neg, if_neg hn]
  · congr 1
    unfold perifocalD Arith.div? Arith.sqrt?
    simp only [hA.arith.rd, hP, hW, div?_ok W0.ne', Option.map_some, Option.bind_eq_bind, Option.bind_some,
      sqrt?_ok (rn_nonneg (show 0 ≤ P * mu by positivity)), hh, div?_ok h0.ne', Option.pure_def]
  · rw [not_lt]
    rcases lt_or_gt_of_ne (show 1 - e ≠ 0 by intro h; rw [h, mul_zero] at ha; exact lt_irrefl _ ha) with g | g
    · have ha' : a < 0 := by by_contra hn; nlinarith
      have : rn (1 - e) ≤ 0 := by have := rn_mono g.le; rwa [rn_zero] at this
      exact rn_nonneg (mul_nonneg_of_nonpos_of_nonpos ha'.le this)
    · have ha' : 0 < a := by by_contra hn; nlinarith
      exact rn_nonneg (mul_nonneg ha'.le (rn_nonneg g.le))

/-- Not beyond the asymptotes. -/
theorem no_asymptote {A : Libm} (hA : A.Double) {e f K : ℝ} (hK0 : 0 ≤ K) (hKu : K * u ≤ 1 / 8000) (h2 : 1 + e ≤ K * (1 + e * cos f)) :
    ¬(1 < e ∧ A.cos f < rn (-1 / e)) := by
  rintro ⟨g1, g2⟩
  have hu := u_pos
  have c1 := (abs_le.1 (cos_err hA f)).1
  have c2 := (abs_le.1 (rn_err' (-1 / e))).2
  have hi : 0 < e⁻¹ := inv_pos.2 (by linarith)
  have hi1 : e⁻¹ ≤ 1 := inv_le_one_of_one_le₀ g1.le
  rw [show -1 / e = -e⁻¹ by rw [neg_div, one_div], abs_neg, abs_of_pos hi] at c2
  rw [show -1 / e = -e⁻¹ by rw [neg_div, one_div]] at g2
  have hup : cos f < -e⁻¹ + 3 * u := by nlinarith
  have hW2 : 1 + e * cos f ≤ 3 * u * e := by
    have := mul_lt_mul_of_pos_left hup (show 0 < e by linarith)
    rw [mul_add, mul_neg, mul_inv_cancel₀ (by linarith)] at this
    linarith
  have := mul_le_mul_of_nonneg_left hW2 hK0
  nlinarith

/-- The position. -/
theorem posD_err {A : Libm} (hA : A.Double) {B : Blas} (hB : B.Ok) (i Om om : ℝ) {f r r' K : ℝ} (hr0 : 0 < r) (hKu : K * u ≤ 1 / 8000)
    (hKu0 : u ≤ K * u) (er : Within (8.7 * K * u) r r') :
    V3.norm ((rotD A i Om om).mul B ⟨rn (r' * A.cos f), rn (r' * A.sin f), 0⟩ - inFrame i Om om (r * cos f) (r * sin f)) ≤
      125 * K * u * V3.norm (inFrame i Om om (r * cos f) (r * sin f)) := by
  have hu := u_pos
  have hc := Real.abs_cos_le_one f
  have hs := Real.abs_sin_le_one f
  have hcs := Real.sin_sq_add_cos_sq f
  have n0 : V3.norm (inFrame i Om om (r * cos f) (r * sin f)) = r := by
    unfold inFrame
    rw [frame_norm, show r * cos f * (r * cos f) + r * sin f * (r * sin f) = r ^ 2 by linear_combination r ^ 2 * hcs, sqrt_sq hr0.le]
  have dx := polar_err er (by linarith) (by linarith) hc ((cos_err hA f).trans (by linarith))
  have dy := polar_err er (by linarith) (by linarith) hs (sin_err hA f)
  rw [abs_of_pos hr0] at dx dy
  have := mul_err hB hA i Om om hr0.le (x := r * cos f) (y := r * sin f) (by rw [abs_mul, abs_of_pos hr0]; nlinarith)
    (by rw [abs_mul, abs_of_pos hr0]; nlinarith) (by linarith) (by linarith) dx dy
  rw [n0]
  refine this.trans (mul_le_mul_of_nonneg_right ?_ hr0.le)
  linarith

/-- The velocity. -/
theorem velD_err {A : Libm} (hA : A.Double) {B : Blas} (hB : B.Ok) (i Om om : ℝ) {e f m m' K : ℝ} (he : 0 ≤ e) (hm0 : 0 < m) (hK0 : 0 ≤ K)
    (hKu : K * u ≤ 1 / 8000) (hKu0 : u ≤ K * u) (h1 : 1 + e ≤ K * |1 - e|) (em : Within (6.7 * K * u) m m') :
    V3.norm ((rotD A i Om om).mul B ⟨rn (-m' * A.sin f), rn (m' * rn (e + A.cos f)), 0⟩ - inFrame i Om om (-m * sin f) (m * (e + cos f))) ≤
      125 * K * u * V3.norm (inFrame i Om om (-m * sin f) (m * (e + cos f))) := by
  have hu := u_pos
  have hc := Real.abs_cos_le_one f
  have hcs := Real.sin_sq_add_cos_sq f
  have n0 : V3.norm (inFrame i Om om (-m * sin f) (m * (e + cos f))) = m * √(sin f ^ 2 + (e + cos f) ^ 2) := by
    unfold inFrame
    rw [frame_norm, show -m * sin f * (-m * sin f) + m * (e + cos f) * (m * (e + cos f)) = m ^ 2 * (sin f ^ 2 + (e + cos f) ^ 2) by ring,
      sqrt_mul (sq_nonneg _), sqrt_sq hm0.le]
  have ss : √(sin f ^ 2 + (e + cos f) ^ 2) * √(sin f ^ 2 + (e + cos f) ^ 2) = sin f ^ 2 + (e + cos f) ^ 2 := mul_self_sqrt (by positivity)
  have s0 : 0 ≤ √(sin f ^ 2 + (e + cos f) ^ 2) := sqrt_nonneg _
  generalize √(sin f ^ 2 + (e + cos f) ^ 2) = s at *
  have s1 : |sin f| ≤ s := abs_le_of_sq_le_sq (by nlinarith [sq_nonneg (e + cos f)]) s0
  have s2 : |e + cos f| ≤ s := abs_le_of_sq_le_sq (by nlinarith [sq_nonneg (sin f)]) s0
  have s3 : |1 - e| ≤ s := abs_le_of_sq_le_sq (by nlinarith [abs_le.1 hc]) s0
  have s4 : 1 + e ≤ K * s := h1.trans (mul_le_mul_of_nonneg_left s3 hK0)
  have V0 : 0 ≤ m * s := by positivity
  have dx : |rn (-m' * A.sin f) - -m * sin f| ≤ 12 * (K * u) * (m * s) := by
    have e1 : Within (6.7 * K * u) (-m) (-m') := by
      unfold Within at *
      rw [abs_neg, show -m' - -m = -(m' - m) by ring, abs_neg]; exact em
    have e2 : Within (4 * u) (sin f) (A.sin f) := hA.sin f
    have e3 := ((e1.mul e2 (by linarith)).rn (by linarith)).mono (b := 12 * (K * u)) (by linarith)
    refine le_trans e3 (mul_le_mul_of_nonneg_left ?_ (by positivity))
    rw [abs_mul, abs_neg, abs_of_pos hm0]
    exact mul_le_mul_of_nonneg_left s1 hm0.le
  have dy : |rn (m' * rn (e + A.cos f)) - m * (e + cos f)| ≤ 12 * (K * u) * (m * s) :=
    vel_err hm0 em hKu hKu0 (cos_err hA f) he (abs_le.1 hc).2 s2 s4
  have := mul_err hB hA i Om om V0 (x := -m * sin f) (y := m * (e + cos f)) (by rw [abs_mul, abs_neg, abs_of_pos hm0]; exact mul_le_mul_of_nonneg_left s1 hm0.le)
    (by rw [abs_mul, abs_of_pos hm0]; exact mul_le_mul_of_nonneg_left s2 hm0.le) (by positivity) (by linarith) dx dy
  rw [n0]
  refine this.trans (mul_le_mul_of_nonneg_right ?_ V0)
  linarith

/-- **C92.** For ellipses and hyperbolae, with `K` a bound for `(1 + e) / |1 - e|` and for `(1 + e) / (1 + e cos f)`: the state is a number, and
its position and velocity are accurate to `125 K` units of `2⁻⁵³`, relative to their lengths. -/
theorem C92_accurate {A : Libm} (hA : A.Double) {B : Blas} (hB : B.Ok) {q : Par} {mu K : ℝ} (hmu : 0 < mu) (he : 0 ≤ q.e)
    (ha : 0 < q.a * (1 - q.e)) (h1 : 1 + q.e ≤ K * |1 - q.e|) (h2 : 1 + q.e ≤ K * (1 + q.e * cos q.f)) (hK : K ≤ 2 ^ 40) :
    ∃ x y, par2ic q mu = .ok (some x) ∧ par2icD A B q mu = .ok (some y) ∧
      norm (y.r - x.r) ≤ 125 * K * (1 / 2 ^ 53) * norm x.r ∧ norm (y.v - x.v) ≤ 125 * K * (1 / 2 ^ 53) * norm x.v := by
  obtain ⟨a, e, i, Om, om, f⟩ := q
  dsimp only at *
  change ∃ x y : RV ℝ, _ ∧ _ ∧ V3.norm (y.r - x.r) ≤ 125 * K * u * V3.norm x.r ∧ V3.norm (y.v - x.v) ≤ 125 * K * u * V3.norm x.v
  have hu := u_pos
  have hd0 : 0 ≤ |1 - e| := abs_nonneg _
  have hK1 : 1 ≤ K := by
    by_contra hc
    have : |1 - e| ≤ 1 + e := abs_le.2 ⟨by linarith, by linarith⟩
    rcases hd0.eq_or_lt with h | h
    · rw [← h] at h1; linarith
    · have := mul_lt_of_lt_one_left h (not_le.1 hc); linarith
  have hKu : K * u ≤ 1 / 8000 := by unfold u; rw [mul_one_div, div_le_div_iff₀ (by positivity) (by norm_num)]; norm_num at hK ⊢; linarith
  have hKu0 : u ≤ K * u := le_mul_of_one_le_left hu.le hK1
  have hW : 0 < 1 + e * cos f := by by_contra hn; nlinarith
  have hP : 0 < a * (1 - e * e) := by
    rw [show a * (1 - e * e) = a * (1 - e) * (1 + e) by ring]; positivity
  have hPm : 0 < a * (1 - e * e) * mu := by positivity
  have h0 : 0 < √(a * (1 - e * e) * mu) := sqrt_pos.2 hPm
  have eP := latus_err (a := a) he h1 hK
  have eW := conic_err he (Real.abs_cos_le_one f) (cos_err hA f) hK1 h2 hK
  have P0 := eP.pos (by linarith) hP
  have W0 := eW.pos (by linarith) hW
  have hx := par2ic_frame (i := i) (Om := Om) (om := om) hmu ha hP hW
  have hm : Within 0 mu mu := by unfold Within; simp
  have eh := (((((eP.mul hm (by linarith)).rn (by linarith)).sqrt (by nlinarith) (by linarith) hPm).rn (by linarith))).mono (b := 5.4 * K * u) (by linarith)
  have hh0 := eh.pos (by linarith) h0
  have hy := par2icD_run hA B (i := i) (Om := Om) (om := om) hmu ha (no_asymptote hA (by linarith) hKu h2) rfl rfl rfl P0 W0 hh0
  refine ⟨_, _, hx, hy, ?_, ?_⟩
  · refine posD_err hA hB i Om om (div_pos hP hW) hKu hKu0 ?_
    have := (eP.mul (eW.inv (by positivity) (by linarith) hW) (by linarith)).rn (by linarith)
    rw [div_eq_mul_inv, div_eq_mul_inv]
    exact this.mono (by linarith)
  · refine velD_err hA hB i Om om he (div_pos hmu h0) (by linarith) hKu hKu0 h1 ?_
    have := (hm.mul (eh.inv (by positivity) (by linarith) h0) (by norm_num)).rn (by linarith)
    rw [div_eq_mul_inv, div_eq_mul_inv]
    exact this.mono (by linarith)

/-- **C92, ellipses**: the state is accurate to `125 (1 + e) / (1 - e)` units, for all angles. -/
theorem C92_ellipse {A : Libm} (hA : A.Double) {B : Blas} (hB : B.Ok) {q : Par} {mu : ℝ} (hmu : 0 < mu) (he : 0 ≤ q.e) (he1 : q.e ≤ 1 - 1 / 2 ^ 39)
    (ha : 0 < q.a) :
    ∃ x y, par2ic q mu = .ok (some x) ∧ par2icD A B q mu = .ok (some y) ∧
      norm (y.r - x.r) ≤ 125 * ((1 + q.e) / (1 - q.e)) * (1 / 2 ^ 53) * norm x.r ∧
      norm (y.v - x.v) ≤ 125 * ((1 + q.e) / (1 - q.e)) * (1 / 2 ^ 53) * norm x.v := by
  have h1 : 0 < 1 - q.e := lt_of_lt_of_le (by positivity) (show 1 / 2 ^ 39 ≤ 1 - q.e by linarith)
  have hk : 0 ≤ (1 + q.e) / (1 - q.e) := by positivity
  have hc : 1 - q.e ≤ 1 + q.e * cos q.f := by nlinarith [neg_one_le_cos q.f]
  have e1 : (1 + q.e) / (1 - q.e) * (1 - q.e) = 1 + q.e := div_mul_cancel₀ _ h1.ne'
  refine C92_accurate hA hB hmu he (mul_pos ha h1) (by rw [abs_of_pos h1, e1]) (e1.symm.le.trans (mul_le_mul_of_nonneg_left hc hk)) ?_
  rw [div_le_iff₀ h1]
  norm_num at he1 ⊢
  linarith

/-- The hypotheses are met by an orbit of eccentricity 1/2, for which the states are accurate to 375 units. -/
example : ∃ x y, par2ic ⟨2, 1 / 2, 1, 2, 3, 4⟩ 1 = .ok (some x) ∧ par2icD Libm.rounded (Blas.naive Arith.rounded) ⟨2, 1 / 2, 1, 2, 3, 4⟩ 1 = .ok (some y) ∧
    norm (y.r - x.r) ≤ 375 * (1 / 2 ^ 53) * norm x.r := by
  obtain ⟨x, y, h1, h2, h3, -⟩ := C92_ellipse Libm.rounded_double (Blas.naive_ok Arith.rounded_double) (q := ⟨2, 1 / 2, 1, 2, 3, 4⟩) (mu := 1)
    (by norm_num) (by norm_num) (by norm_num) (by norm_num)
  refine ⟨x, y, h1, h2, h3.trans (le_of_eq ?_)⟩
  norm_num

/-- And by a hyperbola at its pericentre. -/
example : ∃ x y, par2ic ⟨-2, 3, 1, 2, 3, 0⟩ 1 = .ok (some x) ∧ par2icD Libm.rounded (Blas.naive Arith.rounded) ⟨-2, 3, 1, 2, 3, 0⟩ 1 = .ok (some y) ∧
    norm (y.r - x.r) ≤ 250 * (1 / 2 ^ 53) * norm x.r := by
  obtain ⟨x, y, h1, h2, h3, -⟩ := C92_accurate Libm.rounded_double (Blas.naive_ok Arith.rounded_double) (q := ⟨-2, 3, 1, 2, 3, 0⟩) (mu := 1) (K := 2)
    (by norm_num) (by norm_num) (by norm_num) (by norm_num) (by norm_num) (by norm_num)
  exact ⟨x, y, h1, h2, h3.trans (le_of_eq (by norm_num))⟩

/-- A double times a double below one does not round to one. -/
theorem rn_mul_lt_one {e c : ℝ} (he : Rep e) (h0 : 0 ≤ e) (h1 : e < 1) (hc : |c| ≤ 1) : |rn (e * c)| ≤ 1 - u := by
  have hg : e ≤ 1 - u := by
    rcases one_sub_rep he h1.le with h | h
    · linarith
    · unfold u; linarith
  have hr : Rep (1 - u) := ⟨2 ^ 53 - 1, -53, by norm_num, by unfold u; norm_num⟩
  have hb : |e * c| ≤ 1 - u := by rw [abs_mul, abs_of_nonneg h0]; nlinarith [abs_nonneg c]
  have a1 := rn_mono (abs_le.1 hb).1
  have a2 := rn_mono (abs_le.1 hb).2
  rw [rn_neg, rn_rep hr] at a1
  rw [rn_rep hr] at a2
  exact abs_le.2 ⟨a1, a2⟩

/-- **C92, all ellipses**: elements of ellipses that are doubles give a state that is a number, however close to one the eccentricity is. -/
theorem C92_numbers {A : Libm} (hA : A.Double) (B : Blas) {q : Par} {mu : ℝ} (hmu : 0 < mu) (hr : Rep q.e) (he : 0 ≤ q.e) (he1 : q.e < 1)
    (ha : 0 < q.a) : ∃ y, par2icD A B q mu = .ok (some y) := by
  obtain ⟨a, e, i, Om, om, f⟩ := q
  dsimp only at *
  have hu := u_pos
  have hp : ∀ {x : ℝ}, 0 < x → 0 < rn x := fun {x} hx => ((Near.exact hx.le).rn (by norm_num)).pos hx
  have c := hA.cos_range f
  have b1 := (abs_le.1 (rn_mul_lt_one hr he he1 (abs_le.2 ⟨c.2.1, c.2.2⟩))).1
  have b2 := (abs_le.1 (rn_mul_lt_one hr he he1 (show |e| ≤ 1 by rw [abs_of_nonneg he]; exact he1.le))).2
  have P0 : 0 < rn (a * rn (1 - rn (e * e))) := hp (mul_pos ha (hp (by linarith)))
  have W0 : 0 < rn (1 + rn (e * A.cos f)) := hp (by linarith)
  exact ⟨_, par2icD_run hA B (i := i) (Om := Om) (om := om) hmu (mul_pos ha (by linarith)) (fun h => absurd h.1 (not_lt.2 he1.le)) rfl rfl rfl P0 W0
    (hp (sqrt_pos.2 (hp (mul_pos P0 hmu))))⟩

/-- The eccentricity may be the largest double below one. -/
example : ∃ y, par2icD Libm.rounded (Blas.naive Arith.rounded) ⟨1, 1 - 1 / 2 ^ 53, 1, 2, 3, 4⟩ 1 = .ok (some y) :=
  C92_numbers Libm.rounded_double _ (q := ⟨1, 1 - 1 / 2 ^ 53, 1, 2, 3, 4⟩) one_pos ⟨2 ^ 53 - 1, -53, by norm_num, by norm_num⟩ (by norm_num) (by norm_num) one_pos

/-- **C92, hyperbolae**: true anomalies before the asymptotes give a number and those beyond them an error, unless `1 + e cos f` is within rounding of zero,
`4 e` units. -/
theorem C92_hyperbola {A : Libm} (hA : A.Double) (B : Blas) {q : Par} {mu : ℝ} (hmu : 0 < mu) (hr : Rep q.e) (he : 1 < q.e) (ha : q.a < 0) :
    (4 * (1 / 2 ^ 53) * q.e < 1 + q.e * cos q.f → ∃ y, par2icD A B q mu = .ok (some y)) ∧
    (1 + q.e * cos q.f < -(4 * (1 / 2 ^ 53) * q.e) → par2icD A B q mu = .err .domainError) := by
  obtain ⟨a, e, i, Om, om, f⟩ := q
  dsimp only at *
  change (4 * u * e < _ → _) ∧ (_ < -(4 * u * e) → _)
  have hu := u_pos
  have hus := u_small
  have hp : ∀ {x : ℝ}, 0 < x → 0 < rn x := fun {x} hx => ((Near.exact hx.le).rn (by norm_num)).pos hx
  have c := abs_le.1 (cos_err hA f)
  have hi : 0 < e⁻¹ := inv_pos.2 (by linarith)
  have hi1 : e⁻¹ ≤ 1 := inv_le_one_of_one_le₀ he.le
  have hie : e * e⁻¹ = 1 := mul_inv_cancel₀ (by linarith)
  have hq : -1 / e = -e⁻¹ := by rw [neg_div, one_div]
  have c2 := abs_le.1 (rn_err' (-1 / e))
  rw [hq, abs_neg, abs_of_pos hi] at c2
  constructor
  · intro h
    have hc : -e⁻¹ + 4 * u < cos f := by
      by_contra hn
      have := mul_le_mul_of_nonneg_left (not_lt.1 hn) (show 0 ≤ e by linarith)
      rw [mul_add, mul_neg, hie] at this
      linarith
    have hn : ¬(1 < e ∧ A.cos f < rn (-1 / e)) := by
      rintro ⟨-, g⟩
      rw [hq] at g
      nlinarith
    have hP : 0 < rn (a * rn (1 - rn (e * e))) := by
      have h1 : e ≤ rn (e * e) := by
        have := rn_mono (show e ≤ e * e by nlinarith)
        rwa [rn_rep hr] at this
      have h2 : 0 < rn (rn (e * e) - 1) := hp (by linarith)
      rw [show 1 - rn (e * e) = -(rn (e * e) - 1) by ring, rn_neg]
      exact hp (by nlinarith)
    have hW : 0 < rn (1 + rn (e * A.cos f)) := by
      have h1 : -1 + u ≤ e * A.cos f := by nlinarith
      have h2 := rn_mono h1
      rw [rn_rep ⟨-(2 ^ 53 - 1), -53, by norm_num, by unfold u; norm_num⟩] at h2
      exact hp (by linarith)
    exact ⟨_, par2icD_run hA B (i := i) (Om := Om) (om := om) hmu (mul_pos_of_neg_of_neg ha (by linarith)) hn rfl rfl rfl hP hW
      (hp (sqrt_pos.2 (hp (mul_pos hP hmu))))⟩
  · intro h
    have hc : cos f < -e⁻¹ - 4 * u := by
      by_contra hn
      have := mul_le_mul_of_nonneg_left (not_lt.1 hn) (show 0 ≤ e by linarith)
      rw [mul_sub, mul_neg, hie] at this
      linarith
    unfold par2icD
    dsimp only
    split_ifs with g1 g2
    · rfl
    · rfl
    · refine absurd ⟨he, ?_⟩ g2
      rw [hA.arith.rd, hq]
      nlinarith

/-- Both cases occur: the pericentre, and the direction away from it. -/
example (a : ℝ) (ha : a < 0) : (∃ y, par2icD Libm.rounded (Blas.naive Arith.rounded) ⟨a, 2, 0, 0, 0, 0⟩ 1 = .ok (some y)) ∧
    par2icD Libm.rounded (Blas.naive Arith.rounded) ⟨a, 2, 0, 0, 0, π⟩ 1 = .err .domainError := by
  have h2 : Rep (2 : ℝ) := ⟨2, 0, by norm_num, by norm_num⟩
  refine ⟨(C92_hyperbola Libm.rounded_double _ (q := ⟨a, 2, 0, 0, 0, 0⟩) one_pos h2 (by norm_num) ha).1 ?_,
    (C92_hyperbola Libm.rounded_double _ (q := ⟨a, 2, 0, 0, 0, π⟩) one_pos h2 (by norm_num) ha).2 ?_⟩ <;> norm_num

end Kep3
