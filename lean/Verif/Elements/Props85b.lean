import Verif.Elements.Props91c
import Verif.Elements.Props92

/-!
# C85: accuracy of the semi-major axis

`src/core_astro/ic2par2ic.cpp:43, 56` with every operation rounded.
-/

namespace Kep3
open Real V3 Fl

theorem Within.neg {a x y : ℝ} (h : Within a x y) : Within a (-x) (-y) := by
  unfold Within at *
  rwa [abs_neg, show -y - -x = -(y - x) by ring, abs_neg]

theorem Within.inv' {a x y : ℝ} (h : Within a x y) (h0 : 0 ≤ a) (ha : a ≤ 1 / 100) (hx : x ≠ 0) : y ≠ 0 ∧ Within (1.02 * a) x⁻¹ y⁻¹ := by
  rcases lt_or_gt_of_ne hx with h1 | h1
  · have p := h.neg.pos ha (by linarith)
    have := (h.neg.inv h0 ha (by linarith)).neg
    rw [inv_neg, inv_neg, neg_neg, neg_neg] at this
    exact ⟨by linarith, this⟩
  · exact ⟨(h.pos ha h1).ne', h.inv h0 ha h1⟩

theorem norm_diff (a c : V3 ℝ) : |norm a - norm c| ≤ norm (a - c) := by
  have h1 := norm_sub_le' a (a - c)
  have h2 := norm_sub_le' (a - c) (-c)
  have n1 : norm (-c) = norm c := by unfold V3.norm V3.dot; simp
  rw [show a - (a - c) = c by ext <;> simp] at h1
  rw [show a - c - -c = a by ext <;> simp, n1] at h2
  rw [abs_le]
  constructor <;> linarith

/-- **C85, the semi-major axis**: unless the orbit is within rounding of a parabola or of a radial one, the computed semi-major axis is a number, accurate to 100 units of roundoff times
`K`, where `K` is at least `r v / |r × v|` and `(1 + r v² / mu)² / |1 - e²|`. -/
theorem C85_sma {A : Arith} (hA : A.Double) {B : Blas} (hB : B.Ok) {x : RV ℝ} {mu a K : ℝ} (hmu : 0 < mu) (hr : x.r ≠ 0) (ha : a ≠ 0) (hE : energy x mu = -mu / (2 * a))
    (hK1 : norm x.r * norm x.v ≤ K * norm (cross x.r x.v)) (hK2 : (1 + norm x.r * norm x.v ^ 2 / mu) ^ 2 ≤ K * (norm (cross x.r x.v) ^ 2 / (mu * |a|)))
    (hKu : 10000 * 2⁻¹ ^ 53 * K ≤ 1) :
    ∃ a', (ic2parD A B x mu).a = some a' ∧ |a' - a| ≤ 100 * 2⁻¹ ^ 53 * K * |a| := by
  have hu' : (2⁻¹ : ℝ) ^ 53 = u := by unfold u; norm_num
  rw [hu'] at hKu ⊢
  have hu := u_pos
  have hus := u_small
  have hR := norm_pos hr
  have hV := norm_nonneg x.v
  have ha0 := abs_pos.2 ha
  obtain ⟨ev, hev, he⟩ := eccVecD_err hA hB x hmu hr
  have hT1 : 1 ≤ norm x.v * (norm x.r * norm x.v) / mu + 1 := by
    have : 0 ≤ norm x.v * (norm x.r * norm x.v) / mu := by positivity
    linarith
  have hQ := oneMinusEsq_err hB hT1 (eccVec_norm_le hmu hr) he
  rw [show 1 + norm x.r * norm x.v ^ 2 / mu = norm x.v * (norm x.r * norm x.v) / mu + 1 by ring] at hK2
  have hN : 0 < norm (cross x.r x.v) := by
    rcases (norm_nonneg (cross x.r x.v)).eq_or_lt with h | h
    · rw [← h] at hK2
      norm_num at hK2
      have : 0 < (norm x.v * (norm x.r * norm x.v) / mu + 1) ^ 2 := by positivity
      linarith
    · exact h
  have hq : 1 - norm (eccVec x mu) * norm (eccVec x mu) = norm (cross x.r x.v) ^ 2 / (mu * a) := by
    have h1 := eccVec_sq (x := x) (mu := mu) hr hmu.ne'
    rw [← norm_mul_self, ← norm_mul_self, hE] at h1
    rw [h1]
    unfold angMom
    field_simp
    ring
  rw [hq] at hQ
  have hq0 : norm (cross x.r x.v) ^ 2 / (mu * a) ≠ 0 := by positivity
  have hqa : |norm (cross x.r x.v) ^ 2 / (mu * a)| = norm (cross x.r x.v) ^ 2 / (mu * |a|) := by
    rw [abs_div, abs_mul, abs_of_pos hmu, abs_of_nonneg (by positivity)]
  have hK : 1 ≤ K := by
    have h1 := (norm_cross_le x.r x.v).trans hK1
    by_contra hc
    nlinarith
  have wq : Within (68 * (u * K)) (norm (cross x.r x.v) ^ 2 / (mu * a)) (rn (1 - rn (B.norm ev * B.norm ev))) := by
    unfold Within
    rw [hqa]
    have := mul_le_mul_of_nonneg_left hK2 (show 0 ≤ 68 * u by positivity)
    linarith
  have uK : u ≤ u * K := le_mul_of_one_le_right hu.le hK
  obtain ⟨hne, wi⟩ := wq.inv' (by positivity) (by linarith) hq0
  -- the semi-latus rectum
  obtain ⟨ex, ey, ez⟩ := crossD_err hA x.r x.v x.v (k := 0) le_rfl (by norm_num) le_rfl (by simp) (by simp) (by simp)
  change |(angMomD A x).x - _| ≤ _ at ex
  change |(angMomD A x).y - _| ≤ _ at ey
  change |(angMomD A x).z - _| ≤ _ at ez
  have hd : norm (angMomD A x - cross x.r x.v) ≤ 1.74 * (4.2 * u * (norm x.r * norm x.v)) := by
    apply norm_le_of_comp (by positivity)
    · simp only [V3.sub_x]; linarith
    · simp only [V3.sub_y]; linarith
    · simp only [V3.sub_z]; linarith
  have wn : Within (7.32 * (u * K)) (norm (cross x.r x.v)) (norm (angMomD A x)) := by
    unfold Within
    rw [abs_of_pos hN]
    have h1 := norm_diff (angMomD A x) (cross x.r x.v)
    have := mul_le_mul_of_nonneg_left hK1 (show 0 ≤ 7.308 * u by positivity)
    have : 0 ≤ u * K * norm (cross x.r x.v) := by positivity
    linarith
  have wd : Within (4 * u) (norm (angMomD A x) * norm (angMomD A x)) (B.dot (angMomD A x) (angMomD A x)) := by
    unfold Within
    have := hB.dot (angMomD A x) (angMomD A x)
    rw [← norm_mul_self] at this
    rwa [abs_of_nonneg (mul_self_nonneg (norm (angMomD A x)))]
  have w1 := (wn.mul wn (by linarith)).trans wd (by linarith) (by linarith)
  have wm : Within 0 mu⁻¹ mu⁻¹ := by unfold Within; simp
  have w2 := (w1.mul wm (by linarith)).rn (by linarith)
  have w3 := ((w2.mul wi (by linarith)).rn (by linarith)).mono (show _ ≤ 100 * u * K by linarith)
  refine ⟨rn (rn (B.dot (angMomD A x) (angMomD A x) / mu) / rn (1 - rn (B.norm ev * B.norm ev))), ?_, ?_⟩
  · unfold ic2parD Arith.div?
    simp only [hA.rd, hev, div?_ok hmu.ne', Option.map_some, Option.bind_eq_bind, Option.bind_some, div?_ok hne]
  · have e : norm (cross x.r x.v) * norm (cross x.r x.v) * mu⁻¹ * (norm (cross x.r x.v) ^ 2 / (mu * a))⁻¹ = a := by field_simp
    rw [e] at w3
    exact w3

/-- The slanted ellipse. -/
example : ∃ a, (ic2parD Arith.rounded (Blas.naive Arith.rounded) slanted 4).a = some a ∧ |a - 2 / 3| ≤ 700 * 2⁻¹ ^ 53 := by
  have h1 : norm slanted.r = 1 := by unfold slanted V3.norm V3.dot; simp
  have h2 : norm slanted.v = √2 := by unfold slanted V3.norm V3.dot; norm_num
  have h3 : cross slanted.r slanted.v = ⟨0, -1, 1⟩ := by unfold slanted V3.cross; ext <;> simp
  have h4 : norm (cross slanted.r slanted.v) = √2 := by rw [h3]; unfold V3.norm V3.dot; norm_num
  have h5 : √2 ^ 2 = (2 : ℝ) := sq_sqrt (by norm_num)
  have hE : energy slanted 4 = -4 / (2 * (2 / 3)) := by
    unfold energy; rw [h1]; unfold slanted V3.dot; norm_num
  obtain ⟨a, e1, e2⟩ := C85_sma Arith.rounded_double (Blas.naive_ok Arith.rounded_double) (x := slanted) (mu := 4) (a := 2 / 3) (K := 10) (by norm_num)
    (by unfold slanted; intro h; have := congrArg V3.x h; norm_num at this) (by norm_num) hE (by rw [h1, h2, h4]; nlinarith [sqrt_nonneg (2 : ℝ)])
    (by rw [h1, h2, h4, h5, abs_of_pos (by norm_num)]; norm_num) (by norm_num)
  refine ⟨a, e1, e2.trans ?_⟩
  rw [abs_of_pos (by norm_num)]
  norm_num

end Kep3
