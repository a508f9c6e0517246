import Verif.Elements.Props85b

/-!
# C85: accuracy of the inclination and of the longitude of the node

`src/core_astro/ic2par2ic.cpp:40-49, 61, 72-75` with every operation rounded, compared with the angles of the true orbital plane.
-/

namespace Kep3
open Real V3 Fl

/-- A component of a unit vector computed from a vector that has errors. -/
theorem unitD_comp {B : Blas} (hB : B.Ok) {w w' : V3 ℝ} {t t' d : ℝ} (hw : 0 < norm w) (hw' : 0 < norm w') (ht' : |t'| ≤ norm w') (hd : |t' - t| ≤ d)
    (hn : norm (w' - w) ≤ 1.74 * d) : |rn (t' / B.norm w') - t / norm w| ≤ 2.74 * (d / norm w) + 6.1 * u := by
  have h1 := quot_err (k := 0) (s := 1) (d := t') (d' := t') hw' (hB.norm w') le_rfl (by norm_num) (by simp) (by rw [one_mul]; exact ht')
  have h2 := (norm_diff w' w).trans hn
  have e : t' / norm w' - t / norm w = (t' - t) / norm w - t' / norm w' * ((norm w' - norm w) / norm w) := by field_simp; ring
  have a1 : |(t' - t) / norm w| ≤ d / norm w := by rw [abs_div, abs_of_pos hw]; exact div_le_div_of_nonneg_right hd hw.le
  have a2 : |t' / norm w' * ((norm w' - norm w) / norm w)| ≤ 1 * (1.74 * d / norm w) := by
    rw [abs_mul, abs_div, abs_div, abs_of_pos hw', abs_of_pos hw]
    refine mul_le_mul ((div_le_one hw').2 ht') (div_le_div_of_nonneg_right h2 hw.le) (by positivity) zero_le_one
  have h3 : |t' / norm w' - t / norm w| ≤ 2.74 * (d / norm w) := by
    rw [e]
    refine (abs_sub _ _).trans ((add_le_add a1 a2).trans (le_of_eq (by ring)))
  have := abs_add_le (rn (t' / B.norm w') - t' / norm w') (t' / norm w' - t / norm w)
  rw [sub_add_sub_cancel] at this
  linarith

theorem cos_lip (a b : ℝ) : |cos a - cos b| ≤ |a - b| := by
  have := Real.lipschitzWith_cos.dist_le_mul a b
  simpa [Real.dist_eq] using this

section Plane
variable {A : Arith} (hA : A.Double) {B : Blas} (hB : B.Ok)
include hA

/-- The errors of the angular momentum. -/
theorem angD_comp (x : RV ℝ) : |(angMomD A x).x - (cross x.r x.v).x| ≤ 4.2 * u * (norm x.r * norm x.v) ∧
    |(angMomD A x).y - (cross x.r x.v).y| ≤ 4.2 * u * (norm x.r * norm x.v) ∧ |(angMomD A x).z - (cross x.r x.v).z| ≤ 4.2 * u * (norm x.r * norm x.v) := by
  obtain ⟨ex, ey, ez⟩ := crossD_err hA x.r x.v x.v (k := 0) le_rfl (by norm_num) le_rfl (by simp) (by simp) (by simp)
  exact ⟨ex.trans (le_of_eq (by ring)), ey.trans (le_of_eq (by ring)), ez.trans (le_of_eq (by ring))⟩

include hB

/-- **C85, the inclination**: unless the orbit is within rounding of a radial one, the computed inclination is a number between 0 and pi, and its cosine misses that of the angle between
the angular momentum `r × v` and the polar axis by at most 26 units of roundoff times `K`, where `K` is at least `r v / |r × v|`. -/
theorem C85_inclination {x : RV ℝ} {mu K : ℝ} (hK : norm x.r * norm x.v ≤ K * norm (cross x.r x.v)) (h0 : cross x.r x.v ≠ 0) (hKu : 10000 * 2⁻¹ ^ 53 * K ≤ 1) :
    ∃ i, (ic2parD A B x mu).i = some i ∧ 0 ≤ i ∧ i ≤ rn π ∧ |cos i - (cross x.r x.v).z / norm (cross x.r x.v)| ≤ 26 * 2⁻¹ ^ 53 * K := by
  have hu' : (2⁻¹ : ℝ) ^ 53 = u := by unfold u; norm_num
  rw [hu'] at hKu ⊢
  have hu := u_pos
  have hN := norm_pos h0
  have q0 : 0 ≤ norm x.r * norm x.v := mul_nonneg (norm_nonneg _) (norm_nonneg _)
  have hK1 : 1 ≤ K := by
    have h1 := (norm_cross_le x.r x.v).trans hK
    by_contra hc
    nlinarith
  have hne : angMomD A x ≠ 0 := by
    refine angD_ne hA ?_
    have := mul_le_mul_of_nonneg_left hK hu.le
    have h2 := mul_le_mul_of_nonneg_right hKu hN.le
    linarith
  obtain ⟨e1, e2, e3⟩ := angD_comp hA x
  have hp := norm_pos_of hA hB hne
  obtain ⟨r1, r2, r3⟩ := crossA_rep hA x.r x.v
  have hq := quot_le hp (hB.norm_ge (angMomD A x) r1 r2 r3).2.2
  obtain ⟨a0, a1⟩ := hA.acos_mem _ hq.1 hq.2
  refine ⟨_, ?_, a0, a1, ?_⟩
  · unfold ic2parD
    simp only [Option.bind_eq_bind, Arith.div?, div?_ok hp.ne', hA.rd, Option.map_some, Option.bind_some, Arith.acos?, if_pos hq]
  have hc := unitD_comp hB hN (norm_pos hne) (abs_x_le (angMomD A x)).2.2 e3
    (norm_le_of_comp (by positivity) (by simpa only [V3.sub_x] using e1) (by simpa only [V3.sub_y] using e2) (by simpa only [V3.sub_z] using e3))
  have h1 : 4.2 * u * (norm x.r * norm x.v) / norm (cross x.r x.v) ≤ 4.2 * u * K := by
    rw [div_le_iff₀ hN, mul_assoc (4.2 * u)]
    exact mul_le_mul_of_nonneg_left hK (by positivity)
  have h2 := (cos_lip _ _).trans (hA.acos _ hq.1 hq.2)
  rw [cos_arccos hq.1 hq.2, show (1 : ℝ) / 2 ^ 50 = 8 * u by unfold u; norm_num] at h2
  have h3 := abs_sub_le (cos (A.acos (rn ((angMomD A x).z / B.norm (angMomD A x))))) (rn ((angMomD A x).z / B.norm (angMomD A x))) ((cross x.r x.v).z / norm (cross x.r x.v))
  have : u ≤ u * K := le_mul_of_one_le_right hu.le hK1
  linarith

/-- **C85, the longitude of the node**: unless the orbit is within rounding of the equatorial plane or of a radial one, the computed longitude of the node is a number between 0 and 2 pi, its
cosine misses that of the direction of the ascending node, which is `k × (r × v)`, by at most 40 units of roundoff times `K`, where `K` is at least `r v / |k × (r × v)|`, and it is in the
right half of the circle unless that direction is within `8 K` units of the x-axis. -/
theorem C85_node {x : RV ℝ} {mu K N : ℝ} (hNe : N = √((cross x.r x.v).x ^ 2 + (cross x.r x.v).y ^ 2)) (hK : norm x.r * norm x.v ≤ K * N) (hN : 0 < N) (hKu : 10000 * 2⁻¹ ^ 53 * K ≤ 1) :
    ∃ Om, (ic2parD A B x mu).Om = some Om ∧ 0 ≤ Om ∧ Om ≤ 2 * rn π ∧ |cos Om - -(cross x.r x.v).y / N| ≤ 40 * 2⁻¹ ^ 53 * K ∧
      (8 * 2⁻¹ ^ 53 * K < (cross x.r x.v).x / N → Om ≤ rn π) ∧ ((cross x.r x.v).x / N < -(8 * 2⁻¹ ^ 53 * K) → rn π ≤ Om) := by
  have hu' : (2⁻¹ : ℝ) ^ 53 = u := by unfold u; norm_num
  rw [hu'] at hKu ⊢
  have hu := u_pos
  have q0 : 0 ≤ norm x.r * norm x.v := mul_nonneg (norm_nonneg _) (norm_nonneg _)
  obtain ⟨e1, e2, -⟩ := angD_comp hA x
  obtain ⟨r1, r2, -⟩ := crossA_rep hA x.r x.v
  have re1 := rn_rep r1
  have re2 := rn_rep r2
  change rn (angMomD A x).x = (angMomD A x).x at re1
  change rn (angMomD A x).y = (angMomD A x).y at re2
  have hn0 : A.cross kHat (angMomD A x) = ⟨-(angMomD A x).y, (angMomD A x).x, 0⟩ := by
    simp only [Arith.cross, kHat, hA.rd, zero_mul, one_mul, rn_zero, zero_sub, sub_zero, rn_neg, rn_rn, re1, re2]
  set h' := angMomD A x with hh'
  set h := cross x.r x.v with hh
  set w : V3 ℝ := ⟨-h.y, h.x, 0⟩ with hw
  set w' : V3 ℝ := ⟨-h'.y, h'.x, 0⟩ with hw'
  have nw : norm w = N := by rw [hNe, hw]; unfold V3.norm V3.dot; congr 1; simp only []; ring
  have d1 : |w'.x - w.x| ≤ 4.2 * u * (norm x.r * norm x.v) := by
    simp only [hw, hw']; rw [show -h'.y - -h.y = -(h'.y - h.y) by ring, abs_neg]; exact e2
  have d2 : |w'.y - w.y| ≤ 4.2 * u * (norm x.r * norm x.v) := e1
  have dn : norm (w' - w) ≤ 1.74 * (4.2 * u * (norm x.r * norm x.v)) :=
    norm_le_of_comp (by positivity) d1 d2 (by simp only [hw, hw', V3.sub_z, sub_self, abs_zero]; positivity)
  have bK : u * (norm x.r * norm x.v) ≤ u * K * N := by
    rw [mul_assoc]; exact mul_le_mul_of_nonneg_left hK hu.le
  have kN : 10000 * (u * K * N) ≤ N := by
    have := mul_le_mul_of_nonneg_right hKu hN.le
    linarith
  have nw' : 0 < norm w' := by
    have := (abs_le.1 ((norm_diff w' w).trans dn)).1
    rw [nw] at this
    linarith
  have hNh : N ≤ norm x.r * norm x.v := by
    refine le_trans ?_ (norm_cross_le x.r x.v)
    rw [hNe]
    unfold V3.norm V3.dot
    apply Real.sqrt_le_sqrt
    nlinarith [mul_self_nonneg (cross x.r x.v).z]
  have hK1 : 1 ≤ K := by
    have h1 := hNh.trans hK
    by_contra hc
    nlinarith
  have hne : w' ≠ 0 := by intro h0; rw [h0] at nw'; unfold V3.norm V3.dot at nw'; simp at nw'
  have hp := norm_pos_of hA hB hne
  have hge := hB.norm_ge w' (Rep.neg' r2) r1 (by have := rep_rn (0 : ℝ); rwa [rn_zero] at this)
  have hq := quot_le hp hge.1
  have hnode : nodeD A B x = some ⟨rn (w'.x / B.norm w'), rn (w'.y / B.norm w'), rn (w'.z / B.norm w')⟩ := by
    unfold nodeD Arith.vdiv?
    rw [hn0, if_neg hp.ne', hA.rd]
  obtain ⟨t, ht, t0, t1, te⟩ := acosFlip_mem hA hq (rn (w'.y / B.norm w') < 0)
  refine ⟨t, ?_, t0, t1, ?_, ?_, ?_⟩
  · unfold ic2parD
    simp only [Option.bind_eq_bind, hnode, Option.bind_some]
    rw [← ht]
  · have hc := unitD_comp hB (by rw [nw]; exact hN) nw' (abs_x_le w').1 d1 dn
    rw [nw] at hc
    change |_ - -h.y / N| ≤ _ at hc
    have b1 : 4.2 * u * (norm x.r * norm x.v) / N ≤ 4.2 * u * K := by
      rw [div_le_iff₀ hN]; linarith
    set c := rn (w'.x / B.norm w') with hcd
    have h2 := hA.acos _ hq.1 hq.2
    rw [show (1 : ℝ) / 2 ^ 50 = 8 * u by unfold u; norm_num] at h2
    have h3 : |cos t - c| ≤ 22 * u := by
      rw [te]
      split_ifs
      · obtain ⟨m0, m1⟩ := hA.acos_mem c hq.1 hq.2
        have p1 := rn_err' π
        rw [abs_of_pos pi_pos] at p1
        have hpi := pi_lt_d4
        have p2 : u * π ≤ 3.1416 * u := by rw [mul_comm]; exact mul_le_mul_of_nonneg_right hpi.le hu.le
        have p3 := abs_le.1 (p1.trans p2)
        have q1 := rn_err' (2 * rn π - A.acos c)
        have q2 : |2 * rn π - A.acos c| ≤ 6.3 := by
          have := u_small
          rw [abs_le]; constructor <;> linarith [pi_pos]
        have q4 := abs_le.1 (q1.trans (mul_le_mul_of_nonneg_left q2 hu.le))
        have := cos_lip (rn (2 * rn π - A.acos c)) (2 * π - arccos c)
        rw [cos_two_pi_sub, cos_arccos hq.1 hq.2] at this
        refine this.trans ?_
        rw [abs_le] at h2 ⊢
        constructor <;> linarith
      · have := (cos_lip _ _).trans h2
        rw [cos_arccos hq.1 hq.2] at this
        linarith
    have h4 := abs_sub_le (cos t) c (-h.y / N)
    have : u ≤ u * K := le_mul_of_one_le_right hu.le hK1
    linarith
  · intro hs
    rw [lt_div_iff₀ hN] at hs
    have : 0 ≤ w'.y := by
      have := (abs_le.1 d2).1
      change _ ≤ w'.y - h.x at this
      have : 0 ≤ u * (norm x.r * norm x.v) := by positivity
      linarith
    rw [te, if_neg (not_lt.2 (rn_nonneg (by positivity)))]
    exact (hA.acos_mem _ hq.1 hq.2).2
  · intro hs
    rw [div_lt_iff₀ hN] at hs
    have hy : w'.y < 0 := by
      have := (abs_le.1 d2).2
      change w'.y - h.x ≤ _ at this
      have : 0 ≤ u * (norm x.r * norm x.v) := by positivity
      linarith
    have hneg : rn (w'.y / B.norm w') < 0 := by
      have h5 : w'.y / B.norm w' < 0 := div_neg_of_neg_of_pos hy hp
      have h6 := rn_err' (w'.y / B.norm w')
      rw [abs_of_neg h5] at h6
      have := (abs_le.1 h6).2
      have := u_small
      nlinarith
    rw [te, if_pos hneg]
    have := rn_mono (show rn π ≤ 2 * rn π - A.acos (rn (w'.x / B.norm w')) by linarith [(hA.acos_mem _ hq.1 hq.2).2])
    rwa [rn_rn] at this

end Plane

/-- The slanted ellipse has inclination and node of 45 and 0 degrees. -/
example : ∃ i Om, (ic2parD Arith.rounded (Blas.naive Arith.rounded) slanted 4).i = some i ∧ |cos i - 1 / √2| ≤ 26 * 2⁻¹ ^ 53 ∧
    (ic2parD Arith.rounded (Blas.naive Arith.rounded) slanted 4).Om = some Om ∧ |cos Om - 1| ≤ 80 * 2⁻¹ ^ 53 := by
  have h1 : norm slanted.r = 1 := by unfold slanted V3.norm V3.dot; simp
  have h2 : norm slanted.v = √2 := by unfold slanted V3.norm V3.dot; norm_num
  have h3 : cross slanted.r slanted.v = ⟨0, -1, 1⟩ := by unfold slanted V3.cross; ext <;> simp
  have h4 : norm (cross slanted.r slanted.v) = √2 := by rw [h3]; unfold V3.norm V3.dot; norm_num
  have hB := Blas.naive_ok Arith.rounded_double
  obtain ⟨i, i1, -, -, i2⟩ := C85_inclination Arith.rounded_double hB (x := slanted) (mu := 4) (K := 1) (by rw [h1, h2, h4])
    (by rw [h3]; intro h; have := congrArg V3.z h; norm_num at this) (by norm_num)
  obtain ⟨Om, o1, -, -, o2, -⟩ := C85_node Arith.rounded_double hB (x := slanted) (mu := 4) (K := 2) (N := 1) (by rw [h3]; norm_num)
    (by rw [h1, h2]; nlinarith [sqrt_nonneg (2 : ℝ), sq_sqrt (show (0 : ℝ) ≤ 2 by norm_num)]) one_pos (by norm_num)
  rw [h4, h3] at i2
  rw [h3] at o2
  norm_num at i2 o2
  exact ⟨i, Om, i1, by norm_num; exact i2, o1, by norm_num; exact o2⟩

end Kep3
