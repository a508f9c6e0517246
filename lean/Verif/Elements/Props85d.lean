import Verif.Elements.Props85c

/-!
# C85: accuracy of the argument of periapsis and of the true anomaly

`src/core_astro/ic2par2ic.cpp:40-90` with every operation rounded, compared with the angles between the true node line, the true eccentricity vector and the position.
-/

namespace Kep3
open Real V3 Fl

/-- The cosine of the angle between two vectors one of which has an error. -/
theorem cos_pert {a a' b : V3 ℝ} (ha : a ≠ 0) (ha' : a' ≠ 0) (hb : b ≠ 0) :
    |dot a' b / (norm a' * norm b) - dot a b / (norm a * norm b)| ≤ 2 * (norm (a' - a) / norm a) := by
  have na := norm_pos ha
  have na' := norm_pos ha'
  have nb := norm_pos hb
  have e : dot a' b / (norm a' * norm b) - dot a b / (norm a * norm b) = dot (a' - a) b / (norm a * norm b) - dot a' b / (norm a' * norm b) * ((norm a' - norm a) / norm a) := by
    rw [sub_dot]; field_simp; ring
  have h1 : |dot (a' - a) b / (norm a * norm b)| ≤ norm (a' - a) / norm a := by
    rw [abs_div, abs_of_pos (mul_pos na nb), div_le_div_iff₀ (mul_pos na nb) na]
    have := mul_le_mul_of_nonneg_right (abs_dot_le (a' - a) b) na.le
    linarith
  have h2 : |dot a' b / (norm a' * norm b) * ((norm a' - norm a) / norm a)| ≤ 1 * (norm (a' - a) / norm a) := by
    rw [abs_mul, abs_div (norm a' - norm a), abs_of_pos na]
    exact mul_le_mul (abs_le.2 (cosD_mem ha' hb)) (div_le_div_of_nonneg_right (norm_diff a' a) na.le) (by positivity) zero_le_one
  rw [e]
  exact (abs_sub _ _).trans (by linarith)

/-- An angle from a computed cosine `c` that misses the right one `m` by at most `d`. -/
theorem flip_true {A : Arith} (hA : A.Double) {c m d : ℝ} (h : |c - m| ≤ d) (p : Prop) [Decidable p] :
    (|m| + d ≤ 1 → ∃ t, A.acosFlip c p = some t) ∧
    ∀ t, A.acosFlip c p = some t → 0 ≤ t ∧ t ≤ 2 * rn π ∧ |cos t - m| ≤ d + 22 * u ∧ (¬p → t ≤ rn π) ∧ (p → rn π ≤ t) := by
  have hu := u_pos
  constructor
  · intro hm
    have hc : |c| ≤ 1 := by
      have := abs_add_le (c - m) m
      rw [sub_add_cancel] at this
      linarith
    obtain ⟨t, ht, -⟩ := acosFlip_mem hA (abs_le.1 hc) p
    exact ⟨t, ht⟩
  · intro t ht
    by_cases hd : -1 ≤ c ∧ c ≤ 1
    · obtain ⟨t', ht', t0, t1, te⟩ := acosFlip_mem hA hd p
      rw [ht] at ht'
      obtain rfl := Option.some.inj ht'
      have h2 := hA.acos _ hd.1 hd.2
      rw [show (1 : ℝ) / 2 ^ 50 = 8 * u by unfold u; norm_num] at h2
      obtain ⟨m0, m1⟩ := hA.acos_mem c hd.1 hd.2
      have h3 : |cos t - c| ≤ 22 * u := by
        rw [te]
        split_ifs
        · have p1 := rn_err' π
          rw [abs_of_pos pi_pos] at p1
          have hpi := pi_lt_d4
          have p2 : u * π ≤ 3.1416 * u := by rw [mul_comm]; exact mul_le_mul_of_nonneg_right hpi.le hu.le
          have p3 := abs_le.1 (p1.trans p2)
          have q1 := rn_err' (2 * rn π - A.acos c)
          have q2 : |2 * rn π - A.acos c| ≤ 6.3 := by
            have := u_small
            rw [abs_le]; constructor <;> linarith [pi_pos]
          have q4 := abs_le.1 (q1.trans (mul_le_mul_of_nonneg_left q2 hu.le))
          have := cos_lip (rn (2 * rn π - A.acos c)) (2 * π - arccos c)
          rw [cos_two_pi_sub, cos_arccos hd.1 hd.2] at this
          refine this.trans ?_
          rw [abs_le] at h2 ⊢
          constructor <;> linarith
        · have := (cos_lip _ _).trans h2
          rw [cos_arccos hd.1 hd.2] at this
          linarith
      refine ⟨t0, t1, ?_, ?_, ?_⟩
      · have := abs_sub_le (cos t) c m
        linarith
      · intro hp; rw [te, if_neg hp]; exact m1
      · intro hp
        rw [te, if_pos hp]
        have := rn_mono (show rn π ≤ 2 * rn π - A.acos c by linarith)
        rwa [rn_rn] at this
    · exfalso
      unfold Arith.acosFlip Arith.acos? at ht
      rw [if_neg hd] at ht
      cases ht

section Apsis
variable {A : Arith} (hA : A.Double) {B : Blas} (hB : B.Ok)
include hA hB

/-- The computed eccentricity vector relative to the true one. -/
theorem eccD_rel {x : RV ℝ} {mu T : ℝ} (hmu : 0 < mu) (hr : x.r ≠ 0) (he : eccVec x mu ≠ 0) (hT : norm x.r * norm x.v ^ 2 / mu + 1 ≤ T * norm (eccVec x mu)) (hTu : 10000 * u * T ≤ 1) :
    1 ≤ T ∧ ∃ ev, eccVecD A B x mu = some ev ∧ ev ≠ 0 ∧ norm (ev - eccVec x mu) ≤ 26 * u * T * norm (eccVec x mu) := by
  have hu := u_pos
  have ne := norm_pos he
  obtain ⟨ev, hev, h1⟩ := eccVecD_err hA hB x hmu hr
  have h0 := eccVec_norm_le hmu hr
  have hw : norm x.v * (norm x.r * norm x.v) / mu = norm x.r * norm x.v ^ 2 / mu := by ring
  rw [hw] at h1 h0
  have h2 : norm (ev - eccVec x mu) ≤ 26 * u * T * norm (eccVec x mu) := by
    rw [mul_assoc]; exact h1.trans (mul_le_mul_of_nonneg_left hT (by positivity))
  refine ⟨?_, ev, hev, ?_, h2⟩
  · by_contra hc
    have := mul_lt_mul_of_pos_right (not_le.1 hc) ne
    linarith
  · rintro rfl
    have n1 : norm (0 - eccVec x mu) = norm (eccVec x mu) := by unfold V3.norm V3.dot; simp
    rw [n1] at h2
    have := mul_le_mul_of_nonneg_right hTu ne.le
    linarith

/-- **C85, the true anomaly** (partial: it may be a NaN at the apsides): let `m` be the cosine of the angle between the true eccentricity vector and the position, and `T` at least
`(1 + r v² / mu) / e`. The computed anomaly is a number unless `|m|` is within `69 T` units of roundoff of 1; if it is a number, its cosine misses `m` by at most `92 T` units, and it is in the
half of the circle that corresponds to the sign of `r · v`, unless that product is within rounding of zero. -/
theorem C85_anomaly_accurate_partial {x : RV ℝ} {mu T m : ℝ} (hmu : 0 < mu) (hr : x.r ≠ 0) (he : eccVec x mu ≠ 0) (hT : norm x.r * norm x.v ^ 2 / mu + 1 ≤ T * norm (eccVec x mu))
    (hTu : 10000 * 2⁻¹ ^ 53 * T ≤ 1) (hm : m = dot (eccVec x mu) x.r / (norm (eccVec x mu) * norm x.r)) :
    (|m| ≤ 1 - 69 * 2⁻¹ ^ 53 * T → ∃ f, (ic2parD A B x mu).f = some f) ∧
    ∀ f, (ic2parD A B x mu).f = some f → 0 ≤ f ∧ f ≤ 2 * rn π ∧ |cos f - m| ≤ 92 * 2⁻¹ ^ 53 * T ∧
      (4 * 2⁻¹ ^ 53 * (norm x.r * norm x.v) < dot x.r x.v → f ≤ rn π) ∧ (dot x.r x.v < -(4 * 2⁻¹ ^ 53 * (norm x.r * norm x.v)) → rn π ≤ f) := by
  have hu' : (2⁻¹ : ℝ) ^ 53 = u := by unfold u; norm_num
  rw [hu'] at hTu ⊢
  have hu := u_pos
  obtain ⟨T1, ev, hev, ev0, hd⟩ := eccD_rel hA hB hmu hr he hT hTu
  have ne := norm_pos he
  have en := norm_pos ev0
  have rn0 := norm_pos hr
  have e' := (hB.norm ev).pos en
  have r' := (hB.norm x.r).pos rn0
  have h1 := quot_err (k := 4) (s := norm x.r) en (hB.norm ev) (by norm_num) (by norm_num)
    (by have := hB.dot ev x.r; rwa [mul_comm (norm ev)] at this) (by have := abs_dot_le ev x.r; rwa [mul_comm (norm ev)] at this)
  have h2 := quot_err (k := 10.1) (s := 1) (d := dot ev x.r / norm ev) rn0 (hB.norm x.r) (by norm_num) (by norm_num) (by rw [one_mul]; exact h1.trans (le_of_eq (by norm_num)))
    (by rw [one_mul, abs_div, abs_of_pos en, div_le_iff₀ en, mul_comm]; exact abs_dot_le ev x.r)
  rw [div_div] at h2
  have uT : u ≤ u * T := le_mul_of_one_le_right hu.le T1
  have h3 : |rn (rn (B.dot ev x.r / B.norm ev) / B.norm x.r) - m| ≤ 69 * u * T := by
    have p := cos_pert he ev0 hr
    have q : norm (ev - eccVec x mu) / norm (eccVec x mu) ≤ 26 * u * T := by rw [div_le_iff₀ ne]; exact hd
    have := abs_sub_le (rn (rn (B.dot ev x.r / B.norm ev) / B.norm x.r)) (dot ev x.r / (norm ev * norm x.r)) m
    rw [← hm] at p
    linarith
  have hrun : (ic2parD A B x mu).f = A.acosFlip (rn (rn (B.dot ev x.r / B.norm ev) / B.norm x.r)) (B.dot x.r x.v < 0) := by
    unfold ic2parD
    simp only [Option.bind_eq_bind, hev, Option.bind_some, Arith.div?, div?_ok e'.ne', div?_ok r'.ne', hA.rd, Option.map_some]
  rw [hrun]
  obtain ⟨g1, g2⟩ := flip_true hA h3 (B.dot x.r x.v < 0)
  refine ⟨fun h => g1 (by linarith), fun f hf => ?_⟩
  obtain ⟨f0, f1, f2, f3, f4⟩ := g2 f hf
  have hdot := abs_le.1 (hB.dot x.r x.v)
  exact ⟨f0, f1, by linarith, fun h => f3 (not_lt.2 (by linarith [hdot.1])), fun h => f4 (by linarith [hdot.2])⟩

/-- The computed node line. -/
theorem nodeD_err {x : RV ℝ} {K N : ℝ} (hNe : N = √((cross x.r x.v).x ^ 2 + (cross x.r x.v).y ^ 2)) (hK : norm x.r * norm x.v ≤ K * N) (hN : 0 < N) (hKu : 10000 * u * K ≤ 1) :
    1 ≤ K ∧ ∃ n, nodeD A B x = some n ∧ |norm n - 1| ≤ 10.7 * u ∧ norm (n - ⟨-(cross x.r x.v).y / N, (cross x.r x.v).x / N, 0⟩) ≤ 31 * u * K := by
  have hu := u_pos
  have q0 : 0 ≤ norm x.r * norm x.v := mul_nonneg (norm_nonneg _) (norm_nonneg _)
  obtain ⟨e1, e2, -⟩ := angD_comp hA x
  obtain ⟨r1, r2, -⟩ := crossA_rep hA x.r x.v
  have re1 := rn_rep r1
  have re2 := rn_rep r2
  change rn (angMomD A x).x = (angMomD A x).x at re1
  change rn (angMomD A x).y = (angMomD A x).y at re2
  have hn0 : A.cross kHat (angMomD A x) = ⟨-(angMomD A x).y, (angMomD A x).x, 0⟩ := by
    simp only [Arith.cross, kHat, hA.rd, zero_mul, one_mul, rn_zero, zero_sub, sub_zero, rn_neg, rn_rn, re1, re2]
  set h' := angMomD A x with hh'
  set h := cross x.r x.v with hh
  set w : V3 ℝ := ⟨-h.y, h.x, 0⟩ with hw
  set w' : V3 ℝ := ⟨-h'.y, h'.x, 0⟩ with hw'
  have nw : norm w = N := by rw [hNe, hw]; unfold V3.norm V3.dot; congr 1; simp only []; ring
  have d1 : |w'.x - w.x| ≤ 4.2 * u * (norm x.r * norm x.v) := by
    simp only [hw, hw']; rw [show -h'.y - -h.y = -(h'.y - h.y) by ring, abs_neg]; exact e2
  have d2 : |w'.y - w.y| ≤ 4.2 * u * (norm x.r * norm x.v) := e1
  have dn : norm (w' - w) ≤ 1.74 * (4.2 * u * (norm x.r * norm x.v)) :=
    norm_le_of_comp (by positivity) d1 d2 (by simp only [hw, hw', V3.sub_z, sub_self, abs_zero]; positivity)
  have bK : u * (norm x.r * norm x.v) ≤ u * K * N := by
    rw [mul_assoc]; exact mul_le_mul_of_nonneg_left hK hu.le
  have kN : 10000 * (u * K * N) ≤ N := by
    have := mul_le_mul_of_nonneg_right hKu hN.le
    linarith
  have nw' : 0 < norm w' := by
    have := (abs_le.1 ((norm_diff w' w).trans dn)).1
    rw [nw] at this
    linarith
  have hNh : N ≤ norm x.r * norm x.v := by
    refine le_trans ?_ (norm_cross_le x.r x.v)
    rw [hNe]
    unfold V3.norm V3.dot
    apply Real.sqrt_le_sqrt
    nlinarith [mul_self_nonneg (cross x.r x.v).z]
  have hK1 : 1 ≤ K := by
    have h1 := hNh.trans hK
    by_contra hc
    nlinarith
  have hne : w' ≠ 0 := by intro h0; rw [h0] at nw'; unfold V3.norm V3.dot at nw'; simp at nw'
  have hp := norm_pos_of hA hB hne
  obtain ⟨n, hn, hn1⟩ := node_unit hA hB (x := x) (by rw [← hh', hn0]; exact hne)
  have hnode : nodeD A B x = some ⟨rn (w'.x / B.norm w'), rn (w'.y / B.norm w'), rn (w'.z / B.norm w')⟩ := by
    unfold nodeD Arith.vdiv?
    rw [← hh', hn0, if_neg hp.ne', hA.rd]
  have hnn := hn
  rw [hnode] at hnn
  have hnn := (Option.some.inj hnn).symm
  have b1 : 4.2 * u * (norm x.r * norm x.v) / N ≤ 4.2 * u * K := by
    rw [div_le_iff₀ hN]; linarith
  have uK : u ≤ u * K := le_mul_of_one_le_right hu.le hK1
  have c1 := unitD_comp hB (by rw [nw]; exact hN) nw' (abs_x_le w').1 d1 dn
  have c2 := unitD_comp hB (by rw [nw]; exact hN) nw' (abs_x_le w').2.1 d2 dn
  rw [nw] at c1 c2
  refine ⟨hK1, n, hn, hn1, (norm_le_of_comp (m := 17.7 * (u * K)) (by positivity) ?_ ?_ ?_).trans (by linarith [mul_pos hu (lt_of_lt_of_le one_pos hK1)])⟩
  · rw [hnn]
    change |_ - -h.y / N| ≤ _
    change |_ - -h.y / N| ≤ _ at c1
    linarith
  · rw [hnn]
    change |_ - h.x / N| ≤ _
    change |_ - h.x / N| ≤ _ at c2
    linarith
  · rw [hnn]
    simp only [V3.sub_z, hw', zero_div, rn_zero, sub_zero, abs_zero]
    positivity

/-- **C85, the argument of periapsis** (partial: it may be a NaN when the apsides are on the node line): let `m` be the cosine of the angle between the true direction `k × (r × v)` of the
ascending node and the true eccentricity vector, `T` at least `(1 + r v² / mu) / e` and `K` at least `r v / |k × (r × v)|`. The computed angle is a number unless `|m|` is within
`62 K + 74 T` units of roundoff of 1; if it is a number, its cosine misses `m` by at most `62 K + 96 T` units, and it is in the half of the circle that corresponds to the sign of the third
component of the eccentricity vector, unless that component is within `26 e T` units of zero. -/
theorem C85_periapsis_accurate_partial {x : RV ℝ} {mu T K N m : ℝ} (hmu : 0 < mu) (hr : x.r ≠ 0) (he : eccVec x mu ≠ 0) (hT : norm x.r * norm x.v ^ 2 / mu + 1 ≤ T * norm (eccVec x mu))
    (hTu : 10000 * 2⁻¹ ^ 53 * T ≤ 1) (hNe : N = √((cross x.r x.v).x ^ 2 + (cross x.r x.v).y ^ 2)) (hK : norm x.r * norm x.v ≤ K * N) (hN : 0 < N) (hKu : 10000 * 2⁻¹ ^ 53 * K ≤ 1)
    (hm : m = ((cross x.r x.v).x * (eccVec x mu).y - (cross x.r x.v).y * (eccVec x mu).x) / (N * norm (eccVec x mu))) :
    (|m| ≤ 1 - 2⁻¹ ^ 53 * (62 * K + 74 * T) → ∃ om, (ic2parD A B x mu).om = some om) ∧
    ∀ om, (ic2parD A B x mu).om = some om → 0 ≤ om ∧ om ≤ 2 * rn π ∧ |cos om - m| ≤ 2⁻¹ ^ 53 * (62 * K + 96 * T) ∧
      (26 * 2⁻¹ ^ 53 * T * norm (eccVec x mu) < (eccVec x mu).z → om ≤ rn π) ∧ ((eccVec x mu).z < -(26 * 2⁻¹ ^ 53 * T * norm (eccVec x mu)) → rn π ≤ om) := by
  have hu' : (2⁻¹ : ℝ) ^ 53 = u := by unfold u; norm_num
  rw [hu'] at hTu hKu ⊢
  have hu := u_pos
  have hus := u_small
  obtain ⟨T1, ev, hev, ev0, hd⟩ := eccD_rel hA hB hmu hr he hT hTu
  obtain ⟨K1, n, hn, hn1, hnd⟩ := nodeD_err hA hB hNe hK hN hKu
  have ne := norm_pos he
  have en := norm_pos ev0
  have e' := (hB.norm ev).pos en
  have Np : 0 < norm n := by have := (abs_le.1 hn1).1; linarith
  have n0 : n ≠ 0 := by rintro rfl; rw [V3.norm_eq_zero.2 rfl] at Np; exact lt_irrefl _ Np
  have h2 := quot_err (k := 4) (s := norm n) en (hB.norm ev) (by norm_num) (by norm_num) (hB.dot n ev) (abs_dot_le n ev)
  have hmm := cosD_mem n0 ev0
  have h3 : |dot n ev / norm ev - dot n ev / (norm n * norm ev)| ≤ 10.7 * u := by
    have e : dot n ev / norm ev - dot n ev / (norm n * norm ev) = dot n ev / (norm n * norm ev) * (norm n - 1) := by field_simp
    rw [e, abs_mul]
    have := mul_le_mul (abs_le.2 hmm) hn1 (abs_nonneg _) zero_le_one
    linarith
  have h4 : |rn (B.dot n ev / B.norm ev) - dot n ev / (norm n * norm ev)| ≤ 22 * u := by
    have t := abs_sub_le (rn (B.dot n ev / B.norm ev)) (dot n ev / norm ev) (dot n ev / (norm n * norm ev))
    have hN : norm n ≤ 1.01 := by have := (abs_le.1 hn1).2; linarith
    have := h2.trans (mul_le_mul_of_nonneg_left hN (by positivity))
    linarith
  set w : V3 ℝ := ⟨-(cross x.r x.v).y / N, (cross x.r x.v).x / N, 0⟩ with hw
  have w1 : norm w = 1 := by
    have hs : N ^ 2 = (cross x.r x.v).x ^ 2 + (cross x.r x.v).y ^ 2 := by rw [hNe]; exact sq_sqrt (by positivity)
    rw [hw]
    unfold V3.norm V3.dot
    rw [sqrt_eq_one]
    field_simp
    linarith
  have w0 : w ≠ 0 := by intro h; rw [V3.norm_eq_zero.2 h] at w1; norm_num at w1
  have p1 := cos_pert w0 n0 ev0
  rw [w1, div_one] at p1
  have p2 := cos_pert he ev0 w0
  have q : norm (ev - eccVec x mu) / norm (eccVec x mu) ≤ 26 * u * T := by rw [div_le_iff₀ ne]; exact hd
  have hm' : m = dot (eccVec x mu) w / (norm (eccVec x mu) * norm w) := by
    rw [hm, w1, hw]
    unfold V3.dot
    field_simp
    ring
  rw [← hm', w1, dot_comm ev w, mul_comm (norm ev)] at p2
  have uT : u ≤ u * T := le_mul_of_one_le_right hu.le T1
  have h5 : |rn (B.dot n ev / B.norm ev) - m| ≤ u * (62 * K + 74 * T) := by
    have t1 := abs_sub_le (rn (B.dot n ev / B.norm ev)) (dot n ev / (norm n * norm ev)) m
    have t2 := abs_sub_le (dot n ev / (norm n * norm ev)) (dot w ev / (1 * norm ev)) m
    linarith
  have hrun : (ic2parD A B x mu).om = A.acosFlip (rn (B.dot n ev / B.norm ev)) (ev.z < 0) := by
    unfold ic2parD
    simp only [Option.bind_eq_bind, hev, hn, Option.bind_some, Arith.div?, div?_ok e'.ne', hA.rd, Option.map_some]
  rw [hrun]
  obtain ⟨g1, g2⟩ := flip_true hA h5 (ev.z < 0)
  refine ⟨fun h => g1 (by linarith), fun om hom => ?_⟩
  obtain ⟨f0, f1, f2, f3, f4⟩ := g2 om hom
  have hz := abs_le.1 ((abs_x_le (ev - eccVec x mu)).2.2.trans hd)
  rw [V3.sub_z] at hz
  exact ⟨f0, f1, by linarith, fun h => f3 (not_lt.2 (by linarith [hz.1])), fun h => f4 (by linarith [hz.2])⟩

end Apsis

/-- An ellipse in the plane y = 0, on the way from periapsis to apoapsis, with the periapsis below the equator. -/
example : ∃ f om, (ic2parD Arith.rounded (Blas.naive Arith.rounded) ⟨⟨1, 0, 0⟩, ⟨1, 0, 1⟩⟩ 2).f = some f ∧ |cos f - -(√2 / 2)| ≤ 276 * 2⁻¹ ^ 53 ∧ f ≤ rn π ∧
    (ic2parD Arith.rounded (Blas.naive Arith.rounded) ⟨⟨1, 0, 0⟩, ⟨1, 0, 1⟩⟩ 2).om = some om ∧ |cos om - -(√2 / 2)| ≤ 412 * 2⁻¹ ^ 53 ∧ rn π ≤ om := by
  have s0 := sqrt_nonneg (2 : ℝ)
  have s2 : √2 * √2 = (2 : ℝ) := mul_self_sqrt (by norm_num)
  have s1 : 1.4 ≤ √2 := by nlinarith
  have s3 : √2 ≤ 1.5 := by nlinarith
  have h1 : V3.norm (⟨1, 0, 0⟩ : V3 ℝ) = 1 := by unfold V3.norm V3.dot; simp
  have h2 : V3.norm (⟨1, 0, 1⟩ : V3 ℝ) = √2 := by unfold V3.norm V3.dot; norm_num
  have h3 : cross (⟨1, 0, 0⟩ : V3 ℝ) ⟨1, 0, 1⟩ = ⟨0, -1, 0⟩ := by unfold V3.cross; ext <;> simp
  have h4 : eccVec ⟨⟨1, 0, 0⟩, ⟨1, 0, 1⟩⟩ 2 = ⟨-1 / 2, 0, -1 / 2⟩ := by
    unfold eccVec; simp only [h1, h3]; unfold V3.cross; ext <;> norm_num
  have h5 : V3.norm (⟨-1 / 2, 0, -1 / 2⟩ : V3 ℝ) = √2 / 2 := by
    unfold V3.norm V3.dot
    rw [show (-1 / 2 * (-1 / 2) + 0 * 0 + -1 / 2 * (-1 / 2) : ℝ) = (√2 / 2) * (√2 / 2) by nlinarith]
    exact sqrt_mul_self (by positivity)
  have hB := Blas.naive_ok Arith.rounded_double
  have hr : (⟨1, 0, 0⟩ : V3 ℝ) ≠ 0 := by intro h; have := congrArg V3.x h; norm_num at this
  have he : (⟨-1 / 2, 0, -1 / 2⟩ : V3 ℝ) ≠ 0 := by intro h; have := congrArg V3.x h; norm_num at this
  have hT : V3.norm (⟨1, 0, 0⟩ : V3 ℝ) * V3.norm (⟨1, 0, 1⟩ : V3 ℝ) ^ 2 / 2 + 1 ≤ 3 * V3.norm (⟨-1 / 2, 0, -1 / 2⟩ : V3 ℝ) := by rw [h1, h2, h5, sq, s2]; linarith
  have hm : -(√2 / 2) = dot (⟨-1 / 2, 0, -1 / 2⟩ : V3 ℝ) ⟨1, 0, 0⟩ / (V3.norm (⟨-1 / 2, 0, -1 / 2⟩ : V3 ℝ) * V3.norm (⟨1, 0, 0⟩ : V3 ℝ)) := by
    rw [h5, h1, eq_div_iff (by positivity)]; unfold V3.dot; simp only []; linarith
  have hm' : -(√2 / 2) = (((⟨0, -1, 0⟩ : V3 ℝ)).x * (⟨-1 / 2, 0, -1 / 2⟩ : V3 ℝ).y - (⟨0, -1, 0⟩ : V3 ℝ).y * (⟨-1 / 2, 0, -1 / 2⟩ : V3 ℝ).x) / (1 * V3.norm (⟨-1 / 2, 0, -1 / 2⟩ : V3 ℝ)) := by
    rw [h5, eq_div_iff (by positivity)]; simp only []; linarith
  have ha : |-(√2 / 2)| ≤ 0.75 := by rw [abs_neg, abs_of_nonneg (by positivity)]; linarith
  obtain ⟨g1, g2⟩ := C85_anomaly_accurate_partial Arith.rounded_double hB (x := ⟨⟨1, 0, 0⟩, ⟨1, 0, 1⟩⟩) (mu := 2) (T := 3) (m := -(√2 / 2)) (by norm_num) hr (by rw [h4]; exact he) (by rw [h4]; exact hT)
    (by norm_num) (by rw [h4]; exact hm)
  obtain ⟨k1, k2⟩ := C85_periapsis_accurate_partial Arith.rounded_double hB (x := ⟨⟨1, 0, 0⟩, ⟨1, 0, 1⟩⟩) (mu := 2) (T := 3) (K := 2) (N := 1) (m := -(√2 / 2)) (by norm_num) hr (by rw [h4]; exact he)
    (by rw [h4]; exact hT) (by norm_num) (by simp only [h3]; norm_num) (by simp only [h1, h2]; linarith) one_pos (by norm_num) (by rw [h4]; simp only [h3]; exact hm')
  obtain ⟨f, hf⟩ := g1 (ha.trans (by norm_num))
  obtain ⟨om, hom⟩ := k1 (ha.trans (by norm_num))
  obtain ⟨-, -, f1, f2, -⟩ := g2 f hf
  obtain ⟨-, -, o1, -, o2⟩ := k2 om hom
  refine ⟨f, om, hf, f1.trans (by norm_num), f2 ?_, hom, o1.trans (by norm_num), o2 ?_⟩
  · simp only [h1, h2]; unfold V3.dot; norm_num; nlinarith
  · rw [h4, h5]; norm_num; nlinarith

end Kep3
