import Verif.Elements.Props91b

/-!
# C91: the eccentricity components of the equinoctial elements in double precision
-/

namespace Kep3
open Real V3 Fl

/-- `f`, `g`, `h` and `k` in exact arithmetic. -/
theorem ic2eq_fg {x : RV ℝ} {mu : ℝ} {b : Bool} {m : Meq} (h : ic2eq x mu b = some m) :
    m.h = -(cross x.r x.v).y / norm (cross x.r x.v) / (1 + sgnI b * ((cross x.r x.v).z / norm (cross x.r x.v))) ∧
    m.k = (cross x.r x.v).x / norm (cross x.r x.v) / (1 + sgnI b * ((cross x.r x.v).z / norm (cross x.r x.v))) ∧
    m.f = dot (eccVec x mu) (eqF (sgnI b) m.h m.k) ∧ m.g = dot (eccVec x mu) (eqG (sgnI b) m.h m.k) ∧ norm (cross x.r x.v) ≠ 0 := by
  have dv : ∀ {a b c : ℝ}, div? a b = some c → c = a / b := by
    intro a b c h
    unfold div? at h
    split_ifs at h
    exact (Option.some.inj h).symm
  have vd : ∀ {v w : V3 ℝ} {c : ℝ}, vdiv? v c = some w → w = ⟨v.x / c, v.y / c, v.z / c⟩ ∧ c ≠ 0 := by
    intro v w c h
    unfold vdiv? at h
    split_ifs at h with h0
    exact ⟨(Option.some.inj h).symm, h0⟩
  unfold ic2eq at h
  simp only [Option.bind_eq_bind] at h
  obtain ⟨t1, h1, h⟩ := Option.bind_eq_some_iff.1 h
  obtain ⟨t2, h2, h⟩ := Option.bind_eq_some_iff.1 h
  obtain ⟨sma, h3, h⟩ := Option.bind_eq_some_iff.1 h
  obtain ⟨w, h4, h⟩ := Option.bind_eq_some_iff.1 h
  obtain ⟨k, h5, h⟩ := Option.bind_eq_some_iff.1 h
  obtain ⟨hh, h6, h⟩ := Option.bind_eq_some_iff.1 h
  obtain ⟨vh, h7, h⟩ := Option.bind_eq_some_iff.1 h
  obtain ⟨ru, h8, h⟩ := Option.bind_eq_some_iff.1 h
  obtain ⟨XY, h9, h⟩ := Option.bind_eq_some_iff.1 h
  obtain ⟨yr, -, h⟩ := Option.bind_eq_some_iff.1 h
  obtain ⟨xr, -, h⟩ := Option.bind_eq_some_iff.1 h
  obtain rfl := Option.some.inj h
  have e : vh - ru = eccVec x mu := by
    rw [(vd h7).1, (vd h8).1]
    unfold eccVec
    ext <;> simp <;> ring
  dsimp only
  rw [e]
  refine ⟨?_, ?_, rfl, rfl, (vd h4).2⟩
  · rw [dv h6, (vd h4).1]; ring
  · rw [dv h5, (vd h4).1]

/-- A quotient of polynomials in `h` and `k`. -/
theorem lip_quot {N N' D D' d : ℝ} (hD : 0 < D) (hD' : 1 ≤ D') (hN : |N| ≤ D) (h1 : |N' - N| ≤ d * D') (h2 : |D' - D| ≤ d * D') :
    |N' / D' - N / D| ≤ 2 * d := by
  have e : N' / D' - N / D = (N' - N) / D' + N / D * ((D - D') / D') := by
    have : D' ≠ 0 := by linarith
    field_simp
    ring
  rw [e]
  have a1 : |(N' - N) / D'| ≤ d := by rw [abs_div, abs_of_pos (show 0 < D' by linarith), div_le_iff₀ (by linarith)]; exact h1
  have a2 : |(D - D') / D'| ≤ d := by rw [abs_div, abs_of_pos (show 0 < D' by linarith), div_le_iff₀ (by linarith), abs_sub_comm]; exact h2
  have a3 : |N / D| ≤ 1 := by rw [abs_div, abs_of_pos hD, div_le_one hD]; exact hN
  refine (abs_add_le _ _).trans ?_
  rw [abs_mul]
  have := mul_le_mul a3 a2 (abs_nonneg _) zero_le_one
  linarith

/-- The frame depends on `h` and `k` without amplification. -/
theorem frame_lip {I : ℝ} (hI : I = 1 ∨ I = -1) {h k h' k' t : ℝ} (ht : t ≤ 1 / 10) (hh : |h' - h| ≤ t) (hk : |k' - k| ≤ t) :
    (|(eqF I h' k').x - (eqF I h k).x| ≤ 4.4 * t ∧ |(eqF I h' k').y - (eqF I h k).y| ≤ 4.4 * t ∧ |(eqF I h' k').z - (eqF I h k).z| ≤ 4.4 * t) ∧
    (|(eqG I h' k').x - (eqG I h k).x| ≤ 4.4 * t ∧ |(eqG I h' k').y - (eqG I h k).y| ≤ 4.4 * t ∧ |(eqG I h' k').z - (eqG I h k).z| ≤ 4.4 * t) := by
  have hkh : |2 * k * h| ≤ k * k + h * h + 1 := by
    rw [abs_le]; constructor <;> nlinarith [mul_self_nonneg (k - h), mul_self_nonneg (k + h)]
  have hk2 : |2 * k| ≤ k * k + h * h + 1 := by
    rw [abs_le]; constructor <;> nlinarith [mul_self_nonneg (k - 1), mul_self_nonneg (k + 1), mul_self_nonneg h]
  have hh2 : |2 * h| ≤ k * k + h * h + 1 := by
    rw [abs_le]; constructor <;> nlinarith [mul_self_nonneg (h - 1), mul_self_nonneg (h + 1), mul_self_nonneg k]
  have f1 : |1 - k * k + h * h| ≤ k * k + h * h + 1 := by rw [abs_le]; constructor <;> nlinarith [mul_self_nonneg h, mul_self_nonneg k]
  have g1 : |1 + k * k - h * h| ≤ k * k + h * h + 1 := by rw [abs_le]; constructor <;> nlinarith [mul_self_nonneg h, mul_self_nonneg k]
  have t0 : 0 ≤ t := (abs_nonneg _).trans hh
  have D : 0 < k * k + h * h + 1 := by have := mul_self_nonneg k; have := mul_self_nonneg h; linarith
  have D' : 1 ≤ k' * k' + h' * h' + 1 := by have := mul_self_nonneg k'; have := mul_self_nonneg h'; linarith
  have b1 : |2 * h'| ≤ k' * k' + h' * h' + 1 := by rw [abs_le]; constructor <;> nlinarith [mul_self_nonneg (h' - 1), mul_self_nonneg (h' + 1), mul_self_nonneg k']
  have b2 : |2 * k'| ≤ k' * k' + h' * h' + 1 := by rw [abs_le]; constructor <;> nlinarith [mul_self_nonneg (k' - 1), mul_self_nonneg (k' + 1), mul_self_nonneg h']
  set d := k' * k' + h' * h' + 1 with hd
  have c1 : |(h' - h) * (2 * h')| ≤ t * d := by rw [abs_mul]; exact mul_le_mul hh b1 (abs_nonneg _) t0
  have c2 : |(k' - k) * (2 * k')| ≤ t * d := by rw [abs_mul]; exact mul_le_mul hk b2 (abs_nonneg _) t0
  have c3 : |(h' - h) * (2 * k')| ≤ t * d := by rw [abs_mul]; exact mul_le_mul hh b2 (abs_nonneg _) t0
  have c4 : |(k' - k) * (2 * h')| ≤ t * d := by rw [abs_mul]; exact mul_le_mul hk b1 (abs_nonneg _) t0
  have td : t * t ≤ 0.1 * (t * d) := by
    have := mul_le_mul_of_nonneg_left D' t0
    have := mul_le_mul_of_nonneg_left ht t0
    linarith
  have sq1 : |(h' - h) * (h' - h)| ≤ t * t := by rw [abs_mul]; exact mul_le_mul hh hh (abs_nonneg _) t0
  have sq2 : |(k' - k) * (k' - k)| ≤ t * t := by rw [abs_mul]; exact mul_le_mul hk hk (abs_nonneg _) t0
  have sq3 : |(h' - h) * (k' - k)| ≤ t * t := by rw [abs_mul]; exact mul_le_mul hh hk (abs_nonneg _) t0
  rw [abs_le] at c1 c2 c3 c4 sq1 sq2 sq3
  have hD2 : |d - (k * k + h * h + 1)| ≤ 2.2 * t * d := by
    rw [abs_le]; constructor <;> linarith
  have td1 : t ≤ t * d := le_mul_of_one_le_right t0 D'
  rw [abs_le] at hh hk
  have q := fun {N N' : ℝ} (hN : |N| ≤ k * k + h * h + 1) (h1 : |N' - N| ≤ 2.2 * t * d) => (lip_quot D D' hN h1 hD2).trans (show 2 * (2.2 * t) ≤ 4.4 * t by linarith)
  have e1 : |1 - k' * k' + h' * h' - (1 - k * k + h * h)| ≤ 2.2 * t * d := by rw [abs_le]; constructor <;> linarith
  have e2 : |2 * k' * h' - 2 * k * h| ≤ 2.2 * t * d := by rw [abs_le]; constructor <;> linarith
  have e3 : |2 * k' - 2 * k| ≤ 2.2 * t * d := by rw [abs_le]; constructor <;> linarith
  have e4 : |2 * h' - 2 * h| ≤ 2.2 * t * d := by rw [abs_le]; constructor <;> linarith
  have e5 : |1 + k' * k' - h' * h' - (1 + k * k - h * h)| ≤ 2.2 * t * d := by rw [abs_le]; constructor <;> linarith
  have neg : ∀ {a b c : ℝ}, |a - b| ≤ c → |-a - -b| ≤ c := fun {a b c} h => by rw [show -a - -b = -(a - b) by ring, abs_neg]; exact h
  unfold eqF eqG
  dsimp only
  refine ⟨⟨q f1 e1, q hkh e2, ?_⟩, ?_, ?_, q hh2 e4⟩
  · rcases hI with rfl | rfl
    · rw [show -2 * (1 : ℝ) * k' = -(2 * k') by ring, show -2 * (1 : ℝ) * k = -(2 * k) by ring]; exact q (by rwa [abs_neg]) (neg e3)
    · rw [show -2 * (-1 : ℝ) * k' = 2 * k' by ring, show -2 * (-1 : ℝ) * k = 2 * k by ring]; exact q hk2 e3
  · rcases hI with rfl | rfl
    · rw [show 2 * (1 : ℝ) * k' * h' = 2 * k' * h' by ring, show 2 * (1 : ℝ) * k * h = 2 * k * h by ring]; exact q hkh e2
    · rw [show 2 * (-1 : ℝ) * k' * h' = -(2 * k' * h') by ring, show 2 * (-1 : ℝ) * k * h = -(2 * k * h) by ring]; exact q (by rwa [abs_neg]) (neg e2)
  · rcases hI with rfl | rfl
    · simp only [mul_one]; exact q g1 e5
    · simp only [mul_neg_one]; exact q (by rwa [abs_neg]) (neg e5)

theorem eqFG_norm {I : ℝ} (hI : I = 1 ∨ I = -1) (h k : ℝ) : norm (eqF I h k) = 1 ∧ norm (eqG I h k) = 1 := by
  have h1 := eqFrame_norm hI h k 1 0
  have h2 := eqFrame_norm hI h k 0 1
  simp only [one_mul, zero_mul, mul_one, mul_zero, add_zero, zero_add, sqrt_one] at h1 h2
  exact ⟨h1, h2⟩

/-- The scalar product with an axis of the frame. -/
theorem dotAxis_err {B : Blas} (hB : B.Ok) {ev ev' w w' : V3 ℝ} {T c : ℝ} (hT : 0 ≤ T) (he : norm ev ≤ T) (de : norm (ev' - ev) ≤ 26 * u * T) (hw : norm w = 1)
    (hc : c ≤ 1 / 4) (h1 : |w'.x - w.x| ≤ c) (h2 : |w'.y - w.y| ≤ c) (h3 : |w'.z - w.z| ≤ c) :
    |B.dot ev' w' - dot ev w| ≤ (1.74 * c + 46 * u) * T := by
  have hu := u_pos
  have hus := u_small
  have c0 : 0 ≤ c := (abs_nonneg _).trans h1
  have dw : norm (w' - w) ≤ 1.74 * c := norm_le_of_comp c0 h1 h2 h3
  have nw' : norm w' ≤ 1.5 := by
    have := norm_sub_le' (w' - w) (-w)
    have n1 : norm (-w) = norm w := by unfold V3.norm V3.dot; simp
    rw [show w' - w - -w = w' by ext <;> simp, n1, hw] at this
    linarith
  have ne' : norm ev' ≤ 1.01 * T := by
    have := norm_sub_le' (ev' - ev) (-ev)
    have n1 : norm (-ev) = norm ev := by unfold V3.norm V3.dot; simp
    rw [show ev' - ev - -ev = ev' by ext <;> simp, n1] at this
    have : 26 * u * T ≤ 0.01 * T := mul_le_mul_of_nonneg_right (by linarith) hT
    linarith
  have b1 := hB.dot ev' w'
  have b2 : norm ev' * norm w' ≤ 1.01 * T * 1.5 := mul_le_mul ne' nw' (norm_nonneg _) (by positivity)
  have b3 := b1.trans (mul_le_mul_of_nonneg_left b2 (by positivity))
  have p1 : |dot (ev' - ev) w'| ≤ 26 * u * T * 1.5 := (abs_dot_le _ _).trans (mul_le_mul de nw' (norm_nonneg _) (by positivity))
  have p2 : |dot ev (w' - w)| ≤ T * (1.74 * c) := (abs_dot_le _ _).trans (mul_le_mul he dw (norm_nonneg _) hT)
  have e : B.dot ev' w' - dot ev w = (B.dot ev' w' - dot ev' w') + dot (ev' - ev) w' + dot ev (w' - w) := by
    simp only [V3.dot, V3.sub_x, V3.sub_y, V3.sub_z]; ring
  rw [e]
  refine (abs_add_three _ _ _).trans ?_
  have := mul_nonneg hu.le hT
  linarith

/-- The eccentricity is at most `1 + r v² / mu`. -/
theorem eccVec_norm_le {x : RV ℝ} {mu : ℝ} (hmu : 0 < mu) (hr : x.r ≠ 0) : norm (eccVec x mu) ≤ norm x.v * (norm x.r * norm x.v) / mu + 1 := by
  have hR := norm_pos hr
  unfold eccVec
  refine (norm_sub_le' _ _).trans ?_
  rw [norm_smul_pos' (by positivity), norm_smul_pos' (by positivity), one_div, one_div, inv_mul_cancel₀ hR.ne', inv_mul_eq_div]
  have := (norm_cross_le x.v (cross x.r x.v)).trans (mul_le_mul_of_nonneg_left (norm_cross_le _ _) (norm_nonneg _))
  have := div_le_div_of_nonneg_right this hmu.le
  linarith

/-- **C91, accuracy of `f` and `g`**: on the right side of the reference plane, the components of the eccentricity vector are accurate to 450 units of roundoff
times `1 + r v² / mu`, divided by the sine of the angle between position and velocity. -/
theorem C91_fg_accurate {A : Libm} (hA : A.Double) {B : Blas} (hB : B.Ok) {x : RV ℝ} {mu : ℝ} (b : Bool) {m : Meq} (hmu : 0 < mu)
    (hang : 1000 * u * (norm x.r * norm x.v) < norm (cross x.r x.v)) (hz : 0 ≤ sgnI b * (cross x.r x.v).z) (hm : ic2eq x mu b = some m) :
    ∃ f g, (ic2eqD A B x mu b).f = some f ∧ (ic2eqD A B x mu b).g = some g ∧
      |f - m.f| ≤ 450 * u * (norm x.r * norm x.v / norm (cross x.r x.v)) * (1 + norm x.r * norm x.v ^ 2 / mu) ∧
      |g - m.g| ≤ 450 * u * (norm x.r * norm x.v / norm (cross x.r x.v)) * (1 + norm x.r * norm x.v ^ 2 / mu) := by
  have hu := u_pos
  have hus := u_small
  obtain ⟨m1, m2, m3, m4, hN0⟩ := ic2eq_fg hm
  have hN : 0 < norm (cross x.r x.v) := lt_of_le_of_ne (norm_nonneg _) (Ne.symm hN0)
  have hr : x.r ≠ 0 := by
    intro h0
    rw [h0] at hN0
    apply hN0
    unfold V3.norm V3.dot V3.cross; simp
  obtain ⟨h, k, e1, e2, e3, e4⟩ := C91_hk_accurate hA hB (mu := mu) b hang hz
  obtain ⟨ev, hev, he⟩ := eccVecD_err hA.arith hB x hmu hr
  have hI : sgnI b = 1 ∨ sgnI b = -1 := by cases b <;> simp [sgnI]
  have hS : 1 ≤ norm x.r * norm x.v / norm (cross x.r x.v) := by rw [one_le_div hN]; exact norm_cross_le _ _
  have hden : 1 + sgnI b * ((cross x.r x.v).z / norm (cross x.r x.v)) = (norm (cross x.r x.v) + sgnI b * (cross x.r x.v).z) / norm (cross x.r x.v) := by
    field_simp
  rw [hden, div_div_div_cancel_right₀ hN.ne'] at m1 m2
  rw [← m1] at e3
  rw [← m2] at e4
  have hkd : hkD A.toArith B x (sgnI b) = some (h, k) := by
    unfold ic2eqD at e1 e2
    dsimp only at e1 e2
    rcases hh : hkD A.toArith B x (sgnI b) with _ | hk
    · rw [hh] at e1; cases e1
    · rw [hh] at e1 e2
      simp only [Option.bind_eq_bind, Option.bind_some, Option.pure_def, Option.some.injEq] at e1 e2
      rw [← e1, ← e2]
  have hTe : 1 + norm x.r * norm x.v ^ 2 / mu = norm x.v * (norm x.r * norm x.v) / mu + 1 := by ring
  rw [hTe]
  have hle := eccVec_norm_le hmu hr
  have hT0 : 0 ≤ norm x.v * (norm x.r * norm x.v) / mu + 1 := (norm_nonneg _).trans hle
  refine ⟨B.dot ev (eqFD A.toArith (sgnI b) h k), B.dot ev (eqGD A.toArith (sgnI b) h k), ?_, ?_, ?_⟩
  · unfold ic2eqD; simp only [hkd, hev, Option.bind_eq_bind, Option.bind_some, Option.pure_def]
  · unfold ic2eqD; simp only [hkd, hev, Option.bind_eq_bind, Option.bind_some, Option.pure_def]
  have ht : 48 * u * (norm x.r * norm x.v / norm (cross x.r x.v)) ≤ 1 / 20 := by
    rw [← mul_div_assoc, div_le_iff₀ hN]; linarith
  obtain ⟨⟨a1, a2, a3⟩, b1, b2, b3⟩ := frame_err hA.arith hI h k
  obtain ⟨⟨c1, c2, c3⟩, d1, d2, d3⟩ := frame_lip hI (ht.trans (by norm_num)) e3 e4
  obtain ⟨n1, n2⟩ := eqFG_norm hI m.h m.k
  generalize norm x.r * norm x.v / norm (cross x.r x.v) = S at *
  generalize norm x.v * (norm x.r * norm x.v) / mu + 1 = T at *
  have huS : u ≤ u * S := le_mul_of_one_le_right hu.le hS
  have tri : ∀ {a b c : ℝ}, |a - b| ≤ 9.4 * u → |b - c| ≤ 4.4 * (48 * u * S) → |a - c| ≤ 221 * (u * S) := fun {a b c} p q => by
    have := abs_add_le (a - b) (b - c)
    rw [sub_add_sub_cancel] at this
    linarith
  have fin : (1.74 * (221 * (u * S)) + 46 * u) * T ≤ 450 * u * S * T := mul_le_mul_of_nonneg_right (by linarith) hT0
  rw [m3, m4]
  exact ⟨(dotAxis_err hB hT0 hle he n1 (by linarith) (tri a1 c1) (tri a2 c2) (tri a3 c3)).trans fin,
    (dotAxis_err hB hT0 hle he n2 (by linarith) (tri b1 d1) (tri b2 d2) (tri b3 d3)).trans fin⟩

/-- A slanted ellipse. -/
example : ∃ m f g, ic2eq slanted 4 false = some m ∧ (ic2eqD Libm.rounded (Blas.naive Libm.rounded.toArith) slanted 4 false).f = some f ∧
    (ic2eqD Libm.rounded (Blas.naive Libm.rounded.toArith) slanted 4 false).g = some g ∧ |f - m.f| ≤ 675 * u ∧ |g - m.g| ≤ 675 * u := by
  have hus := u_small
  have hu := u_pos
  have h1 : norm slanted.r = 1 := by unfold slanted V3.norm V3.dot; simp
  have h2 : norm slanted.v = √2 := by unfold slanted V3.norm V3.dot; norm_num
  have h3 : cross slanted.r slanted.v = ⟨0, -1, 1⟩ := by unfold slanted V3.cross; ext <;> simp
  have h4 : norm (cross slanted.r slanted.v) = √2 := by rw [h3]; unfold V3.norm V3.dot; norm_num
  have h5 : √2 * √2 = (2 : ℝ) := mul_self_sqrt (by norm_num)
  have h6 : 0 < √2 := by positivity
  obtain ⟨m, hm, -⟩ := C19_round_trip slanted false (mu := 4) (by norm_num) (by rw [h3]; intro h; have := congrArg V3.z h; norm_num at this)
    (by rw [h1]; unfold slanted V3.dot; norm_num) (by rw [h4, h3]; simp only [Bool.false_eq_true, if_false]; intro h; linarith)
  obtain ⟨f, g, e1, e2, e3, e4⟩ := C91_fg_accurate Libm.rounded_double (Blas.naive_ok Libm.rounded_double.arith) (x := slanted) (mu := 4) false (by norm_num)
    (by rw [h1, h2, h4]; nlinarith) (by rw [h3]; simp [sgnI]) hm
  have e : 450 * u * (norm slanted.r * norm slanted.v / norm (cross slanted.r slanted.v)) * (1 + norm slanted.r * norm slanted.v ^ 2 / 4) = 675 * u := by
    rw [h1, h2, h4, one_mul, div_self h6.ne', sq, h5]; ring
  rw [e] at e3 e4
  exact ⟨m, f, g, hm, e1, e2, e3, e4⟩

/-! ## The semi-latus rectum -/

/-- The reciprocal of the semi-major axis, as computed. -/
theorem invSma_err {B : Blas} (hB : B.Ok) {x : RV ℝ} {mu : ℝ} (hmu : 0 < mu) (hr : x.r ≠ 0) :
    |rn (rn (2 / B.norm x.r) - rn (rn (B.norm x.v * B.norm x.v) / mu)) - (2 / norm x.r - norm x.v * norm x.v / mu)|
      ≤ 15.1 * u * (2 / norm x.r + norm x.v * norm x.v / mu) := by
  have hu := u_pos
  have hus := u_small
  have hR := norm_pos hr
  have n1 : Near 14 (2 / norm x.r) (rn (2 / B.norm x.r)) := by
    have := (((Near.exact (show (0 : ℝ) ≤ 2 by norm_num)).mul ((hB.norm x.r).inv hR (by norm_num)) (by norm_num)).rn (by norm_num)).mono
      (show (0 + (5 + 0.01) + 0.01 + 1.01 : ℝ) ≤ 14 by norm_num)
    simpa [div_eq_mul_inv] using this
  have n2 : Near 14 (norm x.v * norm x.v / mu) (rn (rn (B.norm x.v * B.norm x.v) / mu)) := by
    have h1 := ((hB.norm x.v).mul (hB.norm x.v) (by norm_num)).rn (by norm_num)
    have := ((h1.mul (Near.exact (show 0 ≤ 1 / mu by positivity)) (by norm_num)).rn (by norm_num)).mono
      (show (5 + 5 + 0.01 + 1.01 + 0 + 0.01 + 1.01 : ℝ) ≤ 14 by norm_num)
    simpa [div_eq_mul_inv] using this
  have e := rn_err' (rn (2 / B.norm x.r) - rn (rn (B.norm x.v * B.norm x.v) / mu))
  have a1 := n1.abs_le
  have a2 := n2.abs_le
  have p1 : 0 < 2 / norm x.r := by positivity
  have p2 : 0 ≤ norm x.v * norm x.v / mu := div_nonneg (mul_self_nonneg _) hmu.le
  generalize rn (2 / B.norm x.r) = s at *
  generalize rn (rn (B.norm x.v * B.norm x.v) / mu) = t at *
  generalize 2 / norm x.r = S at *
  generalize norm x.v * norm x.v / mu = T at *
  have q1 := mul_nonneg hu.le p1.le
  have q2 := mul_nonneg hu.le p2
  have d : |s - t - (S - T)| ≤ 14 * u * (S + T) := by
    have := abs_sub (s - S) (t - T)
    rw [show s - S - (t - T) = s - t - (S - T) by ring] at this
    linarith
  have l : |s - t| ≤ 1.05 * (S + T) := by
    have h1 := abs_add_le (s - t - (S - T)) (S - T)
    rw [sub_add_cancel] at h1
    have h2 : |S - T| ≤ S + T := abs_le.2 ⟨by linarith, by linarith⟩
    have h3 : 14 * u * (S + T) ≤ 0.05 * (S + T) := mul_le_mul_of_nonneg_right (by linarith) (by linarith)
    linarith
  have l2 := mul_le_mul_of_nonneg_left l hu.le
  have := abs_add_le (rn (s - t) - (s - t)) (s - t - (S - T))
  rw [sub_add_sub_cancel] at this
  linarith

/-- One minus the square of the eccentricity, as computed. -/
theorem oneMinusEsq_err {B : Blas} (hB : B.Ok) {ev ev' : V3 ℝ} {T : ℝ} (hT : 1 ≤ T) (he : norm ev ≤ T) (de : norm (ev' - ev) ≤ 26 * u * T) :
    |rn (1 - rn (B.norm ev' * B.norm ev')) - (1 - norm ev * norm ev)| ≤ 68 * u * T ^ 2 := by
  have hu := u_pos
  have hus := u_small
  have n0 := norm_nonneg ev
  have n0' := norm_nonneg ev'
  have dn : |norm ev' - norm ev| ≤ 26 * u * T := by
    refine (abs_le.2 ⟨?_, ?_⟩)
    · have := norm_sub_le' ev' (ev' - ev)
      rw [show ev' - (ev' - ev) = ev by ext <;> simp] at this
      linarith
    · have := norm_sub_le' (ev' - ev) (-ev)
      have n1 : norm (-ev) = norm ev := by unfold V3.norm V3.dot; simp
      rw [show ev' - ev - -ev = ev' by ext <;> simp, n1] at this
      linarith
  have n2 : Near 12 (norm ev' * norm ev') (rn (B.norm ev' * B.norm ev')) :=
    (((hB.norm ev').mul (hB.norm ev') (by norm_num)).rn (by norm_num)).mono (by norm_num)
  have a2 := n2.abs_le
  have e := rn_err' (1 - rn (B.norm ev' * B.norm ev'))
  generalize rn (B.norm ev' * B.norm ev') = E at *
  generalize norm ev = n at *
  generalize norm ev' = n' at *
  have hT0 : 0 ≤ T := by linarith
  have huT : 0 ≤ u * T := by positivity
  have hn' : n' ≤ 1.001 * T := by
    have := (abs_le.1 dn).2
    have : 26 * u * T ≤ 0.001 * T := mul_le_mul_of_nonneg_right (by linarith) hT0
    linarith
  have hT2 : 1 ≤ T ^ 2 := by nlinarith
  have hsq : n' * n' ≤ 1.01 * T ^ 2 := by
    have := mul_le_mul hn' hn' n0' (by linarith)
    nlinarith
  have s1 : |n' * n' - n * n| ≤ 52.1 * u * T ^ 2 := by
    rw [show n' * n' - n * n = (n' - n) * (n' + n) by ring, abs_mul]
    have h2 : |n' + n| ≤ 2.001 * T := by rw [abs_of_nonneg (by linarith)]; linarith
    have := mul_le_mul dn h2 (abs_nonneg _) (by positivity)
    have h3 : 0 ≤ u * T ^ 2 := by positivity
    linarith
  have s2 : 12 * u * (n' * n') ≤ 12 * u * (1.01 * T ^ 2) := mul_le_mul_of_nonneg_left hsq (by positivity)
  have uT2 : 0 ≤ u * T ^ 2 := by positivity
  have s3 : |E - n * n| ≤ 64.3 * u * T ^ 2 := by
    have := abs_add_le (E - n' * n') (n' * n' - n * n)
    rw [sub_add_sub_cancel] at this
    linarith
  have s4 : |1 - E| ≤ 3.1 * T ^ 2 := by
    have hE : |E| ≤ 2.01 * T ^ 2 := by
      have := abs_add_le (E - n' * n') (n' * n')
      rw [sub_add_cancel, abs_of_nonneg (mul_self_nonneg n')] at this
      have : 12 * u * (1.01 * T ^ 2) ≤ 0.1 * T ^ 2 := by
        have : 12 * u * 1.01 * T ^ 2 ≤ 0.1 * T ^ 2 := mul_le_mul_of_nonneg_right (by linarith) (by positivity)
        linarith
      linarith
    have := abs_sub (1 : ℝ) E
    rw [abs_one] at this
    linarith
  have s5 := mul_le_mul_of_nonneg_left s4 hu.le
  have := abs_add_le (rn (1 - E) - (1 - E)) (n * n - E)
  rw [show rn (1 - E) - (1 - E) + (n * n - E) = rn (1 - E) - (1 - n * n) by ring, abs_sub_comm (n * n)] at this
  linarith

/-- The product of the two, in the worst case. -/
theorem latusProd_err {a' a Q q R T W : ℝ} (hR : 0 < R) (hT : 1 ≤ T) (hW : W ≤ 2 * T / R) (hpar : 1000 * u * W * |a| ≤ 1) (hWa : 1 ≤ W * |a|)
    (ha : |a' - a| ≤ 17 * u * (W * |a|) * |a|) (hQ : |Q - q| ≤ 68 * u * T ^ 2) (hp : |a * q| ≤ R * T) :
    |rn (a' * Q) - a * q| ≤ 120 * u * |a| * T ^ 2 := by
  have hu := u_pos
  have hus := u_small
  have A0 := abs_nonneg a
  have hT0 : 0 < T := by linarith
  have hT2 : 0 < T ^ 2 := by positivity
  have hRa : R ≤ 2 * T * |a| := by
    have : 1 ≤ 2 * T / R * |a| := hWa.trans (mul_le_mul_of_nonneg_right hW A0)
    rw [div_mul_eq_mul_div, one_le_div hR] at this
    exact this
  have X0 : 0 ≤ u * |a| * T ^ 2 := by positivity
  have hp2 : |a * q| ≤ 2 * (|a| * T ^ 2) := hp.trans (by have := mul_le_mul_of_nonneg_right hRa hT0.le; linarith)
  -- the error of the semi-major axis
  have c1 : 17 * u * (W * |a|) * |a * q| ≤ 34 * (u * |a| * T ^ 2) := by
    have hW0 : 0 ≤ W * |a| := by linarith
    have h1 := mul_le_mul_of_nonneg_left hp (show 0 ≤ 17 * u * (W * |a|) by positivity)
    have h2 : W * |a| * (R * T) ≤ 2 * T / R * |a| * (R * T) := mul_le_mul_of_nonneg_right (mul_le_mul_of_nonneg_right hW A0) (by positivity)
    have h3 : 2 * T / R * |a| * (R * T) = 2 * (|a| * T ^ 2) := by field_simp
    have h4 := mul_le_mul_of_nonneg_left (h2.trans h3.le) (show 0 ≤ 17 * u by positivity)
    linarith
  have c2 : |a * (Q - q)| ≤ 68 * (u * |a| * T ^ 2) := by
    rw [abs_mul]
    have := mul_le_mul_of_nonneg_left hQ A0
    linarith
  have c3 : |a * Q| ≤ |a * q| + 68 * (u * |a| * T ^ 2) := by
    have := abs_add_le (a * q) (a * (Q - q))
    rw [show a * q + a * (Q - q) = a * Q by ring] at this
    linarith
  have c4 : |(a' - a) * Q| ≤ 17 * u * (W * |a|) * |a * Q| := by
    rw [abs_mul, abs_mul]
    have := mul_le_mul_of_nonneg_right ha (abs_nonneg Q)
    linarith
  have c5 : 17 * u * (W * |a|) * (68 * (u * |a| * T ^ 2)) ≤ 2 * (u * |a| * T ^ 2) := by
    have h1 : 17 * u * (W * |a|) ≤ 0.017 := by linarith
    have := mul_le_mul_of_nonneg_right h1 (show 0 ≤ 68 * (u * |a| * T ^ 2) by positivity)
    linarith
  have c6 : |a' * Q - a * q| ≤ 104 * (u * |a| * T ^ 2) := by
    have hW0 : 0 ≤ W * |a| := by linarith
    have h0 := mul_le_mul_of_nonneg_left c3 (show 0 ≤ 17 * u * (W * |a|) by positivity)
    have := abs_add_le ((a' - a) * Q) (a * (Q - q))
    rw [show (a' - a) * Q + a * (Q - q) = a' * Q - a * q by ring] at this
    linarith
  have c7 : u * |a' * Q| ≤ 3 * (u * |a| * T ^ 2) := by
    have := abs_add_le (a' * Q - a * q) (a * q)
    rw [sub_add_cancel] at this
    have h8 : 104 * (u * |a| * T ^ 2) ≤ 1 * (|a| * T ^ 2) := by
      have : 104 * u * (|a| * T ^ 2) ≤ 1 * (|a| * T ^ 2) := mul_le_mul_of_nonneg_right (by linarith) (by positivity)
      linarith
    have := mul_le_mul_of_nonneg_left (show |a' * Q| ≤ 3 * (|a| * T ^ 2) by linarith) hu.le
    linarith
  have e := rn_err' (a' * Q)
  have := abs_add_le (rn (a' * Q) - a' * Q) (a' * Q - a * q)
  rw [sub_add_sub_cancel] at this
  linarith

/-- **C91, accuracy of the semi-latus rectum**: away from parabolas the computed `p` is the square of the angular momentum over `mu` to 120 units of roundoff times
the semi-major axis times `(1 + r v² / mu)²`. (The semi-latus rectum itself can be much smaller than the semi-major axis.) -/
theorem C91_p_accurate {A : Libm} (hA : A.Double) {B : Blas} (hB : B.Ok) {x : RV ℝ} {mu : ℝ} (b : Bool) (hmu : 0 < mu) (hr : x.r ≠ 0)
    (hpar : 1000 * u * (2 / norm x.r + norm x.v * norm x.v / mu) < |2 / norm x.r - norm x.v * norm x.v / mu|) :
    ∃ p, (ic2eqD A B x mu b).p = some p ∧
      |p - norm (cross x.r x.v) ^ 2 / mu| ≤ 120 * u * |1 / (2 / norm x.r - norm x.v * norm x.v / mu)| * (1 + norm x.r * norm x.v ^ 2 / mu) ^ 2 := by
  have hu := u_pos
  have hus := u_small
  have hR := norm_pos hr
  have hB' := (hB.norm x.r).pos hR
  have hV := norm_nonneg x.v
  obtain ⟨ev, hev, he⟩ := eccVecD_err hA.arith hB x hmu hr
  have hT1 : 1 ≤ norm x.v * (norm x.r * norm x.v) / mu + 1 := by
    have : 0 ≤ norm x.v * (norm x.r * norm x.v) / mu := by positivity
    linarith
  have hQ := oneMinusEsq_err hB hT1 (eccVec_norm_le hmu hr) he
  have hD := invSma_err hB (mu := mu) hmu hr
  have hW0 : 0 < 2 / norm x.r + norm x.v * norm x.v / mu := by positivity
  have hd : 0 < |2 / norm x.r - norm x.v * norm x.v / mu| := lt_of_le_of_lt (by positivity) hpar
  have hd0 := abs_pos.1 hd
  have hW1 : |2 / norm x.r - norm x.v * norm x.v / mu| ≤ 2 / norm x.r + norm x.v * norm x.v / mu := by
    have h1 : 0 ≤ 2 / norm x.r := by positivity
    have h2 : 0 ≤ norm x.v * norm x.v / mu := by positivity
    exact abs_le.2 ⟨by linarith, by linarith⟩
  have hWl : 2 / norm x.r + norm x.v * norm x.v / mu ≤ 2 * (norm x.v * (norm x.r * norm x.v) / mu + 1) / norm x.r := by
    rw [le_div_iff₀ hR]
    have : (2 / norm x.r + norm x.v * norm x.v / mu) * norm x.r = 2 + norm x.v * (norm x.r * norm x.v) / mu := by field_simp
    linarith
  have hid : 1 / (2 / norm x.r - norm x.v * norm x.v / mu) * (1 - norm (eccVec x mu) * norm (eccVec x mu)) = norm (cross x.r x.v) ^ 2 / mu := by
    have h1 := eccVec_sq (x := x) (mu := mu) hr hmu.ne'
    rw [← norm_mul_self, ← norm_mul_self] at h1
    have h2 : energy x mu = -(mu / 2) * (2 / norm x.r - norm x.v * norm x.v / mu) := by
      unfold energy; rw [norm_mul_self]; field_simp; ring
    rw [h1, h2, one_div, inv_mul_eq_div, div_eq_iff hd0]
    unfold angMom
    field_simp
    ring
  have hp : norm (cross x.r x.v) ^ 2 / mu ≤ norm x.r * (norm x.v * (norm x.r * norm x.v) / mu + 1) := by
    have h1 : norm (cross x.r x.v) ^ 2 ≤ (norm x.r * norm x.v) ^ 2 := pow_le_pow_left₀ (norm_nonneg _) (norm_cross_le _ _) 2
    have h2 := div_le_div_of_nonneg_right h1 hmu.le
    have h3 : (norm x.r * norm x.v) ^ 2 / mu = norm x.r * (norm x.v * (norm x.r * norm x.v) / mu) := by ring
    linarith
  have hne : rn (rn (2 / B.norm x.r) - rn (rn (B.norm x.v * B.norm x.v) / mu)) ≠ 0 := by
    intro h0
    rw [h0, zero_sub, abs_neg] at hD
    have := mul_pos hu hW0
    linarith
  have hs : smaD A.toArith B x mu = some (rn (1 / rn (rn (2 / B.norm x.r) - rn (rn (B.norm x.v * B.norm x.v) / mu)))) := by
    unfold smaD Arith.div?
    simp only [hA.arith.rd, div?_ok hB'.ne', div?_ok hmu.ne', Option.map_some, Option.bind_eq_bind, Option.bind_some, div?_ok hne]
  refine ⟨_, by unfold ic2eqD; simp only [hs, hev, hA.arith.rd, Option.bind_eq_bind, Option.bind_some]; rfl, ?_⟩
  rw [← hid, show 1 + norm x.r * norm x.v ^ 2 / mu = norm x.v * (norm x.r * norm x.v) / mu + 1 by ring]
  have hpa : |1 / (2 / norm x.r - norm x.v * norm x.v / mu) * (1 - norm (eccVec x mu) * norm (eccVec x mu))| ≤
      norm x.r * (norm x.v * (norm x.r * norm x.v) / mu + 1) := by
    rw [hid, abs_of_nonneg (by positivity)]; exact hp
  generalize norm x.v * (norm x.r * norm x.v) / mu + 1 = T at *
  generalize 2 / norm x.r + norm x.v * norm x.v / mu = W at *
  generalize 2 / norm x.r - norm x.v * norm x.v / mu = D at *
  generalize rn (rn (2 / B.norm x.r) - rn (rn (B.norm x.v * B.norm x.v) / mu)) = D' at *
  have hWa : W * |1 / D| = W / |D| := by rw [abs_div, abs_one, mul_one_div]
  refine latusProd_err hR hT1 hWl ?_ ?_ ?_ hQ hpa
  · rw [mul_assoc, hWa, ← mul_div_assoc, div_le_one hd]; exact hpar.le
  · rw [hWa, one_le_div hd]; exact hW1
  · rw [hWa]
    have hk : 1 ≤ W / |D| := by rw [one_le_div hd]; exact hW1
    have huk : u * (W / |D|) ≤ 1 / 1000 := by
      rw [← mul_div_assoc, div_le_iff₀ hd]; linarith
    have h1 : |D' - D| ≤ 15.1 * u * (W / |D|) * |D| := by
      have : 15.1 * u * (W / |D|) * |D| = 15.1 * u * W := by field_simp
      rw [this]; exact hD
    have hD' : 0.984 * |D| ≤ |D'| := by
      have := abs_sub_abs_le_abs_sub D D'
      rw [abs_sub_comm] at this
      have : 15.1 * u * (W / |D|) * |D| ≤ 0.016 * |D| := mul_le_mul_of_nonneg_right (by linarith) hd.le
      linarith
    have hD'0 : 0 < |D'| := by linarith
    have h2 : |1 / D' - 1 / D| ≤ 15.4 * u * (W / |D|) * |1 / D| := by
      rw [div_sub_div _ _ (abs_pos.1 hD'0) hd0, abs_div, abs_mul, one_mul, mul_one, abs_sub_comm, abs_div, abs_one, div_le_iff₀ (by positivity)]
      have e1 : 15.4 * u * (W / |D|) * (1 / |D|) * (|D'| * |D|) = 15.4 * u * (W / |D|) * |D'| := by field_simp
      rw [e1]
      have := mul_le_mul_of_nonneg_left hD' (show 0 ≤ 15.4 * u * (W / |D|) by positivity)
      have : 0 ≤ u * (W / |D|) * |D| := by positivity
      linarith
    have h3 := rn_err' (1 / D')
    have h4 : |1 / D'| ≤ 1.02 * |1 / D| := by
      have := abs_add_le (1 / D' - 1 / D) (1 / D)
      rw [sub_add_cancel] at this
      have : 15.4 * u * (W / |D|) * |1 / D| ≤ 0.02 * |1 / D| := mul_le_mul_of_nonneg_right (by linarith) (abs_nonneg _)
      linarith
    have h5 := mul_le_mul_of_nonneg_left h4 hu.le
    have h6 : u * |1 / D| ≤ u * (W / |D|) * |1 / D| := mul_le_mul_of_nonneg_right (le_mul_of_one_le_right hu.le hk) (abs_nonneg _)
    have := abs_add_le (rn (1 / D') - 1 / D') (1 / D' - 1 / D)
    rw [sub_add_sub_cancel] at this
    have : 0 ≤ u * (W / |D|) * |1 / D| := by positivity
    linarith

/-- The slanted ellipse. -/
example : ∃ p, (ic2eqD Libm.rounded (Blas.naive Libm.rounded.toArith) slanted 4 false).p = some p ∧ |p - 1 / 2| ≤ 180 * u := by
  have hus := u_small
  have hu := u_pos
  have h1 : norm slanted.r = 1 := by unfold slanted V3.norm V3.dot; simp
  have h2 : norm slanted.v = √2 := by unfold slanted V3.norm V3.dot; norm_num
  have h3 : cross slanted.r slanted.v = ⟨0, -1, 1⟩ := by unfold slanted V3.cross; ext <;> simp
  have h4 : norm (cross slanted.r slanted.v) = √2 := by rw [h3]; unfold V3.norm V3.dot; norm_num
  have h5 : √2 * √2 = (2 : ℝ) := mul_self_sqrt (by norm_num)
  obtain ⟨p, e1, e2⟩ := C91_p_accurate Libm.rounded_double (Blas.naive_ok Libm.rounded_double.arith) (x := slanted) (mu := 4) false (by norm_num)
    (by unfold slanted; intro h; have := congrArg V3.x h; norm_num at this) (by rw [h1, h2, h5, abs_of_pos (by norm_num)]; linarith)
  rw [h1, h2, h4, sq √2, h5, abs_of_pos (show (0 : ℝ) < 1 / (2 / 1 - 2 / 4) by norm_num)] at e2
  refine ⟨p, e1, ?_⟩
  norm_num at e2 ⊢
  linarith

end Kep3
