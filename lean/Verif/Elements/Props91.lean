import Verif.Elements.EqDouble
import Verif.Elements.Props18
import Verif.Lagr.Props89
import Verif.Lambert.Props86

/-!
# Accuracy and singularities of the equinoctial elements in double precision
-/

namespace Kep3
open Real V3 Fl

/-! ## The frame -/

theorem sum3_err {y z Y Z : ℝ} (hy : |y - Y| ≤ u * |Y|) (hz : |z - Z| ≤ u * |Z|) :
    |rn (rn (1 + y) + z) - (1 + Y + Z)| ≤ 3.2 * u * (1 + |Y| + |Z|) := by
  have hu := u_pos
  have hus := u_small
  have e1 := rn_err' (1 + y)
  have e2 := rn_err' (rn (1 + y) + z)
  generalize rn (rn (1 + y) + z) = s at *
  generalize rn (1 + y) = t at *
  have a0 := abs_nonneg Y
  have b0 := abs_nonneg Z
  set S := 1 + |Y| + |Z| with hS
  have S0 : 0 ≤ S := by positivity
  have uS : u * S ≤ 0.001 * S := mul_le_mul_of_nonneg_right (by linarith) S0
  have uuS : u * (u * S) ≤ 0.001 * (u * S) := mul_le_mul_of_nonneg_right (by linarith) (mul_nonneg hu.le S0)
  have hyz : |y - Y| + |z - Z| ≤ u * S := by rw [hS]; nlinarith
  have h1 : |1 + y| ≤ |y - Y| + (1 + |Y|) := by
    have := abs_add_three 1 Y (y - Y)
    rw [abs_one] at this
    rw [show 1 + y = 1 + Y + (y - Y) by ring]; linarith
  have h1' : |1 + y| ≤ 1.01 * S := by have := abs_nonneg (z - Z); linarith
  have e1' := e1.trans (mul_le_mul_of_nonneg_left h1' hu.le)
  have h2 : |t + z| ≤ 1.02 * S := by
    have := abs_add_three (t - (1 + y)) (1 + Y + Z) (y - Y + (z - Z))
    rw [show t + z = t - (1 + y) + (1 + Y + Z) + (y - Y + (z - Z)) by ring]
    have h3 := abs_add_le (y - Y) (z - Z)
    have h4 := abs_add_three 1 Y Z
    rw [abs_one] at h4
    linarith
  have e2' := e2.trans (mul_le_mul_of_nonneg_left h2 hu.le)
  have := abs_add_three (s - (t + z)) (t - (1 + y)) (y - Y + (z - Z))
  have h3 := abs_add_le (y - Y) (z - Z)
  rw [show s - (1 + Y + Z) = s - (t + z) + (t - (1 + y)) + (y - Y + (z - Z)) by ring]
  have := mul_nonneg hu.le S0
  linarith

section Frame
variable {A : Arith} (hA : A.Double)
include hA

theorem eqDen_near (h k : ℝ) : Near 5 (k * k + h * h + 1) (eqDenD A h k) := by
  unfold eqDenD
  rw [hA.rd]
  have a := (Near.exact (mul_self_nonneg k)).rn (by norm_num)
  have b := (Near.exact (mul_self_nonneg h)).rn (by norm_num)
  exact ((((a.add b).rn (by norm_num)).add ((Near.exact zero_le_one).mono (by norm_num))).rn (by norm_num)).mono (by norm_num)

theorem frame_quot (h k : ℝ) {d d' : ℝ} (hd : |d' - d| ≤ 3.2 * u * (k * k + h * h + 1)) (hs : |d| ≤ k * k + h * h + 1) :
    |rn (d' / eqDenD A h k) - d / (k * k + h * h + 1)| ≤ 9.4 * u := by
  have hu := u_pos
  have D : 0 < k * k + h * h + 1 := by have := mul_self_nonneg k; have := mul_self_nonneg h; linarith
  refine (quot_err (k := 3.2) (s := 1) D (eqDen_near hA h k) (by norm_num) (by norm_num) (by rw [one_mul]; exact hd) (by rw [one_mul]; exact hs)).trans ?_
  linarith

/-- The computed frame is that of the computed `h` and `k` up to rounding, however large they are. -/
theorem frame_err {I : ℝ} (hI : I = 1 ∨ I = -1) (h k : ℝ) :
    (|(eqFD A I h k).x - (eqF I h k).x| ≤ 9.4 * u ∧ |(eqFD A I h k).y - (eqF I h k).y| ≤ 9.4 * u ∧
      |(eqFD A I h k).z - (eqF I h k).z| ≤ 9.4 * u) ∧
    (|(eqGD A I h k).x - (eqG I h k).x| ≤ 9.4 * u ∧ |(eqGD A I h k).y - (eqG I h k).y| ≤ 9.4 * u ∧
      |(eqGD A I h k).z - (eqG I h k).z| ≤ 9.4 * u) := by
  have hu := u_pos
  have k0 := mul_self_nonneg k
  have h0 := mul_self_nonneg h
  have hkh : |2 * k * h| ≤ k * k + h * h + 1 := by
    rw [abs_le]; constructor <;> nlinarith [mul_self_nonneg (k - h), mul_self_nonneg (k + h)]
  have hk2 : |2 * k| ≤ k * k + h * h + 1 := by
    rw [abs_le]; constructor <;> nlinarith [mul_self_nonneg (k - 1), mul_self_nonneg (k + 1)]
  have hh2 : |2 * h| ≤ k * k + h * h + 1 := by
    rw [abs_le]; constructor <;> nlinarith [mul_self_nonneg (h - 1), mul_self_nonneg (h + 1)]
  have D0 : 0 ≤ k * k + h * h + 1 := by linarith
  have ex : ∀ t : ℝ, |t - t| ≤ 3.2 * u * (k * k + h * h + 1) := fun t => by rw [sub_self, abs_zero]; positivity
  have rd1 : ∀ t : ℝ, |t| ≤ k * k + h * h + 1 → |rn t - t| ≤ 3.2 * u * (k * k + h * h + 1) := fun t ht => by
    have := rn_err' t
    have := mul_le_mul_of_nonneg_left ht hu.le
    nlinarith
  have ek := rn_err' (k * k)
  have eh := rn_err' (h * h)
  have ak : |k * k| = k * k := abs_of_nonneg k0
  have ah : |h * h| = h * h := abs_of_nonneg h0
  have F1 : |rn (rn (1 - rn (k * k)) + rn (h * h)) - (1 - k * k + h * h)| ≤ 3.2 * u * (k * k + h * h + 1) := by
    have := sum3_err (y := -rn (k * k)) (Y := -(k * k)) (z := rn (h * h)) (Z := h * h) (by rw [neg_sub_neg, abs_sub_comm, abs_neg]; exact ek) eh
    rw [abs_neg, ak, ah] at this
    rw [sub_eq_add_neg 1 (rn (k * k)), sub_eq_add_neg 1 (k * k)]
    linarith
  have G1 : |rn (rn (1 + rn (k * k)) - rn (h * h)) - (1 + k * k - h * h)| ≤ 3.2 * u * (k * k + h * h + 1) := by
    have := sum3_err (y := rn (k * k)) (Y := k * k) (z := -rn (h * h)) (Z := -(h * h)) ek (by rw [neg_sub_neg, abs_sub_comm, abs_neg]; exact eh)
    rw [abs_neg, ak, ah] at this
    rw [sub_eq_add_neg (rn (1 + rn (k * k))), sub_eq_add_neg (1 + k * k)]
    linarith
  have f1 : |1 - k * k + h * h| ≤ k * k + h * h + 1 := by rw [abs_le]; constructor <;> linarith
  have g1 : |1 + k * k - h * h| ≤ k * k + h * h + 1 := by rw [abs_le]; constructor <;> linarith
  have q := fun {d d' : ℝ} => frame_quot hA h k (d := d) (d' := d')
  unfold eqFD eqGD eqF eqG
  rw [hA.rd]
  refine ⟨⟨q F1 f1, q (rd1 _ hkh) hkh, ?_⟩, ⟨?_, ?_, q (ex _) hh2⟩⟩
  · rcases hI with rfl | rfl
    · rw [show -2 * (1 : ℝ) * k = -(2 * k) by ring]; exact q (ex _) (by rwa [abs_neg])
    · rw [show -2 * (-1 : ℝ) * k = 2 * k by ring]; exact q (ex _) hk2
  · rcases hI with rfl | rfl
    · rw [show 2 * (1 : ℝ) * k * h = 2 * k * h by ring]; exact q (rd1 _ hkh) hkh
    · rw [show 2 * (-1 : ℝ) * k * h = -(2 * k * h) by ring]
      exact q (rd1 _ (by rwa [abs_neg])) (by rwa [abs_neg])
  · rcases hI with rfl | rfl
    · simp only [mul_one]; exact q G1 g1
    · simp only [mul_neg_one]
      exact q (by rw [neg_sub_neg, abs_sub_comm]; exact G1) (by rwa [abs_neg])

end Frame

/-- The determinants are the components of a unit vector. -/
theorem frame_det {I : ℝ} (hI : I = 1 ∨ I = -1) (h k : ℝ) :
    ((eqG I h k).y * (eqF I h k).x - (eqF I h k).y * (eqG I h k).x) ^ 2 + ((eqG I h k).z * (eqF I h k).x - (eqF I h k).z * (eqG I h k).x) ^ 2
      + ((eqG I h k).z * (eqF I h k).y - (eqF I h k).z * (eqG I h k).y) ^ 2 = 1 := by
  have D : k * k + h * h + 1 ≠ 0 := by have := mul_self_nonneg k; have := mul_self_nonneg h; linarith
  unfold eqF eqG
  rcases hI with rfl | rfl <;> field_simp <;> ring

theorem frame_le {I : ℝ} (hI : I = 1 ∨ I = -1) (h k : ℝ) :
    (|(eqF I h k).x| ≤ 1 ∧ |(eqF I h k).y| ≤ 1 ∧ |(eqF I h k).z| ≤ 1) ∧ (|(eqG I h k).x| ≤ 1 ∧ |(eqG I h k).y| ≤ 1 ∧ |(eqG I h k).z| ≤ 1) := by
  have k0 := mul_self_nonneg k
  have h0 := mul_self_nonneg h
  have D : 0 < k * k + h * h + 1 := by linarith
  have q : ∀ t : ℝ, |t| ≤ k * k + h * h + 1 → |t / (k * k + h * h + 1)| ≤ 1 := fun t ht => by
    rwa [abs_div, abs_of_pos D, div_le_one D]
  unfold eqF eqG
  rcases hI with rfl | rfl <;> refine ⟨⟨q _ ?_, q _ ?_, q _ ?_⟩, q _ ?_, q _ ?_, q _ ?_⟩ <;> rw [abs_le] <;> constructor <;>
    nlinarith [mul_self_nonneg (k - h), mul_self_nonneg (k + h), mul_self_nonneg (k - 1), mul_self_nonneg (k + 1), mul_self_nonneg (h - 1),
      mul_self_nonneg (h + 1)]

theorem mul_err1 {a a' b b' e : ℝ} (he0 : 0 ≤ e) (he : e ≤ 0.01) (ha : |a| ≤ 1) (hb : |b| ≤ 1) (da : |a' - a| ≤ e) (db : |b' - b| ≤ e) :
    |a' * b' - a * b| ≤ 2.01 * e := by
  have h := abs_add_three ((a' - a) * b) (a * (b' - b)) ((a' - a) * (b' - b))
  rw [show a' * b' - a * b = (a' - a) * b + a * (b' - b) + (a' - a) * (b' - b) by ring]
  rw [abs_mul, abs_mul, abs_mul] at h
  have h1 : |a' - a| * |b| ≤ e * 1 := mul_le_mul da hb (abs_nonneg _) he0
  have h2 : |a| * |b' - b| ≤ 1 * e := mul_le_mul ha db (abs_nonneg _) zero_le_one
  have h3 : |a' - a| * |b' - b| ≤ e * e := mul_le_mul da db (abs_nonneg _) he0
  nlinarith

section Longitude
variable {A : Arith} (hA : A.Double)
include hA

theorem det2_err {a a' b b' c c' d d' : ℝ} (ha : |a| ≤ 1) (hb : |b| ≤ 1) (hc : |c| ≤ 1) (hd : |d| ≤ 1) (da : |a' - a| ≤ 9.4 * u)
    (db : |b' - b| ≤ 9.4 * u) (dc : |c' - c| ≤ 9.4 * u) (dd : |d' - d| ≤ 9.4 * u) : |det2D A a' b' c' d' - (a * b - c * d)| ≤ 47 * u := by
  have hu := u_pos
  have hus := u_small
  unfold det2D
  rw [hA.rd]
  have m1 := mul_err1 (by positivity) (by linarith) ha hb da db
  have m2 := mul_err1 (by positivity) (by linarith) hc hd dc dd
  have n1 : |a * b| ≤ 1 := by rw [abs_mul]; exact mul_le_one₀ ha (abs_nonneg _) hb
  have n2 : |c * d| ≤ 1 := by rw [abs_mul]; exact mul_le_one₀ hc (abs_nonneg _) hd
  refine (crossD_comp (k := 9.5) (s := 4) (by norm_num) (by linarith) (by linarith) (by norm_num) (by norm_num)).trans ?_
  linarith

/-- `X` and `Y` are numbers: one of the determinants is far from zero. -/
theorem eqXY_number {I : ℝ} (hI : I = 1 ∨ I = -1) (h k : ℝ) (r : V3 ℝ) : ∃ XY, eqXYD A (eqFD A I h k) (eqGD A I h k) r = some XY := by
  have hu := u_pos
  have hus := u_small
  obtain ⟨⟨fx, fy, fz⟩, gx, gy, gz⟩ := frame_err hA hI h k
  obtain ⟨⟨fx', fy', fz'⟩, gx', gy', gz'⟩ := frame_le hI h k
  have d1 := det2_err hA gy' fx' fy' gx' gy fx fy gx
  have d2 := det2_err hA gz' fx' fz' gx' gz fx fz gx
  have d3 := det2_err hA gz' fy' fz' gy' gz fy fz gy
  have hd := frame_det hI h k
  unfold eqXYD
  dsimp only
  generalize eqFD A I h k = F at *
  generalize eqGD A I h k = G at *
  generalize (eqG I h k).y * (eqF I h k).x - (eqF I h k).y * (eqG I h k).x = D1 at *
  generalize (eqG I h k).z * (eqF I h k).x - (eqF I h k).z * (eqG I h k).x = D2 at *
  generalize (eqG I h k).z * (eqF I h k).y - (eqF I h k).z * (eqG I h k).y = D3 at *
  generalize det2D A G.y F.x F.y G.x = E1 at *
  generalize det2D A G.z F.x F.z G.x = E2 at *
  generalize det2D A G.z F.y F.z G.y = E3 at *
  have big : ∀ {D E : ℝ}, |E - D| ≤ 47 * u → 1 / 3 ≤ D ^ 2 → 0 < |E| := by
    intro D E h1 h2
    rw [← sq_abs] at h2
    have h3 : 1 / 2 ≤ |D| := by nlinarith [abs_nonneg D]
    have h4 := abs_sub_abs_le_abs_sub D E
    rw [abs_sub_comm] at h4
    linarith
  have hm : 0 < max |E1| (max |E2| |E3|) := by
    by_contra hc
    have hc := not_lt.1 hc
    have c1 : |E1| ≤ 0 := (le_max_left _ _).trans hc
    have c2 : |E2| ≤ 0 := ((le_max_left _ _).trans (le_max_right _ _)).trans hc
    have c3 : |E3| ≤ 0 := ((le_max_right _ _).trans (le_max_right _ _)).trans hc
    rcases le_or_gt (1 / 3) (D1 ^ 2) with h1 | h1
    · exact absurd (big d1 h1) c1.not_gt
    rcases le_or_gt (1 / 3) (D2 ^ 2) with h2 | h2
    · exact absurd (big d2 h2) c2.not_gt
    exact absurd (big d3 (by linarith)) c3.not_gt
  have ne : ∀ E : ℝ, |E| = max |E1| (max |E2| |E3|) → E ≠ 0 := by
    rintro E h1 rfl
    rw [← h1, abs_zero] at hm
    exact lt_irrefl _ hm
  unfold Arith.div?
  split_ifs with i1 i2
  · rw [div?_ok (ne _ i1), div?_ok (ne _ i1)]; exact ⟨_, rfl⟩
  · rw [div?_ok (ne _ i2), div?_ok (ne _ i2)]; exact ⟨_, rfl⟩
  · have i3 : |E3| = max |E1| (max |E2| |E3|) := by
      rcases max_choice |E1| (max |E2| |E3|) with h1 | h1
      · exact absurd h1.symm i1
      · rcases max_choice |E2| |E3| with h2 | h2
        · exact absurd (h1.trans h2).symm i2
        · exact (h1.trans h2).symm
    rw [div?_ok (ne _ i3), div?_ok (ne _ i3)]; exact ⟨_, rfl⟩

end Longitude

/-! ## `h` and `k` -/

section HK
variable {A : Arith} (hA : A.Double) {B : Blas} (hB : B.Ok)
include hA hB

omit hB in
/-- The sign of the third component of the angular momentum survives rounding. -/
theorem angZ_sign (x : RV ℝ) : (0 ≤ (cross x.r x.v).z → 0 ≤ (angMomD A x).z) ∧ ((cross x.r x.v).z ≤ 0 → (angMomD A x).z ≤ 0) := by
  have e : (angMomD A x).z = rn (rn (x.r.x * x.v.y) - rn (x.r.y * x.v.x)) := by unfold angMomD Arith.cross; rw [hA.rd]
  have e' : (cross x.r x.v).z = x.r.x * x.v.y - x.r.y * x.v.x := rfl
  rw [e, e']
  constructor
  · intro h
    have := rn_mono (sub_nonneg.1 h)
    exact rn_nonneg (by linarith)
  · intro h
    have := rn_mono (sub_nonpos.1 h)
    rw [← neg_nonneg, ← rn_neg]
    exact rn_nonneg (by linarith)

omit hB in
/-- The angular momentum of a state that is not within rounding of a radial one is not zero. -/
theorem angD_ne {x : RV ℝ} (h : 8 * u * (norm x.r * norm x.v) < norm (cross x.r x.v)) : angMomD A x ≠ 0 := by
  intro h0
  have hu := u_pos
  obtain ⟨ex, ey, ez⟩ := crossD_err hA x.r x.v x.v (k := 0) le_rfl (by norm_num) le_rfl (by simp) (by simp) (by simp)
  have h0' : A.cross x.r x.v = 0 := h0
  rw [h0'] at ex ey ez
  have q0 : 0 ≤ norm x.r * norm x.v := mul_nonneg (norm_nonneg _) (norm_nonneg _)
  have hc := norm_le_of_comp (v := cross x.r x.v) (m := (0 + 2.1) * u * (2 * (norm x.r * norm x.v))) (by positivity)
    (by simpa [abs_sub_comm] using ex) (by simpa [abs_sub_comm] using ey) (by simpa [abs_sub_comm] using ez)
  have := mul_nonneg hu.le q0
  linarith

/-- The computed unit vector: numbers between -1 and 1, and no error but that of the division. -/
theorem wUnit_run {x : RV ℝ} (h : angMomD A x ≠ 0) : ∃ w, wUnitD A B x = some w ∧
    w = ⟨rn ((angMomD A x).x / B.norm (angMomD A x)), rn ((angMomD A x).y / B.norm (angMomD A x)), rn ((angMomD A x).z / B.norm (angMomD A x))⟩ ∧
    |w.x| ≤ 1 ∧ |w.y| ≤ 1 ∧ |w.z| ≤ 1 := by
  have hp := norm_pos_of hA hB h
  obtain ⟨r1, r2, r3⟩ := crossA_rep hA x.r x.v
  obtain ⟨n1, n2, n3⟩ := hB.norm_ge (angMomD A x) r1 r2 r3
  refine ⟨_, ?_, rfl, abs_le.2 (quot_le hp n1), abs_le.2 (quot_le hp n2), abs_le.2 (quot_le hp n3)⟩
  unfold wUnitD Arith.vdiv?
  rw [if_neg hp.ne', hA.rd]

/-- On the right side of the reference plane `h` and `k` are numbers. -/
theorem hk_run {x : RV ℝ} {b : Bool} (h : angMomD A x ≠ 0) (hz : 0 ≤ sgnI b * (cross x.r x.v).z) :
    ∃ w, wUnitD A B x = some w ∧ |w.x| ≤ 1 ∧ |w.y| ≤ 1 ∧ 0 ≤ sgnI b * w.z ∧ sgnI b * w.z ≤ 1 ∧
      hkD A B x (sgnI b) = some (rn (-w.y / rn (1 + sgnI b * w.z)), rn (w.x / rn (1 + sgnI b * w.z))) := by
  obtain ⟨w, hw, e, w1, w2, w3⟩ := wUnit_run hA hB h
  have hp := norm_pos_of hA hB h
  have hI : 0 ≤ sgnI b * w.z ∧ sgnI b * w.z ≤ 1 := by
    rw [e] at w3 ⊢
    dsimp only at w3 ⊢
    obtain ⟨s1, s2⟩ := angZ_sign hA x
    have w4 := abs_le.1 w3
    generalize (cross x.r x.v).z = c at *
    cases b
    · simp only [sgnI] at hz ⊢
      norm_num at hz ⊢
      exact ⟨rn_nonneg (div_nonneg (s1 hz) hp.le), w4.2⟩
    · simp only [sgnI] at hz ⊢
      norm_num at hz ⊢
      refine ⟨?_, by linarith⟩
      rw [← neg_nonneg, ← rn_neg, ← neg_div]
      exact rn_nonneg (div_nonneg (by linarith [s2 hz]) hp.le)
  have h1 : 0 < rn (1 + sgnI b * w.z) := by
    have := rn_mono (x := 1) (y := 1 + sgnI b * w.z) (by linarith)
    rw [rn_one] at this
    linarith
  refine ⟨w, hw, w1, w2, hI.1, hI.2, ?_⟩
  unfold hkD Arith.div?
  simp only [hw, Option.bind_eq_bind, Option.bind_some, hA.rd, div?_ok h1.ne', Option.map_some]
  rfl

end HK

/-- **C91, no singularity**: on the right side of the reference plane, and not within rounding of a radial orbit, all elements but `p` are numbers,
whatever the eccentricity, the inclination up to 90 degrees and the position on the orbit; `h` and `k` are between -1 and 1. -/
theorem C91_numbers {A : Libm} (hA : A.Double) {B : Blas} (hB : B.Ok) {x : RV ℝ} {mu : ℝ} (b : Bool) (hmu : 0 < mu)
    (hang : 8 * u * (norm x.r * norm x.v) < norm (cross x.r x.v)) (hz : 0 ≤ sgnI b * (cross x.r x.v).z) :
    ∃ f g h k L, (ic2eqD A B x mu b).f = some f ∧ (ic2eqD A B x mu b).g = some g ∧ (ic2eqD A B x mu b).h = some h ∧
      (ic2eqD A B x mu b).k = some k ∧ (ic2eqD A B x mu b).L = some L ∧ |h| ≤ 1 ∧ |k| ≤ 1 := by
  have hr : x.r ≠ 0 := by
    intro h0
    rw [h0] at hang
    have : norm (cross (0 : V3 ℝ) x.v) = 0 := by unfold V3.norm V3.dot V3.cross; simp
    rw [this, V3.norm_eq_zero.2 rfl] at hang
    simp at hang
  obtain ⟨w, -, w1, w2, w3, w4, hhk⟩ := hk_run hA.arith hB (angD_ne hA.arith hang) hz
  obtain ⟨ev, hev, -⟩ := eccVecD_err hA.arith hB x hmu hr
  have hI : sgnI b = 1 ∨ sgnI b = -1 := by cases b <;> simp [sgnI]
  obtain ⟨XY, hXY⟩ := eqXY_number hA.arith hI (rn (-w.y / rn (1 + sgnI b * w.z))) (rn (w.x / rn (1 + sgnI b * w.z))) x.r
  have hR : B.norm x.r ≠ 0 := (norm_pos_of hA.arith hB hr).ne'
  have h1 : 1 ≤ rn (1 + sgnI b * w.z) := by
    have := rn_mono (x := 1) (y := 1 + sgnI b * w.z) (by linarith)
    rwa [rn_one] at this
  have b1 : ∀ t : ℝ, |t| ≤ 1 → |rn (t / rn (1 + sgnI b * w.z))| ≤ 1 := fun t ht =>
    abs_le.2 (quot_le (by linarith) (ht.trans h1))
  set h := rn (-w.y / rn (1 + sgnI b * w.z)) with hh
  set k := rn (w.x / rn (1 + sgnI b * w.z)) with hk
  refine ⟨B.dot ev (eqFD A.toArith (sgnI b) h k), B.dot ev (eqGD A.toArith (sgnI b) h k), h, k,
    A.atan2 (rn (XY.2 / B.norm x.r)) (rn (XY.1 / B.norm x.r)), ?_, ?_, ?_, ?_, ?_, b1 _ (by rwa [abs_neg]), b1 _ w1⟩
  · unfold ic2eqD; simp only [hhk, hev, Option.bind_eq_bind, Option.bind_some, Option.pure_def]
  · unfold ic2eqD; simp only [hhk, hev, Option.bind_eq_bind, Option.bind_some, Option.pure_def]
  · unfold ic2eqD; simp only [hhk, Option.bind_eq_bind, Option.bind_some, Option.pure_def]
  · unfold ic2eqD; simp only [hhk, Option.bind_eq_bind, Option.bind_some, Option.pure_def]
  · unfold ic2eqD Arith.div?
    simp only [hhk, hXY, Option.bind_eq_bind, Option.bind_some, Option.pure_def, div?_ok hR, Option.map_some, hA.arith.rd]

theorem unit_comp {a c n N e d : ℝ} (hn : 0 < n) (hN : 0 < N) (ha : |a| ≤ n) (h1 : |a - c| ≤ e * N) (h2 : |n - N| ≤ d * N) :
    |a / n - c / N| ≤ e + d := by
  have e1 : a / n - c / N = (a - c) / N + a / n * ((N - n) / N) := by field_simp; ring
  rw [e1]
  refine (abs_add_le _ _).trans (add_le_add ?_ ?_)
  · rw [abs_div, abs_of_pos hN, div_le_iff₀ hN]; exact h1
  · rw [abs_mul, abs_div a, abs_of_pos hn, abs_div, abs_of_pos hN, abs_sub_comm]
    have a1 : |a| / n ≤ 1 := by rwa [div_le_one hn]
    have a2 : |n - N| / N ≤ d := by rwa [div_le_iff₀ hN]
    have := mul_le_mul a1 a2 (by positivity) zero_le_one
    linarith

/-- The quotients defining `h` and `k`. -/
theorem half_tan_err {a a' z z' t : ℝ} (ht : u ≤ t) (ht' : t ≤ 1 / 1000) (ha : |a| ≤ 1) (hz0 : 0 ≤ z) (hz' : 0 ≤ z') (hz1' : z' ≤ 1)
    (da : |a' - a| ≤ 17.8 * t) (dz : |z' - z| ≤ 17.8 * t) : |rn (a' / rn (1 + z')) - a / (1 + z)| ≤ 48 * t := by
  have hu := u_pos
  have t0 : 0 < t := hu.trans_le ht
  have e1 := rn_err' (1 + z')
  have h1 : 1 ≤ rn (1 + z') := by
    have := rn_mono (x := 1) (y := 1 + z') (by linarith)
    rwa [rn_one] at this
  have e2 := rn_err' (a' / rn (1 + z'))
  rw [abs_of_nonneg (show 0 ≤ 1 + z' by linarith)] at e1
  generalize rn (1 + z') = d at *
  have hd : |d - (1 + z)| ≤ 19.8 * t := by
    have := abs_add_le (d - (1 + z')) (z' - z)
    rw [show d - (1 + z) = d - (1 + z') + (z' - z) by ring]
    nlinarith
  have d0 : 0 < d := by linarith
  have z0 : 0 < 1 + z := by linarith
  have h2 : |a' / d - a / (1 + z)| ≤ 37.6 * t := by
    have e : a' / d - a / (1 + z) = (a' - a) / d + a / (1 + z) * ((1 + z - d) / d) := by field_simp; ring
    rw [e]
    have b1 : |(a' - a) / d| ≤ 17.8 * t := by
      rw [abs_div, abs_of_pos d0, div_le_iff₀ d0]; nlinarith
    have b2 : |a / (1 + z)| ≤ 1 := by rw [abs_div, abs_of_pos z0, div_le_one z0]; linarith
    have b3 : |(1 + z - d) / d| ≤ 19.8 * t := by
      rw [abs_div, abs_of_pos d0, div_le_iff₀ d0, abs_sub_comm]; nlinarith
    have b4 : |a / (1 + z) * ((1 + z - d) / d)| ≤ 1 * (19.8 * t) := by
      rw [abs_mul]; exact mul_le_mul b2 b3 (abs_nonneg _) zero_le_one
    refine (abs_add_le _ _).trans ?_
    linarith
  have h3 : |a' / d| ≤ 1.1 := by
    rw [abs_div, abs_of_pos d0, div_le_iff₀ d0]
    have := abs_add_le (a' - a) a
    rw [sub_add_cancel] at this
    nlinarith
  have := abs_add_le (rn (a' / d) - a' / d) (a' / d - a / (1 + z))
  rw [sub_add_sub_cancel] at this
  nlinarith [abs_nonneg (a' / d)]

/-- **C91, accuracy of `h` and `k`**: on the right side of the reference plane, an error of some units of roundoff divided by the sine of the angle
between position and velocity. -/
theorem C91_hk_accurate {A : Libm} (hA : A.Double) {B : Blas} (hB : B.Ok) {x : RV ℝ} {mu : ℝ} (b : Bool)
    (hang : 1000 * u * (norm x.r * norm x.v) < norm (cross x.r x.v)) (hz : 0 ≤ sgnI b * (cross x.r x.v).z) :
    ∃ h k, (ic2eqD A B x mu b).h = some h ∧ (ic2eqD A B x mu b).k = some k ∧
      |h - -(cross x.r x.v).y / (norm (cross x.r x.v) + sgnI b * (cross x.r x.v).z)| ≤ 48 * u * (norm x.r * norm x.v / norm (cross x.r x.v)) ∧
      |k - (cross x.r x.v).x / (norm (cross x.r x.v) + sgnI b * (cross x.r x.v).z)| ≤ 48 * u * (norm x.r * norm x.v / norm (cross x.r x.v)) := by
  have hu := u_pos
  have hus := u_small
  have q0 : 0 ≤ norm x.r * norm x.v := mul_nonneg (norm_nonneg _) (norm_nonneg _)
  have hne := angD_ne hA.arith (x := x) (lt_of_le_of_lt (by nlinarith [mul_nonneg hu.le q0]) hang)
  obtain ⟨w, hw, w1, w2, w3, w4, hhk⟩ := hk_run hA.arith hB (b := b) hne hz
  obtain ⟨w', hw', ew, -, -, -⟩ := wUnit_run hA.arith hB hne
  rw [hw] at hw'
  obtain rfl := Option.some.inj hw'
  obtain ⟨ex, ey, ez⟩ := crossD_err hA.arith x.r x.v x.v (k := 0) le_rfl (by norm_num) le_rfl (by simp) (by simp) (by simp)
  change |(angMomD A.toArith x).x - _| ≤ _ at ex
  change |(angMomD A.toArith x).y - _| ≤ _ at ey
  change |(angMomD A.toArith x).z - _| ≤ _ at ez
  have hcl := norm_cross_le x.r x.v
  have hN : 0 < norm (cross x.r x.v) := lt_of_le_of_lt (by positivity) hang
  obtain ⟨c1, c2, c3⟩ := abs_x_le (cross x.r x.v)
  refine ⟨rn (-w.y / rn (1 + sgnI b * w.z)), rn (w.x / rn (1 + sgnI b * w.z)), ?_, ?_, ?_⟩
  · unfold ic2eqD; simp only [hhk, Option.bind_eq_bind, Option.bind_some, Option.pure_def]
  · unfold ic2eqD; simp only [hhk, Option.bind_eq_bind, Option.bind_some, Option.pure_def]
  generalize cross x.r x.v = c at *
  generalize angMomD A.toArith x = a at *
  generalize norm x.r * norm x.v = q at *
  set N := norm c with hNN
  set t := u * (q / N) with ht
  have hs : 1 ≤ q / N := by rwa [one_le_div hN]
  have ht1 : u ≤ t := by rw [ht]; nlinarith
  have ht2 : t ≤ 1 / 1000 := by
    rw [ht, ← mul_div_assoc, div_le_iff₀ hN]; linarith
  have htN : u * q = t * N := by rw [ht]; field_simp
  have an := norm_pos hne
  have hna : |norm a - N| ≤ 7.32 * t * N := by
    have hd : norm (a - c) ≤ 1.74 * (4.2 * (t * N)) := by
      rw [← htN]
      apply norm_le_of_comp (by nlinarith [mul_nonneg hu.le q0])
      · simp only [V3.sub_x]; linarith
      · simp only [V3.sub_y]; linarith
      · simp only [V3.sub_z]; linarith
    have t1 := norm_sub_le' (a - c) (-c)
    have t2 := norm_sub_le' a (a - c)
    have n1 : norm (-c) = norm c := by unfold V3.norm V3.dot; simp
    have s1 : a - c - -c = a := by ext <;> simp
    have s2 : a - (a - c) = c := by ext <;> simp
    rw [s1, n1] at t1
    rw [s2] at t2
    have := mul_nonneg (hu.trans_le ht1).le hN.le
    rw [abs_le]
    constructor <;> linarith
  obtain ⟨m1, m2, m3⟩ := abs_x_le a
  have comp : ∀ {ai ci : ℝ}, |ai| ≤ norm a → |ai - ci| ≤ (0 + 2.1) * u * (2 * q) → |rn (ai / B.norm a) - ci / N| ≤ 17.8 * t := by
    intro ai ci h1 h2
    have h3 := quot_err (k := 0) (s := 1) (d := ai) (d' := ai) an (hB.norm a) le_rfl (by norm_num) (by simp) (by rw [one_mul]; exact h1)
    have h4 := unit_comp (e := 4.2 * t) (d := 7.32 * t) an hN h1 (h2.trans (le_of_eq (by linear_combination 4.2 * htN))) hna
    have := abs_add_le (rn (ai / B.norm a) - ai / norm a) (ai / norm a - ci / N)
    rw [sub_add_sub_cancel] at this
    linarith
  have wx := comp m1 ex
  have wy := comp m2 ey
  have wz := comp m3 ez
  rw [ew] at w1 w2 w3 w4 ⊢
  dsimp only at w1 w2 w3 w4 ⊢
  have hI : |sgnI b| = 1 := by cases b <;> simp [sgnI]
  have zz : 0 ≤ sgnI b * (c.z / N) ∧ sgnI b * (c.z / N) ≤ 1 := by
    rw [← mul_div_assoc]
    refine ⟨div_nonneg hz hN.le, ?_⟩
    rw [div_le_one hN]
    have := le_abs_self (sgnI b * c.z)
    rw [abs_mul, hI, one_mul] at this
    linarith
  have dz : |sgnI b * rn (a.z / B.norm a) - sgnI b * (c.z / N)| ≤ 17.8 * t := by
    rw [← mul_sub, abs_mul, hI, one_mul]; exact wz
  have fin : ∀ {ai ci : ℝ}, |ci| ≤ N → |ai - ci / N| ≤ 17.8 * t → |rn (ai / rn (1 + sgnI b * rn (a.z / B.norm a))) - ci / (N + sgnI b * c.z)| ≤
      48 * u * (q / N) := by
    intro ai ci h1 h2
    have h3 := half_tan_err (a := ci / N) (a' := ai) ht1 ht2 (by rw [abs_div, abs_of_pos hN, div_le_one hN]; exact h1) zz.1 w3 w4 h2 dz
    have e : ci / N / (1 + sgnI b * (c.z / N)) = ci / (N + sgnI b * c.z) := by
      have : N + sgnI b * c.z ≠ 0 := by linarith
      have : 1 + sgnI b * (c.z / N) ≠ 0 := by linarith [zz.1]
      field_simp
    rw [e] at h3
    rw [mul_assoc]
    exact h3
  exact ⟨fin (by rwa [abs_neg]) (by rw [neg_div, neg_sub_neg, abs_sub_comm]; exact wy), fin c1 wx⟩

/-! ## What is lost -/

/-- `h` and `p` in exact arithmetic. -/
theorem ic2eq_hp {x : RV ℝ} {mu : ℝ} {b : Bool} {m : Meq} (h : ic2eq x mu b = some m) :
    m.h = -((cross x.r x.v).y / norm (cross x.r x.v)) / (1 + sgnI b * ((cross x.r x.v).z / norm (cross x.r x.v))) ∧
    (mu ≠ 0 → m.p = 1 / (2 / norm x.r - norm x.v * norm x.v / mu) * (1 - norm (eccVec x mu) * norm (eccVec x mu))) := by
  have dv : ∀ {a b c : ℝ}, div? a b = some c → c = a / b := by
    intro a b c h
    unfold div? at h
    split_ifs at h
    exact (Option.some.inj h).symm
  have vd : ∀ {v w : V3 ℝ} {c : ℝ}, vdiv? v c = some w → w = ⟨v.x / c, v.y / c, v.z / c⟩ := by
    intro v w c h
    unfold vdiv? at h
    split_ifs at h
    exact (Option.some.inj h).symm
  unfold ic2eq at h
  simp only [Option.bind_eq_bind] at h
  obtain ⟨t1, h1, h⟩ := Option.bind_eq_some_iff.1 h
  obtain ⟨t2, h2, h⟩ := Option.bind_eq_some_iff.1 h
  obtain ⟨sma, h3, h⟩ := Option.bind_eq_some_iff.1 h
  obtain ⟨w, h4, h⟩ := Option.bind_eq_some_iff.1 h
  obtain ⟨k, h5, h⟩ := Option.bind_eq_some_iff.1 h
  obtain ⟨hh, h6, h⟩ := Option.bind_eq_some_iff.1 h
  obtain ⟨vh, h7, h⟩ := Option.bind_eq_some_iff.1 h
  obtain ⟨ru, h8, h⟩ := Option.bind_eq_some_iff.1 h
  obtain ⟨XY, h9, h⟩ := Option.bind_eq_some_iff.1 h
  obtain ⟨yr, -, h⟩ := Option.bind_eq_some_iff.1 h
  obtain ⟨xr, -, h⟩ := Option.bind_eq_some_iff.1 h
  obtain rfl := Option.some.inj h
  dsimp only
  rw [dv h6, dv h3, dv h1, dv h2, vd h4]
  refine ⟨rfl, fun _ => ?_⟩
  have e : vh - ru = eccVec x mu := by
    rw [vd h7, vd h8]
    unfold eccVec
    ext <;> simp [div_eq_inv_mul]
  rw [e]

/-- A circular orbit against the sense of rotation of the reference plane, tilted by a small angle. -/
noncomputable def backTilt (ε : ℝ) : RV ℝ := ⟨⟨1, 0, 0⟩, ⟨0, -1, ε⟩⟩

theorem backTilt_h (ε : ℝ) : cross (backTilt ε).r (backTilt ε).v = ⟨0, -ε, -1⟩ := by
  unfold backTilt V3.cross; ext <;> simp

/-- **C91 fails next to retrograde orbits**: for an orbit that misses the singularity by an angle up to 2^-28, less than a milliarcsecond, `h` is
not a number or misses the right value by 80 percent or more, whatever the library. -/
theorem C91_retrograde {A : Libm} (hA : A.Double) {B : Blas} (hB : B.Ok) {ε : ℝ} (hr : Rep ε) (h0 : 0 < ε) (h1 : ε ≤ 1 / 2 ^ 28) :
    ∃ m, ic2eq (backTilt ε) 1 false = some m ∧ eq2ic m 1 false = some (backTilt ε) ∧ 2 / ε ≤ m.h ∧
      ∀ h, (ic2eqD A B (backTilt ε) 1 false).h = some h → |h| ≤ m.h / 5 := by
  have hu := u_pos
  have hus := u_small
  have hc := backTilt_h ε
  have hN : norm (cross (backTilt ε).r (backTilt ε).v) = √(1 + ε ^ 2) := by
    rw [hc]; unfold V3.norm V3.dot; congr 1; ring
  set N := √(1 + ε ^ 2) with hNd
  have hNs : N * N = 1 + ε ^ 2 := mul_self_sqrt (by positivity)
  have hN1 : 1 < N := by
    rw [hNd, Real.lt_sqrt zero_le_one]; nlinarith
  have hv : dot (backTilt ε).v (backTilt ε).v = 1 + ε ^ 2 := by unfold backTilt V3.dot; ring
  have hR : norm (backTilt ε).r = 1 := by unfold backTilt V3.norm V3.dot; simp
  obtain ⟨m, hm, hback, -, -, -⟩ := C19_round_trip (backTilt ε) false (mu := 1) one_pos
    (by rw [hc]; intro h; have := congrArg V3.z h; simp at this)
    (by rw [hv, hR]; nlinarith) (by rw [hN, hc]; simp; linarith)
  obtain ⟨hh, -⟩ := ic2eq_hp hm
  have hh' : m.h = (N + 1) / ε := by
    rw [hh, hN, hc]
    have hN2 : N ≠ 0 := by linarith
    have hN0 : N - 1 ≠ 0 := by linarith
    have e1 : 1 + sgnI false * (-1 / N) = (N - 1) / N := by
      unfold sgnI; rw [if_neg (by simp)]; field_simp; ring
    rw [e1]
    field_simp
    nlinarith
  have hbig : 2 / ε ≤ m.h := by rw [hh']; exact div_le_div_of_nonneg_right (by linarith) h0.le
  refine ⟨m, hm, hback, hbig, ?_⟩
  intro h hrun
  -- the computed angular momentum is exact
  have hang : angMomD A.toArith (backTilt ε) = ⟨0, -ε, -1⟩ := by
    unfold angMomD backTilt Arith.cross
    rw [hA.arith.rd]
    simp [rn_zero, rn_neg, rn_rep hr, rn_one]
  have hne : angMomD A.toArith (backTilt ε) ≠ 0 := by
    rw [hang]; intro h; have := congrArg V3.z h; simp at this
  obtain ⟨w, hw, ew, w1, w2, w3⟩ := wUnit_run hA.arith hB hne
  have hn1 : 1 ≤ B.norm (angMomD A.toArith (backTilt ε)) := by
    obtain ⟨r1, r2, r3⟩ := crossA_rep hA.arith (backTilt ε).r (backTilt ε).v
    have := (hB.norm_ge (angMomD A.toArith (backTilt ε)) r1 r2 r3).2.2
    rw [hang] at this ⊢
    simpa using this
  rw [hang] at ew hn1
  generalize B.norm ⟨0, -ε, -1⟩ = n at *
  have n0 : 0 < n := by linarith
  have wy : |w.y| ≤ 1.01 * ε := by
    rw [ew]
    dsimp only
    have := rn_err' (-ε / n)
    have hq : |(-ε) / n| ≤ ε := by
      rw [abs_div, abs_neg, abs_of_pos h0, abs_of_pos n0, div_le_iff₀ n0]; nlinarith
    have t := abs_add_le (rn (-ε / n) - -ε / n) (-ε / n)
    rw [sub_add_cancel] at t
    nlinarith
  unfold ic2eqD hkD Arith.div? at hrun
  simp only [hw, Option.bind_eq_bind, Option.bind_some, sgnI, Option.pure_def, hA.arith.rd, Bool.false_eq_true, if_false, one_mul] at hrun
  have hzr : Rep (-w.z) := by rw [ew]; exact Rep.neg' (rep_rn _)
  have hz1 := abs_le.1 w3
  rcases one_sub_rep hzr (by linarith) with h2 | h2
  · rw [show 1 + w.z = 0 by linarith, rn_zero] at hrun
    simp [div?] at hrun
  · rw [show (1 : ℝ) / 2 ^ 53 = u from rfl] at h2
    have hd : u ≤ rn (1 + w.z) := by
      have := rn_mono (x := u) (y := 1 + w.z) (by linarith)
      rwa [rn_rep (show Rep u from ⟨1, -53, by norm_num, by unfold u; norm_num⟩)] at this
    generalize rn (1 + w.z) = d at *
    have d0 : 0 < d := by linarith
    rw [div?_ok d0.ne', div?_ok d0.ne'] at hrun
    simp only [Option.map_some, Option.bind_some, Option.some.injEq] at hrun
    rw [← hrun]
    have e := rn_err' (-w.y / d)
    have hq : |(-w.y) / d| ≤ 1.01 * ε / u := by
      rw [abs_div, abs_neg, abs_of_pos d0]
      exact div_le_div₀ (by positivity) wy hu hd
    have t := abs_add_le (rn (-w.y / d) - -w.y / d) (-w.y / d)
    rw [sub_add_cancel] at t
    have hx : ε / u ≤ 1 / 8 / ε := by
      rw [div_le_div_iff₀ hu h0]
      have : ε * ε ≤ 1 / 2 ^ 28 * (1 / 2 ^ 28) := mul_le_mul h1 h1 h0.le (by positivity)
      unfold u
      nlinarith
    have hx' : 1.01 * ε / u = 1.01 * (ε / u) := by ring
    have e2 : (1 : ℝ) / 8 / ε = 1 / 16 * (2 / ε) := by ring
    have p0 : 0 < ε / u := by positivity
    nlinarith [abs_nonneg (-w.y / d)]

/-- An ellipse next to a parabola, at the periapsis. -/
noncomputable def nearEsc : RV ℝ := ⟨⟨4 - 1 / 2 ^ 50, 0, 0⟩, ⟨0, 1, 0⟩⟩

/-- **C91 fails next to a parabola**: the semi-latus rectum, which is about 8 for this ellipse, is not a number, as the code computes it from the
semi-major axis. -/
theorem C91_near_parabola {A : Libm} (hA : A.Double) {B : Blas} (hB : B.Ok) (hN : B.Norm2) :
    (ic2eqD A B nearEsc (2 - 1 / 2 ^ 52) false).p = none ∧
    ∃ m, ic2eq nearEsc (2 - 1 / 2 ^ 52) false = some m ∧ eq2ic m (2 - 1 / 2 ^ 52) false = some nearEsc ∧ 7 < m.p ∧ m.p < 8 := by
  constructor
  · have hr : Rep (4 - 1 / 2 ^ 50 : ℝ) := ⟨2 ^ 52 - 1, -50, by norm_num, by norm_num⟩
    have h1 : B.norm nearEsc.r = 4 - 1 / 2 ^ 50 := by
      unfold nearEsc; rw [hB.norm_x _ hr, abs_of_pos (by norm_num)]
    have h2 : B.norm nearEsc.v = 1 := by
      have := hN 0 1 (by norm_num)
      norm_num [rn_one] at this
      exact this
    have e1 : rn (2 / (4 - 1 / 2 ^ 50) : ℝ) = (2 ^ 52 + 1) / 2 ^ 53 := by
      have := rn_eval (x := (2 / (4 - 1 / 2 ^ 50) : ℝ)) (2 ^ 52 + 1) (-53) (by norm_num [abs_of_pos]) (by norm_num [abs_of_pos]) (by norm_num [abs_lt])
      rw [this]; norm_num
    have e2 : rn (1 / (2 - 1 / 2 ^ 52) : ℝ) = (2 ^ 52 + 1) / 2 ^ 53 := by
      have := rn_eval (x := (1 / (2 - 1 / 2 ^ 52) : ℝ)) (2 ^ 52 + 1) (-53) (by norm_num [abs_of_pos]) (by norm_num [abs_of_pos]) (by norm_num [abs_lt])
      rw [this]; norm_num
    unfold ic2eqD smaD Arith.div?
    simp only [h1, h2, hA.arith.rd, mul_one, rn_one]
    rw [div?_ok (by norm_num), div?_ok (by norm_num), Option.map_some, Option.map_some, e1, e2]
    simp [rn_zero, div?]
  · have hc : cross nearEsc.r nearEsc.v = ⟨0, 0, 4 - 1 / 2 ^ 50⟩ := by
      unfold nearEsc V3.cross; ext <;> simp
    have hn : norm (cross nearEsc.r nearEsc.v) = 4 - 1 / 2 ^ 50 := by
      rw [hc]; unfold V3.norm V3.dot; simp only [mul_zero, add_zero, zero_add]; rw [sqrt_mul_self (by norm_num)]
    have hR : norm nearEsc.r = 4 - 1 / 2 ^ 50 := by
      unfold nearEsc V3.norm V3.dot; simp only [mul_zero, add_zero]; rw [sqrt_mul_self (by norm_num)]
    have hV : norm nearEsc.v = 1 := by unfold nearEsc V3.norm V3.dot; simp
    have hv : dot nearEsc.v nearEsc.v = 1 := by unfold nearEsc V3.dot; simp
    obtain ⟨m, hm, hback, -, -, -⟩ := C19_round_trip nearEsc false (mu := 2 - 1 / 2 ^ 52) (by norm_num)
      (by rw [hc]; intro h; have := congrArg V3.z h; norm_num at this)
      (by rw [hv, hR]; norm_num) (by rw [hn, hc]; norm_num)
    refine ⟨m, hm, hback, ?_⟩
    have hp := (ic2eq_hp hm).2 (by norm_num)
    have he : norm (eccVec nearEsc (2 - 1 / 2 ^ 52)) = (4 - 1 / 2 ^ 50) / (2 - 1 / 2 ^ 52) - 1 := by
      have : eccVec nearEsc (2 - 1 / 2 ^ 52) = ⟨(4 - 1 / 2 ^ 50) / (2 - 1 / 2 ^ 52) - 1, 0, 0⟩ := by
        unfold eccVec
        rw [hc, hR]
        unfold nearEsc V3.cross
        ext <;> simp <;> norm_num
      rw [this]
      unfold V3.norm V3.dot
      simp only [mul_zero, add_zero]
      rw [sqrt_mul_self (by norm_num)]
    rw [hp, he, hR, hV]
    constructor <;> norm_num

/-- **C91, semi-latus rectum**: a number unless the state is within rounding of a parabolic one. -/
theorem C91_p_partial {A : Libm} (hA : A.Double) {B : Blas} (hB : B.Ok) {x : RV ℝ} {mu : ℝ} (b : Bool) (hmu : 0 < mu) (hr : x.r ≠ 0)
    (hpar : 20 * u * (2 / norm x.r + norm x.v * norm x.v / mu) < |2 / norm x.r - norm x.v * norm x.v / mu|) :
    ∃ p, (ic2eqD A B x mu b).p = some p := by
  have hu := u_pos
  have hR := norm_pos hr
  have hB' := (hB.norm x.r).pos hR
  obtain ⟨ev, hev, -⟩ := eccVecD_err hA.arith hB x hmu hr
  have n1 : Near 14 (2 / norm x.r) (rn (2 / B.norm x.r)) := by
    have := (((Near.exact (show (0 : ℝ) ≤ 2 by norm_num)).mul ((hB.norm x.r).inv hR (by norm_num)) (by norm_num)).rn (by norm_num)).mono
      (show (0 + (5 + 0.01) + 0.01 + 1.01 : ℝ) ≤ 14 by norm_num)
    simpa [div_eq_mul_inv] using this
  have n2 : Near 14 (norm x.v * norm x.v / mu) (rn (rn (B.norm x.v * B.norm x.v) / mu)) := by
    have h1 := ((hB.norm x.v).mul (hB.norm x.v) (by norm_num)).rn (by norm_num)
    have := ((h1.mul (Near.exact (show 0 ≤ 1 / mu by positivity)) (by norm_num)).rn (by norm_num)).mono
      (show (5 + 5 + 0.01 + 1.01 + 0 + 0.01 + 1.01 : ℝ) ≤ 14 by norm_num)
    simpa [div_eq_mul_inv] using this
  have hne : rn (rn (2 / B.norm x.r) - rn (rn (B.norm x.v * B.norm x.v) / mu)) ≠ 0 := by
    intro h0
    have e := rn_err' (rn (2 / B.norm x.r) - rn (rn (B.norm x.v * B.norm x.v) / mu))
    rw [h0, zero_sub, abs_neg] at e
    have a1 := n1.abs_le
    have a2 := n2.abs_le
    have p1 : 0 < 2 / norm x.r := by positivity
    have p2 : 0 ≤ norm x.v * norm x.v / mu := div_nonneg (mul_self_nonneg _) hmu.le
    generalize rn (2 / B.norm x.r) = s at *
    generalize rn (rn (B.norm x.v * B.norm x.v) / mu) = t at *
    generalize 2 / norm x.r = S at *
    generalize norm x.v * norm x.v / mu = T at *
    have hst : |s - t| = 0 := by
      have hus := u_small
      by_contra hc
      have : 0 < |s - t| := lt_of_le_of_ne (abs_nonneg _) (Ne.symm hc)
      nlinarith
    have := abs_add_three (S - s) (s - t) (t - T)
    rw [show S - s + (s - t) + (t - T) = S - T by ring, hst, abs_sub_comm S s] at this
    have := mul_nonneg hu.le p1.le
    have := mul_nonneg hu.le p2
    linarith
  have hs : smaD A.toArith B x mu = some (rn (1 / rn (rn (2 / B.norm x.r) - rn (rn (B.norm x.v * B.norm x.v) / mu)))) := by
    unfold smaD Arith.div?
    simp only [hA.arith.rd, div?_ok hB'.ne', div?_ok hmu.ne', Option.map_some, Option.bind_eq_bind, Option.bind_some, div?_ok hne]
  unfold ic2eqD
  simp only [hs, hev, Option.bind_eq_bind, Option.bind_some]
  exact ⟨_, rfl⟩

/-- **C91, back to a state**: elements of ellipses whose eccentricity is not within rounding of 1 give numbers, for all `h`, `k` and longitudes. -/
theorem C91_eq2ic {A : Libm} (hA : A.Double) {q : Meq} {mu : ℝ} (b : Bool) (hmu : 0 < mu) (hp : q.p ≠ 0)
    (he : √(q.f * q.f + q.g * q.g) ≤ 1 - 16 * u) : ∃ x, eq2icD A q mu b = some x := by
  have hu := u_pos
  have hus := u_small
  set e := √(q.f * q.f + q.g * q.g) with hed
  have e0 : 0 ≤ e := sqrt_nonneg _
  have es : e * e = q.f * q.f + q.g * q.g := mul_self_sqrt (by nlinarith [mul_self_nonneg q.f, mul_self_nonneg q.g])
  have hf : |q.f| ≤ 1 := abs_le_of_sq_le_sq (by nlinarith [mul_self_nonneg q.g]) zero_le_one
  have hg : |q.g| ≤ 1 := abs_le_of_sq_le_sq (by nlinarith [mul_self_nonneg q.f]) zero_le_one
  have hcs : -e ≤ q.g * Real.sin q.L + q.f * Real.cos q.L := by
    refine (abs_le_of_sq_le_sq' ?_ e0).1
    have := Real.sin_sq_add_cos_sq q.L
    nlinarith [sq_nonneg (q.g * Real.cos q.L - q.f * Real.sin q.L)]
  have s1 := hA.sin q.L
  have c1 := hA.arith.cos q.L
  have sl := Real.abs_sin_le_one q.L
  have cl := Real.abs_cos_le_one q.L
  have hpos : 0 < rn (rn (1 + rn (q.g * A.sin q.L)) + rn (q.f * A.cos q.L)) := by
    have pg : |q.g * A.sin q.L - q.g * Real.sin q.L| ≤ 4 * u := by
      rw [← mul_sub, abs_mul]
      have := mul_le_mul hg (s1.trans (mul_le_mul_of_nonneg_left sl (by positivity))) (abs_nonneg _) zero_le_one
      linarith
    have pf : |q.f * A.cos q.L - q.f * Real.cos q.L| ≤ 2 * u := by
      rw [← mul_sub, abs_mul]
      have := mul_le_mul hf c1 (abs_nonneg _) zero_le_one
      have h2 : (1 : ℝ) / 2 ^ 52 = 2 * u := by unfold u; norm_num
      linarith
    have bg : |q.g * Real.sin q.L| ≤ 1 := by rw [abs_mul]; exact mul_le_one₀ hg (abs_nonneg _) sl
    have bf : |q.f * Real.cos q.L| ≤ 1 := by rw [abs_mul]; exact mul_le_one₀ hf (abs_nonneg _) cl
    generalize q.g * Real.sin q.L = G at *
    generalize q.f * Real.cos q.L = F at *
    have r1 := rn_err' (q.g * A.sin q.L)
    have r2 := rn_err' (q.f * A.cos q.L)
    have r3 := rn_err' (1 + rn (q.g * A.sin q.L))
    generalize rn (q.g * A.sin q.L) = g at *
    generalize rn (q.f * A.cos q.L) = f at *
    generalize q.g * A.sin q.L = g0 at *
    generalize q.f * A.cos q.L = f0 at *
    generalize rn (1 + g) = t at *
    have b1 : |g0| ≤ 1.01 := by have := abs_add_le (g0 - G) G; rw [sub_add_cancel] at this; linarith
    have b2 : |f0| ≤ 1.01 := by have := abs_add_le (f0 - F) F; rw [sub_add_cancel] at this; linarith
    have r1' := r1.trans (mul_le_mul_of_nonneg_left b1 hu.le)
    have r2' := r2.trans (mul_le_mul_of_nonneg_left b2 hu.le)
    have b3 : |1 + g| ≤ 2.1 := by
      have := abs_add_three 1 (g - g0) g0
      rw [show 1 + (g - g0) + g0 = 1 + g by ring, abs_one] at this
      linarith
    have r3' := r3.trans (mul_le_mul_of_nonneg_left b3 hu.le)
    have i1 := (abs_le.1 r1').1
    have i2 := (abs_le.1 r2').1
    have i3 := (abs_le.1 r3').1
    have i4 := (abs_le.1 pg).1
    have i5 := (abs_le.1 pf).1
    have hlow : 0 < t + f := by linarith
    exact ((Near.exact hlow.le).rn (by norm_num)).pos hlow
  have hpp : 0 < |q.p| := abs_pos.2 hp
  have hm : 0 ≤ rn (mu / |q.p|) := rn_nonneg (by positivity)
  unfold eq2icD Arith.div? Arith.sqrt?
  simp only [hA.arith.rd, div?_ok hpos.ne', div?_ok hpp.ne', Option.map_some, Option.bind_eq_bind, Option.bind_some, sqrt?_ok hm]
  exact ⟨_, rfl⟩

/-! ## Concrete cases -/

/-- An orbit of 45 degrees of inclination, away from everything. -/
noncomputable def slanted : RV ℝ := ⟨⟨1, 0, 0⟩, ⟨0, 1, 1⟩⟩

/-- The hypotheses of the theorems can be met. -/
example : Libm.rounded.Double ∧ (Blas.naive Libm.rounded.toArith).Ok ∧ (Blas.naive Libm.rounded.toArith).Norm2 ∧
    1000 * u * (norm slanted.r * norm slanted.v) < norm (cross slanted.r slanted.v) ∧ 0 ≤ sgnI false * (cross slanted.r slanted.v).z ∧
    20 * u * (2 / norm slanted.r + norm slanted.v * norm slanted.v / 4) < |2 / norm slanted.r - norm slanted.v * norm slanted.v / 4| ∧
    Rep (1 / 2 ^ 30 : ℝ) ∧ (1 / 2 ^ 30 : ℝ) ≤ 1 / 2 ^ 28 ∧ √(1 / 2 * (1 / 2) + 0 * 0) ≤ 1 - 16 * u := by
  have hus := u_small
  have hu := u_pos
  have h1 : norm slanted.r = 1 := by unfold slanted V3.norm V3.dot; simp
  have h2 : norm slanted.v = √2 := by unfold slanted V3.norm V3.dot; norm_num
  have h3 : cross slanted.r slanted.v = ⟨0, -1, 1⟩ := by unfold slanted V3.cross; ext <;> simp
  have h4 : norm (cross slanted.r slanted.v) = √2 := by rw [h3]; unfold V3.norm V3.dot; norm_num
  have h5 : √2 * √2 = (2 : ℝ) := mul_self_sqrt (by norm_num)
  have h6 : 0 < √2 := by positivity
  refine ⟨Libm.rounded_double, Blas.naive_ok Libm.rounded_double.arith, Lambert.naive_norm2 Libm.rounded_double.arith, ?_, ?_, ?_,
    ⟨1, -30, by norm_num, by norm_num⟩, by norm_num, ?_⟩
  · rw [h1, h2, h4]; nlinarith
  · rw [h3]; simp [sgnI]
  · rw [h1, h2, h5, abs_of_pos (by norm_num)]; linarith
  · rw [mul_zero, add_zero, sqrt_mul_self (by norm_num)]; linarith

end Kep3
