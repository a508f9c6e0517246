import Verif.Elements.Props16

/-!
# C18, C19, C20: modified equinoctial elements
-/

namespace Kep3
open Real V3

theorem sgnI_sq (b : Bool) : sgnI b * sgnI b = 1 := by cases b <;> norm_num [sgnI]

/-- The wrapped polar angle. -/
theorem wrapNeg_crop (θ : ℝ) : ∃ k : ℤ, wrapNeg (atan2 (sin θ) (cos θ)) = θ + 2 * π * k ∧
    0 ≤ wrapNeg (atan2 (sin θ) (cos θ)) ∧ wrapNeg (atan2 (sin θ) (cos θ)) < 2 * π := by
  obtain ⟨k, hk, -, -⟩ := atan2_crop θ
  have hm := atan2_mem (sin θ) (cos θ)
  have := pi_pos
  unfold wrapNeg
  split
  · exact ⟨k + 1, by rw [hk]; push_cast; ring, by linarith, by linarith⟩
  · exact ⟨k, hk, by linarith, by linarith⟩

/-- The wrapped polar angle of a unit vector. -/
theorem wrapNeg_unit {c s : ℝ} (h : c ^ 2 + s ^ 2 = 1) : cos (wrapNeg (atan2 s c)) = c ∧ sin (wrapNeg (atan2 s c)) = s ∧
    0 ≤ wrapNeg (atan2 s c) ∧ wrapNeg (atan2 s c) < 2 * π := by
  have h0 : 0 < c ^ 2 + s ^ 2 := by rw [h]; norm_num
  have hc := atan2_cos h0
  have hs := atan2_sin h0
  rw [h, sqrt_one, one_mul] at hc hs
  have hm := atan2_mem s c
  have := pi_pos
  unfold wrapNeg
  split
  · rw [cos_add_two_pi, sin_add_two_pi]; exact ⟨hc, hs, by linarith, by linarith⟩
  · exact ⟨hc, hs, by linarith, by linarith⟩

theorem sqrt_polar {e θ : ℝ} (he : 0 ≤ e) : √(e * cos θ * (e * cos θ) + e * sin θ * (e * sin θ)) = e := by
  rw [show e * cos θ * (e * cos θ) + e * sin θ * (e * sin θ) = e ^ 2 by
    linear_combination e ^ 2 * sin_sq_add_cos_sq θ, sqrt_sq he]

/-- `par2eq` at a non-singular inclination. -/
theorem par2eq_run (q : Par) (b : Bool) (h1 : 0 < q.i) (h2 : q.i < π) :
    ∃ t, par2eq q b = some ⟨q.a * (1 - q.e * q.e), q.e * cos (q.om + sgnI b * q.Om),
      q.e * sin (q.om + sgnI b * q.Om), t * cos q.Om, t * sin q.Om, q.f + q.om + sgnI b * q.Om⟩ ∧ 0 < t ∧
      t * cos (q.i / 2) = (if b then (1 + cos q.i) / (2 * sin (q.i / 2)) else sin (q.i / 2)) ∧
      π / 2 * (1 - sgnI b) + 2 * sgnI b * arctan t = q.i := by
  have hc : 0 < cos (q.i / 2) := cos_pos_of_mem_Ioo ⟨by linarith, by linarith⟩
  have hs : 0 < sin (q.i / 2) := sin_pos_of_pos_of_lt_pi (by linarith) (by linarith)
  have ht : 0 < tan (q.i / 2) := tan_pos_of_pos_of_lt_pi_div_two (by linarith) (by linarith)
  have hat : arctan (tan (q.i / 2)) = q.i / 2 := arctan_tan (by linarith) (by linarith)
  cases b
  · refine ⟨tan (q.i / 2), ?_, ht, ?_, ?_⟩
    · unfold par2eq; rw [tan?_ok hc.ne']; simp
    · simp only [Bool.false_eq_true, if_false]; rw [tan_eq_sin_div_cos]; field_simp
    · simp only [sgnI, Bool.false_eq_true, if_false]; rw [hat]; ring
  · refine ⟨1 / tan (q.i / 2), ?_, by positivity, ?_, ?_⟩
    · unfold par2eq; rw [tan?_ok hc.ne']; simp [div?_ok ht.ne']
    · simp only [if_true]
      have : cos q.i = 2 * cos (q.i / 2) ^ 2 - 1 := by rw [← cos_two_mul]; congr 1; ring
      rw [tan_eq_sin_div_cos, this]; field_simp; ring
    · simp only [sgnI, if_true]
      rw [one_div, arctan_inv_of_pos ht, hat]; ring

/-- **C18**: Keplerian to equinoctial and back: `a`, `e`, `i` unchanged, the angles up to full turns, with `Omega`
reduced to `[0, 2 pi)` and `omega` to `[0, 2 pi]`. -/
theorem C18_par_eq_par (q : Par) (b : Bool) (he : 0 < q.e) (he1 : q.e ≠ 1) (h1 : 0 < q.i) (h2 : q.i < π) :
    ∃ m q', par2eq q b = some m ∧ eq2par m b = some q' ∧ q'.a = q.a ∧ q'.e = q.e ∧ q'.i = q.i ∧
      (∃ k : ℤ, q'.Om = q.Om + 2 * π * k) ∧ (∃ k : ℤ, q'.om = q.om + 2 * π * k) ∧ (∃ k : ℤ, q'.f = q.f + 2 * π * k) ∧
      0 ≤ q'.Om ∧ q'.Om < 2 * π ∧ 0 ≤ q'.om ∧ q'.om ≤ 2 * π := by
  obtain ⟨t, hrun, ht, -, hinc⟩ := par2eq_run q b h1 h2
  have hee : 1 - q.e * q.e ≠ 0 := by
    intro h
    have : (1 - q.e) * (1 + q.e) = 0 := by linarith
    rcases mul_eq_zero.1 this with h | h
    · exact he1 (by linarith)
    · linarith
  obtain ⟨kz, hz, z0, z1⟩ := wrapNeg_crop (q.om + sgnI b * q.Om)
  obtain ⟨kO, hO, O0, O1⟩ := wrapNeg_crop q.Om
  set Z := wrapNeg (atan2 (sin (q.om + sgnI b * q.Om)) (cos (q.om + sgnI b * q.Om))) with hZ
  set O := wrapNeg (atan2 (sin q.Om) (cos q.Om)) with hOd
  have hrun2 : eq2par ⟨q.a * (1 - q.e * q.e), q.e * cos (q.om + sgnI b * q.Om),
      q.e * sin (q.om + sgnI b * q.Om), t * cos q.Om, t * sin q.Om, q.f + q.om + sgnI b * q.Om⟩ b =
      some (let om := if Z - sgnI b * O < 0 then Z - sgnI b * O + 2 * π
          else if 2 * π < Z - sgnI b * O then Z - sgnI b * O - 2 * π else Z - sgnI b * O
        ⟨q.a, q.e, q.i, O, om, q.f + q.om + sgnI b * q.Om - sgnI b * O - om⟩) := by
    unfold eq2par
    simp only [sqrt_polar he.le, sqrt_polar ht.le, div?_ok he.ne', div?_ok ht.ne', div?_ok hee, Option.bind_eq_bind,
      Option.bind_some, mul_div_cancel_left₀ _ he.ne', mul_div_cancel_left₀ _ ht.ne', hinc,
      mul_div_cancel_right₀ _ hee, ← hZ, ← hOd]
    rfl
  refine ⟨_, _, hrun, hrun2, rfl, rfl, rfl, ⟨kO, hO⟩, ?_, ?_, O0, O1, ?_, ?_⟩
  all_goals simp only []
  all_goals have hpi := pi_pos
  · rw [hz, hO]
    split_ifs
    · cases b
      · exact ⟨kz - kO + 1, by simp only [sgnI]; push_cast; simp; ring⟩
      · exact ⟨kz + kO + 1, by simp only [sgnI]; push_cast; simp; ring⟩
    · cases b
      · exact ⟨kz - kO - 1, by simp only [sgnI]; push_cast; simp; ring⟩
      · exact ⟨kz + kO - 1, by simp only [sgnI]; push_cast; simp; ring⟩
    · cases b
      · exact ⟨kz - kO, by simp only [sgnI]; push_cast; simp; ring⟩
      · exact ⟨kz + kO, by simp only [sgnI]; push_cast; simp; ring⟩
  · rw [hz, hO]
    split_ifs
    · exact ⟨-kz - 1, by push_cast; ring⟩
    · exact ⟨-kz + 1, by push_cast; ring⟩
    · exact ⟨-kz, by push_cast; ring⟩
  · split_ifs with g1 g2
    · cases b <;> simp only [sgnI] at * <;> simp at * <;> linarith
    · linarith
    · linarith
  · split_ifs with g1 g2
    · linarith
    · cases b <;> simp only [sgnI] at * <;> simp at * <;> linarith
    · linarith

/-- **C18**: equinoctial to Keplerian and back returns the same six numbers. -/
theorem C18_eq_par_eq (m : Meq) (b : Bool) (he : m.f ^ 2 + m.g ^ 2 ≠ 0) (he1 : m.f ^ 2 + m.g ^ 2 ≠ 1)
    (hi : m.h ^ 2 + m.k ^ 2 ≠ 0) : ∃ q, eq2par m b = some q ∧ par2eq q b = some m ∧ 0 < q.i ∧ q.i < π ∧ 0 < q.e := by
  set e := √(m.f * m.f + m.g * m.g) with hed
  set t := √(m.h * m.h + m.k * m.k) with htd
  have hes : e ^ 2 = m.f ^ 2 + m.g ^ 2 := by
    rw [hed, sq_sqrt (by nlinarith [sq_nonneg m.f, sq_nonneg m.g])]; ring
  have hts : t ^ 2 = m.h ^ 2 + m.k ^ 2 := by
    rw [htd, sq_sqrt (by nlinarith [sq_nonneg m.h, sq_nonneg m.k])]; ring
  have he0 : 0 < e := lt_of_le_of_ne (sqrt_nonneg _) (fun h => he (by rw [← hes, ← h]; ring))
  have ht0 : 0 < t := lt_of_le_of_ne (sqrt_nonneg _) (fun h => hi (by rw [← hts, ← h]; ring))
  have hee : 1 - e * e ≠ 0 := by
    intro h; apply he1; rw [← hes]; linarith
  obtain ⟨zc, zs, z0, z1⟩ := wrapNeg_unit (c := m.f / e) (s := m.g / e)
    (by rw [div_pow, div_pow, ← add_div, ← hes, div_self (pow_ne_zero 2 he0.ne')])
  obtain ⟨oc, os, o0, o1⟩ := wrapNeg_unit (c := m.h / t) (s := m.k / t)
    (by rw [div_pow, div_pow, ← add_div, ← hts, div_self (pow_ne_zero 2 ht0.ne')])
  set Z := wrapNeg (atan2 (m.g / e) (m.f / e)) with hZ
  set O := wrapNeg (atan2 (m.k / t) (m.h / t)) with hOd
  obtain ⟨om, hom⟩ : ∃ om, om = (if Z - sgnI b * O < 0 then Z - sgnI b * O + 2 * π
          else if 2 * π < Z - sgnI b * O then Z - sgnI b * O - 2 * π else Z - sgnI b * O) := ⟨_, rfl⟩
  have hrun : eq2par m b = some ⟨m.p / (1 - e * e), e, π / 2 * (1 - sgnI b) + 2 * sgnI b * arctan t, O, om,
      m.L - sgnI b * O - om⟩ := by
    unfold eq2par
    simp only [← hed, ← htd, div?_ok he0.ne', div?_ok ht0.ne', div?_ok hee, Option.bind_eq_bind, Option.bind_some,
      ← hZ, ← hOd, hom]
    rfl
  have hc : cos (om + sgnI b * O) = m.f / e ∧ sin (om + sgnI b * O) = m.g / e := by
    rw [hom, ← zc, ← zs]
    split_ifs
    · rw [show Z - sgnI b * O + 2 * π + sgnI b * O = Z + 2 * π by ring, cos_add_two_pi, sin_add_two_pi]; simp
    · rw [show Z - sgnI b * O - 2 * π + sgnI b * O = Z - 2 * π by ring, cos_sub_two_pi, sin_sub_two_pi]; simp
    · rw [show Z - sgnI b * O + sgnI b * O = Z by ring]; simp
  have hat0 : 0 < arctan t := arctan_pos.2 ht0
  have hat1 := arctan_lt_pi_div_two t
  refine ⟨_, hrun, ?_, ?_, ?_, he0⟩
  · have hfin : ∀ t', t' = t → (some ⟨m.p / (1 - e * e) * (1 - e * e), e * cos (om + sgnI b * O),
        e * sin (om + sgnI b * O), t' * cos O, t' * sin O, m.L - sgnI b * O - om + om + sgnI b * O⟩ : Option Meq)
        = some m := by
      intro t' ht'
      refine congrArg some (Meq.ext ?_ ?_ ?_ ?_ ?_ ?_)
      · exact div_mul_cancel₀ _ hee
      · show e * cos (om + sgnI b * O) = m.f
        rw [hc.1]; field_simp
      · show e * sin (om + sgnI b * O) = m.g
        rw [hc.2]; field_simp
      · show t' * cos O = m.h
        rw [oc, ht']; field_simp
      · show t' * sin O = m.k
        rw [os, ht']; field_simp
      · show m.L - sgnI b * O - om + om + sgnI b * O = m.L
        ring
    unfold par2eq
    cases b
    · have : (π / 2 * (1 - sgnI false) + 2 * sgnI false * arctan t) / 2 = arctan t := by simp [sgnI]
      simp only [this]
      rw [tan?_ok (cos_arctan_pos t).ne']
      exact hfin _ (tan_arctan t)
    · have : (π / 2 * (1 - sgnI true) + 2 * sgnI true * arctan t) / 2 = π / 2 - arctan t := by simp [sgnI]; ring
      simp only [this]
      have hcne : cos (π / 2 - arctan t) ≠ 0 := by
        rw [cos_pi_div_two_sub]; exact (sin_pos_of_pos_of_lt_pi hat0 (by linarith [pi_pos])).ne'
      have htan : tan (π / 2 - arctan t) = t⁻¹ := by rw [tan_pi_div_two_sub, tan_arctan]
      rw [tan?_ok hcne, htan]
      simp only [Option.bind_eq_bind, Option.bind_some, if_true]
      rw [div?_ok (inv_ne_zero ht0.ne')]
      exact hfin _ (by rw [one_div, inv_inv])
  · cases b <;> simp only [sgnI] <;> simp <;> linarith
  · cases b <;> simp only [sgnI] <;> simp <;> linarith

/-- Node direction and its companion in the orbit plane. -/
noncomputable def nodeN (Om : ℝ) : V3 ℝ := ⟨cos Om, sin Om, 0⟩
noncomputable def nodeM (i Om : ℝ) : V3 ℝ := ⟨-sin Om * cos i, cos Om * cos i, sin i⟩

/-- The equinoctial frame is the node frame turned by `-I Omega`. -/
theorem eqFrame {t i Om I : ℝ} (hI : I * I = 1) (h1 : 1 / (1 + t ^ 2) = (1 + I * cos i) / 2)
    (h2 : t / (1 + t ^ 2) = sin i / 2) :
    eqF I (t * cos Om) (t * sin Om) = cos Om • nodeN Om - (I * sin Om) • nodeM i Om ∧
    eqG I (t * cos Om) (t * sin Om) = (I * sin Om) • nodeN Om + cos Om • nodeM i Om := by
  have hs := sin_sq_add_cos_sq Om
  have hd : t * sin Om * (t * sin Om) + t * cos Om * (t * cos Om) + 1 = 1 + t ^ 2 := by
    linear_combination t ^ 2 * hs
  have h3 : t ^ 2 / (1 + t ^ 2) = (1 - I * cos i) / 2 := by
    have : t ^ 2 / (1 + t ^ 2) + 1 / (1 + t ^ 2) = 1 := by
      rw [← add_div, add_comm, div_self]; positivity
    linarith
  unfold eqF eqG
  simp only [hd]
  have k : ∀ a b c : ℝ, (a + b * t + c * t ^ 2) / (1 + t ^ 2)
      = a * ((1 + I * cos i) / 2) + b * (sin i / 2) + c * ((1 - I * cos i) / 2) := by
    intro a b c; rw [← h1, ← h2, ← h3]; ring
  constructor
  · ext
    · simp only [sub_x, smul_x, nodeN, nodeM]
      rw [show 1 - t * sin Om * (t * sin Om) + t * cos Om * (t * cos Om)
        = 1 + 0 * t + (cos Om ^ 2 - sin Om ^ 2) * t ^ 2 by ring, k]
      linear_combination (-(1 + I * cos i) / 2) * hs
    · simp only [sub_y, smul_y, nodeN, nodeM]
      rw [show 2 * (t * sin Om) * (t * cos Om) = 0 + 0 * t + (2 * sin Om * cos Om) * t ^ 2 by ring, k]
      ring
    · simp only [sub_z, smul_z, nodeN, nodeM]
      rw [show -2 * I * (t * sin Om) = 0 + (-2 * I * sin Om) * t + 0 * t ^ 2 by ring, k]
      ring
  · ext
    · simp only [add_x, smul_x, nodeN, nodeM]
      rw [show 2 * I * (t * sin Om) * (t * cos Om) = 0 + 0 * t + (2 * I * sin Om * cos Om) * t ^ 2 by ring, k]
      linear_combination (-sin Om * cos Om * cos i) * hI
    · simp only [add_y, smul_y, nodeN, nodeM]
      rw [show (1 + t * sin Om * (t * sin Om) - t * cos Om * (t * cos Om)) * I
        = I + 0 * t + (I * (sin Om ^ 2 - cos Om ^ 2)) * t ^ 2 by ring, k]
      linear_combination (-I * (1 - I * cos i) / 2 - I * I * cos i) * hs + (cos i * cos Om ^ 2) * hI
    · simp only [add_z, smul_z, nodeN, nodeM]
      rw [show 2 * (t * cos Om) = 0 + (2 * cos Om) * t + 0 * t ^ 2 by ring, k]
      ring

/-- **C20**: both element sets describe the same state. The inclination is only required to have equinoctial elements:
it is not an odd multiple of `pi` and, for the retrograde set, not a multiple of `2 pi` either. -/
theorem C20_same_state (q : Par) (b : Bool) {mu : ℝ} (hmu : 0 < mu) (he : 0 ≤ q.e) (hae : 0 < q.a * (1 - q.e))
    (hden : 0 < 1 + q.e * cos q.f) (hc : cos (q.i / 2) ≠ 0) (hs : b = true → sin (q.i / 2) ≠ 0) :
    ∃ m x, par2eq q b = some m ∧ eq2ic m mu b = some x ∧ par2ic q mu = .ok (some x) := by
  have hq : q.Good := ⟨he, hae, hden⟩
  have hci : cos q.i = 2 * cos (q.i / 2) ^ 2 - 1 := by rw [← cos_two_mul]; congr 1; ring
  have hsi : sin q.i = 2 * sin (q.i / 2) * cos (q.i / 2) := by rw [← sin_two_mul]; congr 1; ring
  have hcs := sin_sq_add_cos_sq (q.i / 2)
  obtain ⟨t, hrun, ht1, ht2⟩ : ∃ t, par2eq q b = some ⟨q.a * (1 - q.e * q.e), q.e * cos (q.om + sgnI b * q.Om),
      q.e * sin (q.om + sgnI b * q.Om), t * cos q.Om, t * sin q.Om, q.f + q.om + sgnI b * q.Om⟩ ∧
      1 / (1 + t ^ 2) = (1 + sgnI b * cos q.i) / 2 ∧ t / (1 + t ^ 2) = sin q.i / 2 := by
    cases b
    · refine ⟨sin (q.i / 2) / cos (q.i / 2), ?_, ?_, ?_⟩
      · unfold par2eq; rw [tan?_ok hc, tan_eq_sin_div_cos]; simp
      · have h1 : 1 + (sin (q.i / 2) / cos (q.i / 2)) ^ 2 = 1 / cos (q.i / 2) ^ 2 := by
          field_simp; linear_combination hcs
        rw [h1, hci]; simp only [sgnI, Bool.false_eq_true, if_false]; field_simp; ring
      · have h1 : 1 + (sin (q.i / 2) / cos (q.i / 2)) ^ 2 = 1 / cos (q.i / 2) ^ 2 := by
          field_simp; linear_combination hcs
        rw [h1, hsi]; field_simp
    · have hs := hs rfl
      have ht : tan (q.i / 2) ≠ 0 := by rw [tan_eq_sin_div_cos]; exact div_ne_zero hs hc
      have h1 : 1 + (cos (q.i / 2) / sin (q.i / 2)) ^ 2 = 1 / sin (q.i / 2) ^ 2 := by
        field_simp; linear_combination hcs
      refine ⟨cos (q.i / 2) / sin (q.i / 2), ?_, ?_, ?_⟩
      · unfold par2eq
        rw [tan?_ok hc]
        rw [tan_eq_sin_div_cos] at ht ⊢
        simp [div?_ok ht]
      · rw [h1, hci]; simp only [sgnI, if_true]; field_simp; linear_combination 2 * hcs
      · rw [h1, hsi]; field_simp
  refine ⟨_, _, hrun, ?_, par2ic_run hq hmu⟩
  have hfr := eqFrame (t := t) (i := q.i) (Om := q.Om) (sgnI_sq b) ht1 ht2
  have hp := hq.slr_pos
  have hps : q.a * (1 - q.e * q.e) = q.slr := rfl
  have hrad : 1 + q.e * sin (q.om + sgnI b * q.Om) * sin (q.f + q.om + sgnI b * q.Om)
      + q.e * cos (q.om + sgnI b * q.Om) * cos (q.f + q.om + sgnI b * q.Om) = 1 + q.e * cos q.f := by
    have : q.f + q.om + sgnI b * q.Om = q.f + (q.om + sgnI b * q.Om) := by ring
    rw [this]
    generalize q.om + sgnI b * q.Om = θ
    rw [cos_add, sin_add]
    linear_combination (q.e * cos q.f) * sin_sq_add_cos_sq θ
  have hsd : √(mu / q.slr) = mu / √(q.slr * mu) := by
    have hs0 : 0 < √(q.slr * mu) := sqrt_pos.2 (by positivity)
    rw [eq_div_iff hs0.ne', ← sqrt_mul (by positivity), show mu / q.slr * (q.slr * mu) = mu ^ 2 by field_simp,
      sqrt_sq hmu.le]
  unfold eq2ic
  simp only [hps, abs_of_pos hp, hrad, div?_ok hden.ne', div?_ok hp.ne',
    sqrt?_ok (show 0 ≤ mu / q.slr by positivity), Option.bind_eq_bind, Option.bind_some, hsd]
  refine congrArg some ?_
  unfold parState
  obtain ⟨f1, f2⟩ := hfr
  rw [f1, f2]
  set s := mu / √(q.slr * mu)
  set r := q.slr / (1 + q.e * cos q.f)
  have hO := sin_sq_add_cos_sq q.Om
  have hcI : cos (sgnI b * q.Om) = cos q.Om := by cases b <;> simp [sgnI]
  have hsI : sin (sgnI b * q.Om) = sgnI b * sin q.Om := by cases b <;> simp [sgnI]
  have hII := sgnI_sq b
  set I := sgnI b
  have hO' : (I * sin q.Om) ^ 2 + cos q.Om ^ 2 = 1 := by
    linear_combination (sin q.Om ^ 2) * hII + hO
  have hL : q.f + q.om + I * q.Om = q.f + (q.om + I * q.Om) := by ring
  -- components of the frames
  have hP : colP q.i q.Om q.om = cos q.om • nodeN q.Om + sin q.om • nodeM q.i q.Om := by
    ext <;> simp [colP, nodeN, nodeM] <;> ring
  have hQ : colQ q.i q.Om q.om = cos q.om • nodeM q.i q.Om - sin q.om • nodeN q.Om := by
    ext <;> simp [colQ, nodeN, nodeM] <;> ring
  rw [hP, hQ, hL]
  simp only [cos_add, sin_add, hcI, hsI]
  generalize nodeN q.Om = n
  generalize nodeM q.i q.Om = m
  have hcf := sin_sq_add_cos_sq q.om
  apply RV.ext
  · ext
    · simp only [add_x, sub_x, smul_x]
      linear_combination (r * (cos q.f * cos q.om - sin q.f * sin q.om) * n.x
        + r * (cos q.f * sin q.om + sin q.f * cos q.om) * m.x) * hO'
    · simp only [add_y, sub_y, smul_y]
      linear_combination (r * (cos q.f * cos q.om - sin q.f * sin q.om) * n.y
        + r * (cos q.f * sin q.om + sin q.f * cos q.om) * m.y) * hO'
    · simp only [add_z, sub_z, smul_z]
      linear_combination (r * (cos q.f * cos q.om - sin q.f * sin q.om) * n.z
        + r * (cos q.f * sin q.om + sin q.f * cos q.om) * m.z) * hO'
  · ext
    · simp only [add_x, sub_x, smul_x]
      linear_combination (s * (-(q.e * sin q.om) - (cos q.f * sin q.om + sin q.f * cos q.om)) * n.x
        + s * (q.e * cos q.om + (cos q.f * cos q.om - sin q.f * sin q.om)) * m.x) * hO'
    · simp only [add_y, sub_y, smul_y]
      linear_combination (s * (-(q.e * sin q.om) - (cos q.f * sin q.om + sin q.f * cos q.om)) * n.y
        + s * (q.e * cos q.om + (cos q.f * cos q.om - sin q.f * sin q.om)) * m.y) * hO'
    · simp only [add_z, sub_z, smul_z]
      linear_combination (s * (-(q.e * sin q.om) - (cos q.f * sin q.om + sin q.f * cos q.om)) * n.z
        + s * (q.e * cos q.om + (cos q.f * cos q.om - sin q.f * sin q.om)) * m.z) * hO'

/-- **C20, hyperbolas with a positive semi-major axis**: the convention that `par2ic` rejects. The negative `p` of `par2eq` is read by `eq2ic` as
the one of the hyperbola with a negative semi-major axis. -/
theorem C20_positive_axis (q : Par) (b : Bool) {mu : ℝ} (hmu : 0 < mu) (he : 1 < q.e) (ha : 0 < q.a)
    (hden : 0 < 1 + q.e * cos q.f) (hc : cos (q.i / 2) ≠ 0) (hs : b = true → sin (q.i / 2) ≠ 0) :
    ∃ m x, par2eq q b = some m ∧ m.p < 0 ∧ eq2ic m mu b = some x ∧ par2ic { q with a := -q.a } mu = .ok (some x) ∧
      par2ic q mu = .err .domainError := by
  obtain ⟨m, x, h1, h2, h3⟩ := C20_same_state { q with a := -q.a } b hmu (by dsimp only; linarith) (by dsimp only; nlinarith) hden hc hs
  have key : par2eq q b = (par2eq { q with a := -q.a } b).map fun m => { m with p := -m.p } := by
    unfold par2eq
    dsimp only
    cases b <;> cases tan? (q.i / 2) with
    | none => rfl
    | some t => simp [div?]
  have hp : m.p = -q.a * (1 - q.e * q.e) := by
    unfold par2eq at h1
    dsimp only at h1
    cases b <;> obtain ⟨t, ht, h1⟩ := Option.bind_eq_some_iff.1 h1
    · obtain rfl := Option.some.inj h1; rfl
    · obtain ⟨t', ht', h1⟩ := Option.bind_eq_some_iff.1 h1
      obtain rfl := Option.some.inj h1; rfl
  refine ⟨{ m with p := -m.p }, x, by rw [key, h1]; rfl, ?_, ?_, h3, ?_⟩
  · dsimp only
    rw [hp]
    nlinarith [mul_pos ha (show 0 < q.e * q.e - 1 by nlinarith)]
  · rw [← h2]; unfold eq2ic; simp only [abs_neg]
  · unfold par2ic
    rw [if_pos (by nlinarith)]

/-- The equinoctial frame of a unit vector. -/
theorem eqFrame_of_w {w : V3 ℝ} {I : ℝ} (hI : I * I = 1) (hw : dot w w = 1) (hD : 1 + I * w.z ≠ 0) :
    eqF I (-w.y / (1 + I * w.z)) (w.x / (1 + I * w.z))
      = ⟨1 - w.x ^ 2 / (1 + I * w.z), -w.x * w.y / (1 + I * w.z), -I * w.x⟩ ∧
    eqG I (-w.y / (1 + I * w.z)) (w.x / (1 + I * w.z))
      = ⟨-I * w.x * w.y / (1 + I * w.z), I * (1 - w.y ^ 2 / (1 + I * w.z)), -w.y⟩ := by
  have hw' : w.x ^ 2 + w.y ^ 2 = (1 + I * w.z) * (2 - (1 + I * w.z)) := by
    unfold dot at hw; linear_combination hw + w.z ^ 2 * hI
  set D := 1 + I * w.z with hDd
  have hden : w.x / D * (w.x / D) + -w.y / D * (-w.y / D) + 1 = 2 / D := by
    field_simp; linear_combination hw'
  unfold eqF eqG
  simp only [hden]
  constructor
  · ext
    · simp only []; field_simp; linear_combination hw'
    · simp only []; field_simp
    · simp only []; field_simp
  · ext
    · simp only []; field_simp
    · simp only []; field_simp; linear_combination I * hw'
    · simp only []; field_simp

/-- `eqXY` solves for the coordinates in the plane. -/
theorem eqXY_run {fv gv r w : V3 ℝ} {X Y : ℝ} (hw : dot w w = 1) (hc : cross fv gv = w) (hr : r = X • fv + Y • gv) :
    eqXY fv gv r = some (X, Y) := by
  have d1 : gv.y * fv.x - fv.y * gv.x = w.z := by rw [← hc]; simp; ring
  have d2 : gv.z * fv.x - fv.z * gv.x = -w.y := by rw [← hc]; simp; ring
  have d3 : gv.z * fv.y - fv.z * gv.y = w.x := by rw [← hc]; simp; ring
  have rx : r.x = X * fv.x + Y * gv.x := by rw [hr]; rfl
  have ry : r.y = X * fv.y + Y * gv.y := by rw [hr]; rfl
  have rz : r.z = X * fv.z + Y * gv.z := by rw [hr]; rfl
  have hm : 0 < max |w.z| (max |-w.y| |w.x|) := by
    by_contra h
    have h := not_lt.1 h
    have a1 : |w.z| ≤ 0 := le_trans (le_max_left _ _) h
    have a2 : |-w.y| ≤ 0 := le_trans (le_trans (le_max_left _ _) (le_max_right _ _)) h
    have a3 : |w.x| ≤ 0 := le_trans (le_trans (le_max_right _ _) (le_max_right _ _)) h
    rw [abs_nonpos_iff] at a1 a2 a3
    have a2 : w.y = 0 := by linarith
    unfold dot at hw
    rw [a1, a2, a3] at hw
    norm_num at hw
  unfold eqXY
  simp only [d1, d2, d3]
  split_ifs with h1 h2
  · have h0 : w.z ≠ 0 := by intro h; rw [h, abs_zero] at h1; rw [h, abs_zero] at hm; linarith
    rw [div?_ok h0, div?_ok h0]
    refine congrArg some (Prod.ext ?_ ?_)
    · show _ / _ = X
      rw [div_eq_iff h0, ← d1, rx, ry]; ring
    · show _ / _ = Y
      rw [div_eq_iff h0, ← d1, rx, ry]; ring
  · have h0 : -w.y ≠ 0 := by intro h; rw [h, abs_zero] at h2; rw [h, abs_zero] at hm; linarith
    rw [div?_ok h0, div?_ok h0]
    refine congrArg some (Prod.ext ?_ ?_)
    · show _ / _ = X
      rw [div_eq_iff h0, ← d2, rx, rz]; ring
    · show _ / _ = Y
      rw [div_eq_iff h0, ← d2, rx, rz]; ring
  · have h0 : w.x ≠ 0 := by
      intro h
      rcases max_choice |w.z| (max |-w.y| |w.x|) with g | g
      · exact h1 g.symm
      · rcases max_choice |-w.y| |w.x| with g' | g'
        · exact h2 (by rw [g, g'])
        · rw [g, g', h, abs_zero] at hm; exact lt_irrefl _ hm
    rw [div?_ok h0, div?_ok h0]
    refine congrArg some (Prod.ext ?_ ?_)
    · show _ / _ = X
      rw [div_eq_iff h0, ← d3, ry, rz]; ring
    · show _ / _ = Y
      rw [div_eq_iff h0, ← d3, ry, rz]; ring

/-- **C19**: state to modified equinoctial elements and back, for every state with a non-zero angular momentum that
is not parabolic (where the code divides by the zero energy) and not at the singular inclination. Circular and
equatorial orbits are included. -/
theorem C19_round_trip (x : RV ℝ) (b : Bool) {mu : ℝ} (hmu : 0 < mu) (hh : cross x.r x.v ≠ 0)
    (hE : dot x.v x.v / 2 - mu / norm x.r ≠ 0)
    (hI : (cross x.r x.v).z ≠ (if b then 1 else -1) * norm (cross x.r x.v)) :
    ∃ m, ic2eq x mu b = some m ∧ eq2ic m mu b = some x ∧ 0 < m.p ∧ -π < m.L ∧ m.L ≤ π := by
  have hh0 : angMom x ≠ 0 := hh
  have hr0 := r_ne_of_h hh0
  have hR := norm_pos hr0
  have hH := norm_pos hh0
  have hHs := norm_mul_self (angMom x)
  have hRs := norm_mul_self x.r
  have hVs := norm_mul_self x.v
  have hsq := eccVec_sq hr0 hmu.ne'
  have hper := eccVec_r (mu := mu) hr0
  have hvel := vel_eq hh0 hmu.ne'
  have hperp := eccVec_perp (x := x) (mu := mu)
  have hII := sgnI_sq b
  have hEs := norm_mul_self (eccVec x mu)
  change energy x mu ≠ 0 at hE
  change (angMom x).z ≠ _ * norm (angMom x) at hI
  have hrh : dot x.r (angMom x) = 0 := dot_cross_self_left _ _
  have hD : 1 + sgnI b * ((angMom x).z / norm (angMom x)) ≠ 0 := by
    intro h0
    apply hI
    have : (angMom x).z / norm (angMom x) = -sgnI b := by
      linear_combination sgnI b * h0 - ((angMom x).z / norm (angMom x)) * hII
    rw [div_eq_iff hH.ne'] at this
    rw [this]; cases b <;> simp [sgnI]
  set I := sgnI b with hId
  set ev := eccVec x mu with hev
  set h := angMom x with hhd
  set H := norm h with hHd
  set R := norm x.r with hRd
  obtain ⟨w, hw⟩ : ∃ w : V3 ℝ, w = (1 / H) • h := ⟨_, rfl⟩
  have hww : dot w w = 1 := by rw [hw, smul_dot, dot_smul, ← hHs]; field_simp
  have hwz : w.z = h.z / H := by rw [hw, smul_z]; ring
  rw [← hwz] at hD
  obtain ⟨fE, gE⟩ := eqFrame_of_w hII hww hD
  obtain ⟨fv, hfv⟩ : ∃ v, v = eqF I (-w.y / (1 + I * w.z)) (w.x / (1 + I * w.z)) := ⟨_, rfl⟩
  obtain ⟨gv, hgv⟩ : ∃ v, v = eqG I (-w.y / (1 + I * w.z)) (w.x / (1 + I * w.z)) := ⟨_, rfl⟩
  rw [← hfv] at fE
  rw [← hgv] at gE
  have hw' : w.x ^ 2 + w.y ^ 2 = (1 + I * w.z) * (2 - (1 + I * w.z)) := by
    unfold dot at hww; linear_combination hww + w.z ^ 2 * hII
  have hIwz : I * (1 + I * w.z) = I + w.z := by linear_combination w.z * hII
  have hff : dot fv fv = 1 := by
    rw [fE]; simp only [dot]; field_simp
    linear_combination (w.x ^ 2) * hw' + (w.x ^ 2 * (1 + I * w.z) ^ 2) * hII
  have hcr : cross w fv = gv := by
    rw [fE, gE]
    ext
    · simp only [cross_x]; field_simp; linear_combination (-w.x * w.y) * hIwz
    · simp only [cross_y]
      generalize 1 + I * w.z = D at hD hw' hIwz
      field_simp
      linear_combination I * hw' - (D - w.x ^ 2) * hIwz
    · simp only [cross_z]; field_simp; ring
  have hfw : dot fv w = 0 := by
    rw [fE]; simp only [dot]; field_simp
    linear_combination (-w.x) * hw'
  have hgg : dot gv gv = 1 := by rw [← hcr, lagrange, hww, hff, V3.dot_comm, hfw]; ring
  have hgf : dot gv fv = 0 := by rw [← hcr]; exact cross_dot_self_right _ _
  have hgw : dot gv w = 0 := by rw [← hcr]; exact cross_dot_self_left _ _
  have hfg : cross fv gv = w := by
    have k : cross fv (cross w fv) = dot fv fv • w - dot fv w • fv := by ext <;> simp [dot] <;> ring
    rw [hcr, hff, hfw] at k
    rw [k]; ext <;> simp
  have hwg : cross w gv = -fv := by
    have k : cross w (cross w fv) = dot fv w • w - dot w w • fv := by ext <;> simp [dot] <;> ring
    rw [hcr, hww, hfw] at k
    rw [k]; ext <;> simp
  have expand : ∀ a : V3 ℝ, dot a w = 0 → a = dot a fv • fv + dot a gv • gv := by
    intro a ha
    refine eq_of_frame hff hww hfw ?_ ?_ ?_
    · rw [add_dot, smul_dot, smul_dot, hff, hgf]; ring
    · rw [hcr, add_dot, smul_dot, smul_dot, hgg, V3.dot_comm fv gv, hgf]; ring
    · rw [add_dot, smul_dot, smul_dot, hfw, hgw, ha]; ring
  have hr := expand x.r (by rw [hw, dot_smul, hrh, mul_zero])
  have he := expand ev (by rw [hw, dot_smul, hperp, mul_zero])
  obtain ⟨X, hX⟩ : ∃ X, X = dot x.r fv := ⟨_, rfl⟩
  obtain ⟨Y, hY⟩ : ∃ Y, Y = dot x.r gv := ⟨_, rfl⟩
  obtain ⟨f, hf⟩ : ∃ f, f = dot ev fv := ⟨_, rfl⟩
  obtain ⟨g, hg⟩ : ∃ g, g = dot ev gv := ⟨_, rfl⟩
  rw [← hX, ← hY] at hr
  rw [← hf, ← hg] at he
  have hXY := eqXY_run hww hfg hr
  have hXYR : X ^ 2 + Y ^ 2 = R ^ 2 := by
    have k : dot x.r x.r = dot (X • fv + Y • gv) (X • fv + Y • gv) := by rw [← hr]
    simp only [add_dot, dot_add, smul_dot, dot_smul, hff, hgg, hgf, V3.dot_comm fv gv] at k
    rw [pow_two R, hRs, k]; ring
  have hunit : (X / R) ^ 2 + (Y / R) ^ 2 = 1 := by
    rw [div_pow, div_pow, ← add_div, hXYR, div_self (pow_ne_zero 2 hR.ne')]
  have hu0 : 0 < (X / R) ^ 2 + (Y / R) ^ 2 := by rw [hunit]; norm_num
  have hcL := atan2_cos hu0
  have hsL := atan2_sin hu0
  rw [hunit, sqrt_one, one_mul] at hcL hsL
  have hen : energy x mu = norm x.v * norm x.v / 2 - mu / R := by rw [hVs]; rfl
  have hden : 2 / R - norm x.v * norm x.v / mu ≠ 0 := by
    intro h0; apply hE; rw [hen]
    field_simp at h0 ⊢
    linear_combination (-1 : ℝ) * h0
  have hp : 1 / (2 / R - norm x.v * norm x.v / mu) * (1 - norm ev * norm ev) = dot h h / mu := by
    rw [hEs, hsq]
    have : 2 / R - norm x.v * norm x.v / mu = -2 * energy x mu / mu := by
      rw [hen]; field_simp; ring
    rw [this]; field_simp; ring
  have hp0 : 0 < dot h h / mu := by rw [← hHs]; positivity
  have hrun : ic2eq x mu b = some ⟨dot h h / mu, f, g, -w.y / (1 + I * w.z), w.x / (1 + I * w.z),
      atan2 (Y / R) (X / R)⟩ := by
    unfold ic2eq
    have hvh : vdiv? (cross x.v h) mu = some ((1 / mu) • cross x.v h) := by
      rw [vdiv?_ok hmu.ne', smul_one_div]
    have hru : vdiv? x.r R = some ((1 / R) • x.r) := by
      rw [vdiv?_ok hR.ne', smul_one_div]
    have hwv : vdiv? h H = some w := by
      rw [vdiv?_ok hH.ne', smul_one_div, hw]
    have hevd : (1 / mu) • cross x.v h - (1 / R) • x.r = ev := rfl
    simp only [show cross x.r x.v = h from rfl, ← hRd, ← hHd, div?_ok hR.ne', div?_ok hmu.ne', Option.bind_eq_bind,
      Option.bind_some, div?_ok hden, hwv, ← hId, div?_ok hD, hvh, hru, hevd, ← hfv, ← hgv, hXY, hp, ← hf, ← hg]
    rfl
  refine ⟨_, hrun, ?_, hp0, (atan2_mem _ _).1, (atan2_mem _ _).2⟩
  have hrad : 1 + g * (Y / R) + f * (X / R) = dot h h / mu / R := by
    have : dot ev x.r = f * X + g * Y := by
      rw [he, hr]
      simp only [add_dot, dot_add, smul_dot, dot_smul, hff, hgg, hgf, V3.dot_comm fv gv]; ring
    rw [this] at hper
    have e : 1 + g * (Y / R) + f * (X / R) = (R + (f * X + g * Y)) / R := by field_simp; ring
    rw [e, hper]; ring
  have hrad0 : dot h h / mu / R ≠ 0 := by positivity
  have hs : √(mu / (dot h h / mu)) = mu / H := by
    rw [← hHs, show mu / (H * H / mu) = (mu / H) ^ 2 by field_simp, sqrt_sq (by positivity)]
  unfold eq2ic
  simp only [abs_of_pos hp0, hcL, hsL, hrad, div?_ok hrad0, div?_ok hp0.ne', Option.bind_eq_bind, Option.bind_some,
    sqrt?_ok (show 0 ≤ mu / (dot h h / mu) by positivity), hs, ← hId, ← hfv, ← hgv]
  refine congrArg some ?_
  have hRR : dot h h / mu / (dot h h / mu / R) = R := by
    rw [div_div_eq_mul_div, mul_div_cancel_left₀ _ hp0.ne']
  rw [hRR]
  have hv : x.v = (mu / H) • ((f • gv + g • (-fv)) + (1 / R) • (X • gv + Y • (-fv))) := by
    rw [hvel, ← hw]
    have k1 : cross w ev = f • gv + g • (-fv) := by
      rw [he, ← hwg, ← hcr]; ext <;> simp <;> ring
    have k2 : cross w x.r = X • gv + Y • (-fv) := by
      rw [hr, ← hwg, ← hcr]; ext <;> simp <;> ring
    rw [k1, k2]
  apply RV.ext
  · rw [hr]
    ext
    · simp only [add_x, smul_x]; field_simp
    · simp only [add_y, smul_y]; field_simp
    · simp only [add_z, smul_z]; field_simp
  · rw [hv]
    ext
    · simp only [add_x, smul_x, neg_x]; field_simp; ring
    · simp only [add_y, smul_y, neg_y]; field_simp; ring
    · simp only [add_z, smul_z, neg_z]; field_simp; ring

/-- A circular equatorial state, singular for the Keplerian elements. -/
example : ∃ m, ic2eq ⟨⟨1, 0, 0⟩, ⟨0, 1, 0⟩⟩ 1 false = some m ∧ eq2ic m 1 false = some ⟨⟨1, 0, 0⟩, ⟨0, 1, 0⟩⟩ := by
  have hn : V3.norm ⟨1, 0, 0⟩ = 1 := by simp [V3.norm, dot]
  obtain ⟨m, h1, h2, _⟩ := C19_round_trip ⟨⟨1, 0, 0⟩, ⟨0, 1, 0⟩⟩ false one_pos
    (by intro h; have := congrArg V3.z h; norm_num at this) (by rw [hn]; norm_num [dot])
    (by have := V3.norm_nonneg (cross ⟨1, 0, 0⟩ ⟨0, 1, 0⟩); simp; linarith)
  exact ⟨m, h1, h2⟩

/-- An inclined ellipse and an inclined hyperbola. -/
example (b : Bool) : (∃ m q', par2eq ⟨2, 1 / 2, 1, 1, 1, 1⟩ b = some m ∧ eq2par m b = some q' ∧ q'.e = 1 / 2) ∧
    ∃ m x, par2eq ⟨-2, 3 / 2, 1, 1, 1, 0⟩ b = some m ∧ eq2ic m 1 b = some x ∧
      par2ic ⟨-2, 3 / 2, 1, 1, 1, 0⟩ 1 = .ok (some x) := by
  have : (1 : ℝ) < π := by linarith [Real.two_le_pi]
  obtain ⟨m, q', a, b', -, c, -⟩ := C18_par_eq_par ⟨2, 1 / 2, 1, 1, 1, 1⟩ b (by norm_num) (by norm_num) one_pos this
  exact ⟨⟨m, q', a, b', c⟩, C20_same_state ⟨-2, 3 / 2, 1, 1, 1, 0⟩ b one_pos (by norm_num) (by norm_num)
    (by norm_num) (cos_pos_of_mem_Ioo ⟨by norm_num; linarith, by norm_num; linarith⟩).ne' fun _ =>
      (sin_pos_of_pos_of_lt_pi (by norm_num) (by norm_num; linarith)).ne'⟩

/-- An inclined hyperbola with a positive semi-major axis. -/
example : let q : Par := ⟨2, 3 / 2, π / 3, 1, 2, 0⟩
    1 < q.e ∧ 0 < q.a ∧ 0 < 1 + q.e * cos q.f ∧ cos (q.i / 2) ≠ 0 ∧ sin (q.i / 2) ≠ 0 := by
  dsimp only
  rw [show π / 3 / 2 = π / 6 by ring, cos_zero, cos_pi_div_six, sin_pi_div_six]
  norm_num

/-- An equatorial orbit. -/
example : ∃ m x, par2eq ⟨2, 1 / 2, 0, 1, 1, 1⟩ false = some m ∧ eq2ic m 1 false = some x ∧
    par2ic ⟨2, 1 / 2, 0, 1, 1, 1⟩ 1 = .ok (some x) :=
  C20_same_state ⟨2, 1 / 2, 0, 1, 1, 1⟩ false one_pos (by norm_num) (by norm_num)
    (by have := neg_one_le_cos 1; show 0 < 1 + 1 / 2 * cos 1; linarith) (by simp) (fun h => nomatch h)

/-- Equinoctial elements of an inclined ellipse. -/
example (b : Bool) : ∃ q, eq2par ⟨1, 1 / 2, 0, 1, 0, 3⟩ b = some q ∧ par2eq q b = some ⟨1, 1 / 2, 0, 1, 0, 3⟩ :=
  let ⟨q, a, c, _⟩ := C18_eq_par_eq ⟨1, 1 / 2, 0, 1, 0, 3⟩ b (by norm_num) (by norm_num) (by norm_num)
  ⟨q, a, c⟩

end Kep3
