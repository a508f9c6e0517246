import Verif.Flyby.Props26

/-!
# The fly-by impulse
-/

namespace Kep3
open Real V3

/-- The outgoing relative velocities an unpowered fly-by can produce: same speed, and either no turn or the turn of a
hyperbola with pericentre not below the safe radius. -/
def Reach (vin : V3 ℝ) (mu safe : ℝ) (w : V3 ℝ) : Prop :=
  norm w = norm vin ∧ (dot vin w = norm vin * norm vin ∨
    ∃ rp, safe ≤ rp ∧ dot vin w = norm vin * norm vin * cos (2 * arcsin (1 / (1 + rp * norm vin ^ 2 / mu))))

/-- The angle between two vectors. -/
noncomputable def angleV (a b : V3 ℝ) : ℝ := arccos (dot a b / (norm a * norm b))

theorem angleV_cos {a b : V3 ℝ} (ha : a ≠ 0) (hb : b ≠ 0) : dot a b = norm a * norm b * cos (angleV a b) := by
  have hp : 0 < norm a * norm b := mul_pos (norm_pos ha) (norm_pos hb)
  have habs := abs_le.1 (abs_dot_le a b)
  unfold angleV
  rw [cos_arccos (by rw [le_div_iff₀ hp]; linarith) (by rw [div_le_iff₀ hp]; linarith)]
  rw [mul_div_cancel₀ _ hp.ne']

theorem angleV_mem (a b : V3 ℝ) : 0 ≤ angleV a b ∧ angleV a b ≤ π := ⟨arccos_nonneg _, arccos_le_pi _⟩

theorem ne_of_norm {a b : V3 ℝ} (h : norm a = norm b) (hb : b ≠ 0) : a ≠ 0 := by
  intro h0; have := norm_pos hb; rw [← h, norm_eq_zero.2 h0] at this; exact lt_irrefl _ this

theorem reach_iff {vin w : V3 ℝ} {mu safe : ℝ} (hmu : 0 < mu) (hs : 0 < safe) (hi : vin ≠ 0) :
    Reach vin mu safe w ↔ norm w = norm vin ∧ angleV vin w ≤ turnAngle safe (dot vin vin) mu := by
  unfold Reach
  refine and_congr_right fun hn => ?_
  have hw := ne_of_norm hn hi
  obtain ⟨eq, ineq, h1, -, h3⟩ := C27_constraints hmu hs hi hw
  have h2 : fbCon vin w mu safe = (dot vin vin - dot w w, some (angleV vin w - turnAngle safe (dot vin vin) mu)) := by
    unfold fbCon; rw [fbIneq_run hmu hs hi hw]; rfl
  rw [h2] at h1
  have := Option.some.inj (congrArg Prod.snd h1)
  rw [hn] at h3
  rw [← h3, ← this, sub_nonpos]

theorem norm_sub_sq (a b : V3 ℝ) : norm (a - b) ^ 2 = norm a ^ 2 + norm b ^ 2 - 2 * dot a b := by
  rw [norm_sq, norm_sq, norm_sq]; simp [dot]; ring

/-- The triangle inequality for angles, in the form used here. -/
theorem dot_le_cos_sub {u a b : V3 ℝ} (hu : u ≠ 0) (ha : a ≠ 0) (hb : b ≠ 0) :
    dot a b ≤ norm a * norm b * cos (angleV u a - angleV u b) := by
  have nu := norm_pos hu
  have na := norm_pos ha
  have nb := norm_pos hb
  have h1 := angleV_cos hu ha
  have h2 := angleV_cos hu hb
  have s1 := sin_nonneg_of_nonneg_of_le_pi (angleV_mem u a).1 (angleV_mem u a).2
  have s2 := sin_nonneg_of_nonneg_of_le_pi (angleV_mem u b).1 (angleV_mem u b).2
  have c1 := sin_sq_add_cos_sq (angleV u a)
  have c2 := sin_sq_add_cos_sq (angleV u b)
  have hcs := abs_le.1 (abs_dot_le (cross u a) (cross u b))
  have hx : dot (cross u a) (cross u b) = dot u u * dot a b - dot u a * dot u b := by simp [dot]; ring
  have n1 : norm (cross u a) = norm u * norm a * sin (angleV u a) := by
    unfold V3.norm at *
    rw [lagrange, ← sqrt_sq (show 0 ≤ √(dot u u) * √(dot a a) * sin (angleV u a) by positivity)]
    congr 1
    rw [h1]
    have e1 := sq_sqrt (dot_self_nonneg u)
    have e2 := sq_sqrt (dot_self_nonneg a)
    linear_combination (-dot a a) * e1 - √(dot u u) ^ 2 * e2 - (√(dot u u) * √(dot a a)) ^ 2 * c1
  have n2 : norm (cross u b) = norm u * norm b * sin (angleV u b) := by
    unfold V3.norm at *
    rw [lagrange, ← sqrt_sq (show 0 ≤ √(dot u u) * √(dot b b) * sin (angleV u b) by positivity)]
    congr 1
    rw [h2]
    have e1 := sq_sqrt (dot_self_nonneg u)
    have e2 := sq_sqrt (dot_self_nonneg b)
    linear_combination (-dot b b) * e1 - √(dot u u) ^ 2 * e2 - (√(dot u u) * √(dot b b)) ^ 2 * c2
  have h3 := hcs.2
  rw [hx, n1, n2, h1, h2, ← norm_sq] at h3
  rw [cos_sub]
  have hn2 : 0 < norm u ^ 2 := by positivity
  refine le_of_mul_le_mul_left ?_ hn2
  linarith

theorem exists_perp {i : V3 ℝ} (hi : dot i i = 1) : ∃ e, dot e e = 1 ∧ dot i e = 0 := by
  by_cases h : i.x ^ 2 + i.y ^ 2 = 0
  · have hx : i.x = 0 := by nlinarith [sq_nonneg i.x, sq_nonneg i.y]
    exact ⟨⟨1, 0, 0⟩, by simp [dot], by simp [dot, hx]⟩
  · have hp : 0 < i.x ^ 2 + i.y ^ 2 := lt_of_le_of_ne (by positivity) (Ne.symm h)
    have hs := sq_sqrt hp.le
    have hs0 := sqrt_pos.2 hp
    refine ⟨⟨-i.y / √(i.x ^ 2 + i.y ^ 2), i.x / √(i.x ^ 2 + i.y ^ 2), 0⟩, ?_, ?_⟩
    · simp only [dot]; field_simp; rw [hs]; ring
    · simp only [dot]; field_simp; ring

/-- Two vectors span a plane with an orthonormal basis. -/
theorem plane_basis {u a : V3 ℝ} (hu : u ≠ 0) (ha : a ≠ 0) : ∃ i e : V3 ℝ, dot i i = 1 ∧ dot e e = 1 ∧ dot i e = 0 ∧
    u = norm u • i ∧ a = (norm a * cos (angleV u a)) • i + (norm a * sin (angleV u a)) • e := by
  have nu := norm_pos hu
  have na := norm_pos ha
  have h1 := angleV_cos hu ha
  obtain ⟨i, hi⟩ : ∃ i : V3 ℝ, i = (1 / norm u) • u := ⟨_, rfl⟩
  have hii : dot i i = 1 := by rw [hi, dot_smul, smul_dot, ← norm_sq]; field_simp
  have hui : u = norm u • i := by rw [hi]; ext <;> simp <;> field_simp
  have hia : dot i a = norm a * cos (angleV u a) := by
    rw [hui, smul_dot] at h1
    have : norm (norm u • i) = norm u := by rw [← hui]
    rw [this, ← hui] at h1
    exact mul_left_cancel₀ nu.ne' (by linarith)
  have c1 := sin_sq_add_cos_sq (angleV u a)
  have haa : dot a a = norm a ^ 2 := (norm_sq a).symm
  obtain ⟨d, hd⟩ : ∃ d : V3 ℝ, d = a - (norm a * cos (angleV u a)) • i := ⟨_, rfl⟩
  have hdd : dot d d = (norm a * sin (angleV u a)) ^ 2 := by
    rw [hd, dot_sub, sub_dot, sub_dot, dot_smul, smul_dot, dot_smul, smul_dot, hii, dot_comm a i, hia, haa]
    linear_combination (-norm a ^ 2) * c1
  have hid : dot i d = 0 := by rw [hd, dot_sub, dot_smul, hii, hia]; ring
  by_cases hs : sin (angleV u a) = 0
  · obtain ⟨e, he1, he2⟩ := exists_perp hii
    refine ⟨i, e, hii, he1, he2, hui, ?_⟩
    have h0 : d = 0 := by rw [← dot_self_eq_zero, hdd, hs]; ring
    rw [hd] at h0
    have h1 := congrArg V3.x h0
    have h2 := congrArg V3.y h0
    have h3 := congrArg V3.z h0
    simp at h1 h2 h3
    rw [hs]
    ext <;> simp <;> linarith
  · have hk : norm a * sin (angleV u a) ≠ 0 := mul_ne_zero na.ne' hs
    refine ⟨i, (1 / (norm a * sin (angleV u a))) • d, hii, ?_, ?_, hui, ?_⟩
    · rw [dot_smul, smul_dot, hdd]; field_simp
    · rw [dot_smul, hid, mul_zero]
    · rw [hd]; ext <;> simp <;> field_simp <;> ring

theorem fbDv_run {vin vout : V3 ℝ} {mu safe : ℝ} (hmu : 0 < mu) (hs : 0 < safe) (hi : vin ≠ 0) (ho : vout ≠ 0) :
    fbDv vin vout mu safe = if turnAngle safe (dot vin vin) mu < angleV vin vout then
      √(norm vout ^ 2 + norm vin ^ 2
        - 2 * (norm vout * norm vin) * cos (angleV vin vout - turnAngle safe (dot vin vin) mu))
      else |norm vout - norm vin| := by
  unfold fbDv
  rw [fbIneq_run hmu hs hi ho]
  have e : √(dot vout vout * dot vin vin) = norm vout * norm vin := by rw [sqrt_mul (dot_self_nonneg _)]; rfl
  show (if 0 < angleV vin vout - turnAngle safe (dot vin vin) mu then
    √(dot vout vout + dot vin vin - 2 * √(dot vout vout * dot vin vin)
      * cos (angleV vin vout - turnAngle safe (dot vin vin) mu)) else |norm vout - norm vin|) = _
  rw [e, norm_sq, norm_sq]
  simp only [sub_pos]

theorem abs_norm_sub (a b : V3 ℝ) : |norm a - norm b| ≤ norm (a - b) := by
  apply abs_le_of_sq_le_sq _ (norm_nonneg _)
  rw [norm_sub_sq]
  have := (abs_le.1 (abs_dot_le a b)).2
  linarith [sq (norm a - norm b), sub_sq (norm a) (norm b)]

/-- **C28**: the impulse is the smallest distance from the wanted outgoing velocity to an outgoing velocity that an
unpowered fly-by above the safe radius can produce. -/
theorem C28_minimum {vin vout : V3 ℝ} {mu safe : ℝ} (hmu : 0 < mu) (hs : 0 < safe) (hi : vin ≠ 0) (ho : vout ≠ 0) :
    IsLeast {d | ∃ w, Reach vin mu safe w ∧ d = norm (vout - w)} (fbDv vin vout mu safe) := by
  have ni := norm_pos hi
  have no := norm_pos ho
  have hdi : 0 < dot vin vin := by rw [← norm_sq]; positivity
  obtain ⟨m1, m2⟩ := turnAngle_mem hmu hdi hs
  rw [fbDv_run hmu hs hi ho]
  obtain ⟨δ, hδ⟩ : ∃ δ, δ = turnAngle safe (dot vin vin) mu := ⟨_, rfl⟩
  obtain ⟨a1, a2⟩ := angleV_mem vin vout
  obtain ⟨i, e, hii, hee, hie, hvi, hvo⟩ := plane_basis hi ho
  have hsc := sin_sq_add_cos_sq (angleV vin vout)
  constructor
  · split
    · next h =>
      refine ⟨(norm vin * cos (turnAngle safe (dot vin vin) mu)) • i
        + (norm vin * sin (turnAngle safe (dot vin vin) mu)) • e, ?_, ?_⟩
      · have hsd := sin_sq_add_cos_sq (turnAngle safe (dot vin vin) mu)
        constructor
        · rw [← sq_eq_sq₀ (V3.norm_nonneg _) ni.le, norm_sq]
          simp only [dot_add, add_dot, dot_smul, smul_dot, hii, hee, hie, dot_comm e i]
          linear_combination norm vin ^ 2 * hsd
        · right
          refine ⟨safe, le_refl _, ?_⟩
          rw [norm_sq]
          show _ = _ * cos (turnAngle safe (dot vin vin) mu)
          generalize turnAngle safe (dot vin vin) mu = δ
          have : ∀ w, dot vin w = norm vin * dot i w := by
            intro w; nth_rewrite 1 [hvi]; rw [smul_dot]
          rw [this]
          simp only [dot_add, dot_smul, hii, hie]
          ring
      · have hsd := sin_sq_add_cos_sq (turnAngle safe (dot vin vin) mu)
        rw [← sqrt_sq (norm_nonneg (vout - _))]
        congr 1
        rw [cos_sub]
        generalize turnAngle safe (dot vin vin) mu = t at *
        rw [norm_sub_sq, norm_sq (_ + _)]
        have : ∀ w, dot vout w = norm vout * cos (angleV vin vout) * dot i w
            + norm vout * sin (angleV vin vout) * dot e w := by
          intro w; nth_rewrite 1 [hvo]; rw [add_dot, smul_dot, smul_dot]
        rw [this]
        simp only [dot_add, add_dot, dot_smul, smul_dot, hii, hee, hie, dot_comm e i]
        linear_combination (-norm vin ^ 2) * hsd
    · next h =>
      refine ⟨(norm vin / norm vout) • vout, ?_, ?_⟩
      · rw [reach_iff hmu hs hi]
        have hnw : norm ((norm vin / norm vout) • vout) = norm vin := by
          rw [← sqrt_sq (norm_nonneg ((norm vin / norm vout) • vout)), ← sqrt_sq ni.le, norm_sq, dot_smul, smul_dot,
            ← norm_sq]
          rw [sqrt_sq ni.le]
          rw [show norm vin / norm vout * (norm vin / norm vout * norm vout ^ 2) = norm vin ^ 2 by field_simp]
          exact sqrt_sq ni.le
        refine ⟨hnw, ?_⟩
        have : angleV vin ((norm vin / norm vout) • vout) = angleV vin vout := by
          unfold angleV
          rw [hnw, dot_smul]
          congr 1
          field_simp
        rw [this]
        exact not_lt.1 h
      · have : vout - (norm vin / norm vout) • vout = ((norm vout - norm vin) / norm vout) • vout := by
          ext <;> simp <;> field_simp
        rw [this, ← sq_eq_sq₀ (abs_nonneg _) (V3.norm_nonneg _), sq_abs, norm_sq, dot_smul, smul_dot, ← norm_sq]
        field_simp
  · rintro d ⟨w, hw, rfl⟩
    rw [reach_iff hmu hs hi] at hw
    obtain ⟨hw1, hw2⟩ := hw
    have hw0 := ne_of_norm hw1 hi
    split
    · next h =>
      rw [← sqrt_sq (norm_nonneg (vout - w))]
      apply sqrt_le_sqrt
      rw [norm_sub_sq, hw1]
      have h1 := dot_le_cos_sub hi ho hw0
      rw [hw1] at h1
      have h2 : cos (angleV vin vout - angleV vin w) ≤ cos (angleV vin vout - turnAngle safe (dot vin vin) mu) :=
        cos_le_cos_of_nonneg_of_le_pi (by linarith) (by linarith [(angleV_mem vin w).1]) (by linarith)
      have h3 := mul_le_mul_of_nonneg_left h2 (show 0 ≤ norm vout * norm vin by positivity)
      linarith
    · rw [← hw1]; exact abs_norm_sub _ _

/-- **C28**: the impulse is between the difference of the relative speeds and the distance between the two relative
velocities. -/
theorem C28_bounds {vin vout : V3 ℝ} {mu safe : ℝ} (hmu : 0 < mu) (hs : 0 < safe) (hi : vin ≠ 0) (ho : vout ≠ 0) :
    0 ≤ fbDv vin vout mu safe ∧ |norm vout - norm vin| ≤ fbDv vin vout mu safe ∧
      fbDv vin vout mu safe ≤ norm (vout - vin) := by
  obtain ⟨⟨w, h1, h2⟩, h3⟩ := C28_minimum hmu hs hi ho
  refine ⟨by rw [h2]; exact norm_nonneg _, ?_, ?_⟩
  · rw [h2, ← h1.1]; exact abs_norm_sub _ _
  · exact h3 ⟨vin, ⟨rfl, Or.inl (norm_mul_self vin).symm⟩, rfl⟩

/-- **C28**: no impulse is needed exactly when both constraints of `fb_con` are met. -/
theorem C28_zero {vin vout : V3 ℝ} {mu safe : ℝ} (hmu : 0 < mu) (hs : 0 < safe) (hi : vin ≠ 0) (ho : vout ≠ 0) :
    fbDv vin vout mu safe = 0 ↔ (fbCon vin vout mu safe).1 = 0 ∧ ∃ q, (fbCon vin vout mu safe).2 = some q ∧ q ≤ 0 := by
  obtain ⟨eq, ineq, h1, h2, h3⟩ := C27_constraints hmu hs hi ho
  have h4 : fbCon vin vout mu safe = (dot vin vin - dot vout vout, some (angleV vin vout - turnAngle safe (dot vin vin) mu)) := by
    unfold fbCon; rw [fbIneq_run hmu hs hi ho]; rfl
  have hin : angleV vin vout - turnAngle safe (dot vin vin) mu = ineq := by
    rw [h4] at h1; exact Option.some.inj (congrArg Prod.snd h1)
  rw [h1]
  have : (∃ q, some ineq = some q ∧ q ≤ 0) ↔ ineq ≤ 0 :=
    ⟨fun ⟨q, e, h⟩ => by rw [Option.some.inj e]; exact h, fun h => ⟨_, rfl, h⟩⟩
  show _ ↔ eq = 0 ∧ ∃ q, some ineq = some q ∧ q ≤ 0
  rw [this, h2]
  obtain ⟨⟨w, hw1, hw2⟩, hmin⟩ := C28_minimum hmu hs hi ho
  constructor
  · intro h
    rw [h] at hw2
    have : vout = w := by
      have := norm_eq_zero.1 hw2.symm
      have e1 := congrArg V3.x this
      have e2 := congrArg V3.y this
      have e3 := congrArg V3.z this
      simp at e1 e2 e3
      ext <;> linarith
    subst this
    rw [reach_iff hmu hs hi] at hw1
    exact ⟨hw1.1.symm, by rw [← hin]; linarith [hw1.2]⟩
  · rintro ⟨g1, g2⟩
    have hr : Reach vin mu safe vout := (reach_iff hmu hs hi).2 ⟨g1.symm, by linarith⟩
    have h5 := hmin ⟨vout, hr, rfl⟩
    have h0 : norm (vout - vout) = 0 := norm_eq_zero.2 (by ext <;> simp)
    rw [h0] at h5
    exact le_antisymm h5 (C28_bounds hmu hs hi ho).1

/-- Perpendicular unit velocities, with `mu` and the safe radius one: the largest turn is 60 degrees. -/
example : (⟨1, 0, 0⟩ : V3 ℝ) ≠ 0 ∧ (⟨0, 1, 0⟩ : V3 ℝ) ≠ 0 ∧ cross (⟨1, 0, 0⟩ : V3 ℝ) ⟨0, 1, 0⟩ ≠ 0 ∧
    fbCon ⟨1, 0, 0⟩ ⟨0, 1, 0⟩ 1 1 = (0, some (π / 6)) := by
  have h1 : (⟨1, 0, 0⟩ : V3 ℝ) ≠ 0 := fun h => by simpa using congrArg V3.x h
  have h2 : (⟨0, 1, 0⟩ : V3 ℝ) ≠ 0 := fun h => by simpa using congrArg V3.y h
  refine ⟨h1, h2, fun h => by simpa using congrArg V3.z h, ?_⟩
  unfold fbCon
  rw [fbIneq_run one_pos one_pos h1 h2]
  have e : arcsin (1 / 2) = π / 6 := by
    rw [← sin_pi_div_six]; exact arcsin_sin (by linarith [pi_pos]) (by linarith [pi_pos])
  unfold turnAngle
  simp only [dot, V3.norm]
  norm_num
  rw [e]
  ring

end Kep3
